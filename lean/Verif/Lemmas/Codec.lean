import Verif.Model.Codec
import Verif.Lemmas.Basic

/-! # Helper lemmas: readers and writers -/

namespace Verif

/-! ## Round trips, framing, no crashes -/

/-- `r` reads `a` off the front of a stream starting with `w`, consuming exactly `w`. -/
def RT {α : Type} (r : Rd α) (w : Str) (a : α) : Prop := ∀ t, r (w ++ t) = .ok (a, t)

/-- What `r` accepts depends only on the bytes it consumed. -/
def Framed {α : Type} (r : Rd α) : Prop :=
  ∀ s a s', r s = .ok (a, s') → ∃ u, s = u ++ s' ∧ RT r u a

/-- `r` returns a value or an error on every stream. -/
def NoCrash {α : Type} (r : Rd α) : Prop := ∀ s, (∃ x, r s = .ok x) ∨ ∃ e, r s = .err e

section
variable {α β : Type}

theorem RT.pure (a : α) : RT (Rd.pure a) [] a := fun _ => rfl

theorem RT.bind {r : Rd α} {f : α → Rd β} {w1 w2 : Str} {a : α} {b : β} (h1 : RT r w1 a)
    (h2 : RT (f a) w2 b) : RT (Rd.bind r f) (w1 ++ w2) b := by
  intro t
  unfold Rd.bind
  rw [List.append_assoc, h1]
  exact h2 t

theorem Framed.pure (a : α) : Framed (Rd.pure a) := by
  intro s b s' h
  obtain ⟨rfl, rfl⟩ := Prod.mk.inj (Out.ok.inj h)
  exact ⟨[], rfl, RT.pure a⟩

theorem Framed.bind {r : Rd α} {f : α → Rd β} (h1 : Framed r) (h2 : ∀ a, Framed (f a)) :
    Framed (Rd.bind r f) := by
  intro s b s' h
  unfold Rd.bind at h
  cases hr : r s with
  | ok x =>
    obtain ⟨a, s1⟩ := x
    rw [hr] at h
    obtain ⟨u1, rfl, hu1⟩ := h1 s a s1 hr
    obtain ⟨u2, rfl, hu2⟩ := h2 a s1 b s' h
    exact ⟨u1 ++ u2, by simp, hu1.bind hu2⟩
  | err e => rw [hr] at h; cases h
  | panic => rw [hr] at h; cases h
  | diverge => rw [hr] at h; cases h

theorem Framed.fail (e : Err) : Framed (fun _ => .err e : Rd α) := by
  intro s a s' h; cases h

theorem NoCrash.pure (a : α) : NoCrash (Rd.pure a) := fun _ => .inl ⟨_, rfl⟩

theorem NoCrash.bind {r : Rd α} {f : α → Rd β} (h1 : NoCrash r) (h2 : ∀ a, NoCrash (f a)) :
    NoCrash (Rd.bind r f) := by
  intro s
  unfold Rd.bind
  rcases h1 s with ⟨x, hx⟩ | ⟨e, he⟩
  · rw [hx]; exact h2 x.1 x.2
  · rw [he]; exact .inr ⟨e, rfl⟩

theorem Framed.readN {r : Rd α} (h : Framed r) : ∀ n, Framed (readN r n)
  | 0 => Framed.pure _
  | n + 1 => h.bind fun _ => (Framed.readN h n).bind fun _ => Framed.pure _

theorem NoCrash.readN {r : Rd α} (h : NoCrash r) : ∀ n, NoCrash (readN r n)
  | 0 => NoCrash.pure _
  | n + 1 => h.bind fun _ => (NoCrash.readN h n).bind fun _ => NoCrash.pure _

/-- A reader that consumed a whole stream fails on every strict prefix of it. -/
theorem Framed.strict_prefix {r : Rd α} (hf : Framed r) (hn : NoCrash r) {p q : Str} {a : α}
    (h : r (p ++ q) = .ok (a, [])) (hq : q ≠ []) : ∃ e, r p = .err e := by
  rcases hn p with ⟨⟨b, p'⟩, hp⟩ | h'
  · obtain ⟨u, rfl, hu⟩ := hf p b p' hp
    rw [List.append_assoc, hu] at h
    have := (Prod.mk.inj (Out.ok.inj h)).2
    exact absurd (List.append_eq_nil_iff.1 this).2 hq
  · exact h'

end

/-! ## Primitive readers -/

theorem RT_U8 (x : UInt8) : RT readU8 (writeU8 x).bytes x := fun _ => rfl

theorem RT_U16 (x : UInt16) : RT readU16 (writeU16 x).bytes x := by
  intro t
  have hx := x.toNat_lt
  simp only [writeU16, Wr.put, List.cons_append, List.nil_append, readU16]
  congr 2
  apply UInt16.toNat_inj.1
  simp only [UInt16.toNat_ofNat', UInt8.toNat_ofNat']
  omega

theorem RT_U32 (x : UInt32) : RT readU32 (writeU32 x).bytes x := by
  intro t
  have hx := x.toNat_lt
  simp only [writeU32, Wr.put, List.cons_append, List.nil_append, readU32]
  congr 2
  apply UInt32.toNat_inj.1
  simp only [UInt32.toNat_ofNat', UInt8.toNat_ofNat']
  omega

theorem RT_bytes {n : Nat} {b : Str} (h : b.length = n) : RT (readBytes n) b b := by
  subst h
  intro t
  simp [readBytes]

theorem RT_stringZ {b : Str} (h : (0 : UInt8) ∉ b) : RT readStringZ (b ++ [0]) b := by
  intro t
  induction b with
  | nil => rfl
  | cons a b ih =>
    simp only [List.mem_cons, not_or] at h
    simp only [List.cons_append, readStringZ]
    rw [if_neg (fun e => h.1 e.symm), ih h.2]
    rfl

theorem Framed_U8 : Framed readU8 := by
  intro s a s' h
  cases s with
  | nil => cases h
  | cons b s =>
    obtain ⟨rfl, rfl⟩ := Prod.mk.inj (Out.ok.inj h)
    exact ⟨[b], rfl, fun _ => rfl⟩

theorem Framed_U16 : Framed readU16 := by
  intro s a s' h
  match s with
  | [] => cases h
  | [_] => cases h
  | b :: c :: s =>
    obtain ⟨rfl, rfl⟩ := Prod.mk.inj (Out.ok.inj h)
    exact ⟨[b, c], rfl, fun _ => rfl⟩

theorem Framed_U32 : Framed readU32 := by
  intro s a s' h
  match s with
  | [] => cases h
  | [_] => cases h
  | [_, _] => cases h
  | [_, _, _] => cases h
  | b :: c :: d :: e :: s =>
    obtain ⟨rfl, rfl⟩ := Prod.mk.inj (Out.ok.inj h)
    exact ⟨[b, c, d, e], rfl, fun _ => rfl⟩

theorem Framed_bytes (n : Nat) : Framed (readBytes n) := by
  intro s a s' h
  unfold readBytes at h
  split at h
  · cases h
  · obtain ⟨rfl, rfl⟩ := Prod.mk.inj (Out.ok.inj h)
    refine ⟨s.take n, (List.take_append_drop n s).symm, RT_bytes ?_⟩
    rw [List.length_take]; omega

theorem readStringZ_noCrash : NoCrash readStringZ := by
  intro s
  induction s with
  | nil => exact .inr ⟨_, rfl⟩
  | cons a s ih =>
    unfold readStringZ
    split
    · exact .inl ⟨_, rfl⟩
    · rcases ih with ⟨x, hx⟩ | ⟨e, he⟩
      · rw [hx]; exact .inl ⟨_, rfl⟩
      · rw [he]; exact .inr ⟨_, rfl⟩

theorem Framed_stringZ : Framed readStringZ := by
  intro s
  induction s with
  | nil => intro a s' h; cases h
  | cons b s ih =>
    intro a s' h
    unfold readStringZ at h
    split at h
    · rename_i hb
      subst hb
      obtain ⟨rfl, rfl⟩ := Prod.mk.inj (Out.ok.inj h)
      exact ⟨[0], rfl, fun _ => rfl⟩
    · rename_i hb
      rcases readStringZ_noCrash s with ⟨⟨t, s1⟩, hx⟩ | ⟨e, he⟩
      · rw [hx] at h
        obtain ⟨rfl, rfl⟩ := Prod.mk.inj (Out.ok.inj h)
        obtain ⟨u, rfl, hu⟩ := ih t s1 hx
        refine ⟨b :: u, rfl, fun t' => ?_⟩
        simp only [List.cons_append, readStringZ]
        rw [if_neg hb, hu]
        rfl
      · rw [he] at h; cases h

theorem NoCrash_U8 : NoCrash readU8 := by
  intro s; cases s <;> simp [readU8]

theorem NoCrash_U16 : NoCrash readU16 := by
  intro s; unfold readU16; split <;> simp

theorem NoCrash_U32 : NoCrash readU32 := by
  intro s; unfold readU32; split <;> simp

theorem NoCrash_bytes (n : Nat) : NoCrash (readBytes n) := by
  intro s; unfold readBytes; split <;> simp

/-! ## Writers -/

theorem Wr.seq_err (a b : Wr) : (Wr.seq a b).err = none ↔ a.err = none ∧ b.err = none := by
  unfold Wr.seq
  cases h : a.err <;> simp [h]

theorem Wr.seq_bytes {a b : Wr} (h : a.err = none) : (Wr.seq a b).bytes = a.bytes ++ b.bytes := by
  unfold Wr.seq
  rw [h]

theorem Wr.all_err {α : Type} (w : α → Wr) (l : List α) :
    (Wr.all w l).err = none ↔ ∀ x ∈ l, (w x).err = none := by
  induction l with
  | nil => simp [Wr.all, Wr.put]
  | cons a l ih => simp [Wr.all, Wr.seq_err, ih]

theorem Wr.put_err (b : Str) : (Wr.put b).err = none := rfl

theorem RT_all {α : Type} {r : Rd α} {w : α → Wr} {f : α → α} :
    ∀ (l : List α), (∀ x ∈ l, (w x).err = none) → (∀ x ∈ l, RT r (w x).bytes (f x)) →
      RT (readN r l.length) (Wr.all w l).bytes (l.map f)
  | [], _, _ => RT.pure _
  | a :: l, he, h => by
    rw [Wr.all, Wr.seq_bytes (he a (by simp))]
    refine (h a (by simp)).bind ?_
    have := (RT_all l (fun x hx => he x (by simp [hx])) (fun x hx => h x (by simp [hx]))).bind
      (f := fun as => Rd.pure (f a :: as)) (w2 := []) (b := f a :: l.map f) (RT.pure _)
    simpa using this

/-- Counted lists: a length followed by that many elements. -/
theorem RT_counted {α κ : Type} {rc : Rd κ} {toNat : κ → Nat} {c : κ} {wc : Wr} {r : Rd α}
    {w : α → Wr} {f : α → α} {l : List α} (hc : RT rc wc.bytes c) (hce : wc.err = none)
    (hn : toNat c = l.length) (he : ∀ x ∈ l, (w x).err = none)
    (h : ∀ x ∈ l, RT r (w x).bytes (f x)) :
    RT (Rd.bind rc fun n => readN r (toNat n)) (Wr.seq wc (Wr.all w l)).bytes (l.map f) := by
  rw [Wr.seq_bytes hce]
  refine hc.bind ?_
  rw [hn]
  exact RT_all l he h

end Verif
