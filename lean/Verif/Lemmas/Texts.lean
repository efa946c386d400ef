import Verif.Model.Texts
import Verif.Spec.Texts
import Mathlib.Data.List.Sort
import Mathlib.Data.List.Perm.Basic
import Mathlib.Data.List.Nodup

/-! # Helper lemmas: texts that can be read back -/

namespace Verif

/-- The characters of a digit. -/
def digitByte (d : Nat) : UInt8 := UInt8.ofNat (Nat.digitChar d).toNat

/-- A number in base `b`. -/
def numText (b n : Nat) : Str := (Nat.toDigits b n).map fun c => UInt8.ofNat c.toNat

theorem numText_eq {b : Nat} (hb : 1 < b) (n : Nat) :
    numText b n = if n < b then [digitByte n] else numText b (n / b) ++ [digitByte (n % b)] := by
  unfold numText
  rw [Nat.toDigits_eq_if hb]
  split <;> simp [digitByte]

theorem itoa_eq (n : Nat) : itoa n = numText 10 n := by
  unfold itoa str numText
  congr 1
  exact Nat.toList_repr

theorem digitByte_inj : ∀ d < 16, ∀ e < 16, digitByte d = digitByte e → d = e := by decide

theorem digitByte_range : ∀ d < 16, (0x30 ≤ (digitByte d).toNat ∧ (digitByte d).toNat ≤ 0x39) ∨
    (0x61 ≤ (digitByte d).toNat ∧ (digitByte d).toNat ≤ 0x66) := by decide

theorem numText_ne_nil (b n : Nat) : numText b n ≠ [] := by
  unfold numText
  simp [Nat.toDigits_ne_nil]

theorem numText_range {b : Nat} (hb : 1 < b) (h16 : b ≤ 16) (n : Nat) : ∀ c ∈ numText b n,
    (0x30 ≤ c.toNat ∧ c.toNat ≤ 0x39) ∨ (0x61 ≤ c.toNat ∧ c.toNat ≤ 0x66) := by
  induction n using Nat.strongRecOn with
  | ind n ih =>
    intro c hc
    rw [numText_eq hb] at hc
    split at hc
    · rw [List.mem_singleton.1 hc]
      exact digitByte_range n (by omega)
    · rcases List.mem_append.1 hc with h | h
      · exact ih (n / b) (Nat.div_lt_self (by omega) hb) c h
      · rw [List.mem_singleton.1 h]
        exact digitByte_range _ (Nat.lt_of_lt_of_le (Nat.mod_lt _ (by omega)) h16)

theorem numText_inj {b : Nat} (hb : 1 < b) (h16 : b ≤ 16) (n m : Nat) (h : numText b n = numText b m) : n = m := by
  induction n using Nat.strongRecOn generalizing m with
  | ind n ih =>
    rw [numText_eq hb n, numText_eq hb m] at h
    have hl : ∀ k, 0 < (numText b k).length := fun k => List.length_pos_iff.2 (numText_ne_nil b k)
    split at h <;> split at h
    · exact digitByte_inj n (by omega) m (by omega) (List.singleton_inj.1 h)
    · have := congrArg List.length h
      simp only [List.length_singleton, List.length_append] at this
      have := hl (m / b)
      omega
    · have := congrArg List.length h
      simp only [List.length_singleton, List.length_append] at this
      have := hl (n / b)
      omega
    · obtain ⟨h1, h2⟩ := List.append_inj' h rfl
      have e1 := ih (n / b) (Nat.div_lt_self (by omega) hb) _ h1
      have e2 := digitByte_inj _ (Nat.lt_of_lt_of_le (Nat.mod_lt _ (by omega)) h16) _
        (Nat.lt_of_lt_of_le (Nat.mod_lt _ (by omega)) h16) (List.singleton_inj.1 h2)
      rw [← Nat.div_add_mod n b, ← Nat.div_add_mod m b, e1, e2]

theorem itoa_inj {n m : Nat} (h : itoa n = itoa m) : n = m := by
  rw [itoa_eq, itoa_eq] at h
  exact numText_inj (by decide) (by decide) n m h

theorem hexText_inj {n m : Nat} (h : hexText n = hexText m) : n = m :=
  numText_inj (b := 16) (by decide) (by decide) n m h

/-- Strings that can be told from what follows, when that is nothing or begins with a comma. -/
def Separable (P : Str → Prop) : Prop := ∀ a b u v, P a → P b → (u = [] ∨ u.head? = some 0x2c) →
  (v = [] ∨ v.head? = some 0x2c) → a ++ u = b ++ v → a = b ∧ u = v

theorem append_stop {t : UInt8} : ∀ (a b u v : Str), t ∉ a → t ∉ b → (u = [] ∨ u.head? = some t) →
    (v = [] ∨ v.head? = some t) → a ++ u = b ++ v → a = b ∧ u = v := by
  intro a
  induction a with
  | nil =>
    intro b u v _ hb hu hv h
    cases b with
    | nil => exact ⟨rfl, h⟩
    | cons x b =>
      rw [List.nil_append, List.cons_append] at h
      rw [h] at hu
      rcases hu with hu | hu
      · cases hu
      · exact absurd (by rw [← Option.some.inj hu]; exact List.mem_cons_self) hb
  | cons x a ih =>
    intro b u v ha hb hu hv h
    cases b with
    | nil =>
      rw [List.nil_append, List.cons_append] at h
      rw [← h] at hv
      rcases hv with hv | hv
      · cases hv
      · exact absurd (by rw [← Option.some.inj hv]; exact List.mem_cons_self) ha
    | cons y b =>
      obtain ⟨rfl, h'⟩ := List.cons.inj h
      obtain ⟨rfl, rfl⟩ := ih b u v (fun hm => ha (List.mem_cons_of_mem _ hm)) (fun hm => hb (List.mem_cons_of_mem _ hm))
        hu hv h'
      exact ⟨rfl, rfl⟩

theorem separable_noComma : Separable fun a => (0x2c : UInt8) ∉ a := fun a b u v ha hb hu hv h =>
  append_stop a b u v ha hb hu hv h

theorem separable_terminated (t : UInt8) : Separable fun a => ∃ c, a = c ++ [t] ∧ t ∉ c := by
  rintro a b u v ⟨c, rfl, hc⟩ ⟨d, rfl, hd⟩ _ _ h
  rw [List.append_assoc, List.append_assoc] at h
  obtain ⟨rfl, h'⟩ := append_stop c d _ _ hc hd (.inr rfl) (.inr rfl) h
  exact ⟨rfl, List.append_cancel_left h'⟩

theorem separable_length (n : Nat) : Separable fun a => a.length = n := fun _ _ _ _ ha hb _ _ h =>
  List.append_inj h (ha.trans hb.symm)

theorem joinComma_cons (a : Str) (l : List Str) : ∃ u, joinComma (a :: l) = a ++ u ∧
    (l = [] ∧ u = [] ∨ l ≠ [] ∧ u = 0x2c :: joinComma l) := by
  cases l with
  | nil => exact ⟨[], by simp [joinComma], .inl ⟨rfl, rfl⟩⟩
  | cons b l => exact ⟨0x2c :: joinComma (b :: l), by simp [joinComma, str], .inr ⟨by simp, rfl⟩⟩

theorem joinComma_inj {P : Str → Prop} (hP : Separable P) : ∀ (l m : List Str), (∀ a ∈ l, P a ∧ a ≠ []) →
    (∀ a ∈ m, P a ∧ a ≠ []) → joinComma l = joinComma m → l = m := by
  intro l
  induction l with
  | nil =>
    intro m _ hm h
    cases m with
    | nil => rfl
    | cons b m =>
      obtain ⟨u, e, _⟩ := joinComma_cons b m
      rw [e] at h
      have := (hm b List.mem_cons_self).2
      cases b with
      | nil => exact absurd rfl this
      | cons x b => simp [joinComma] at h
  | cons a l ih =>
    intro m hl hm h
    cases m with
    | nil =>
      obtain ⟨u, e, _⟩ := joinComma_cons a l
      rw [e] at h
      have := (hl a List.mem_cons_self).2
      cases a with
      | nil => exact absurd rfl this
      | cons x b => simp [joinComma] at h
    | cons b m =>
      obtain ⟨u, e1, hu⟩ := joinComma_cons a l
      obtain ⟨v, e2, hv⟩ := joinComma_cons b m
      rw [e1, e2] at h
      obtain ⟨rfl, h2⟩ := hP a b u v (hl a List.mem_cons_self).1 (hm b List.mem_cons_self).1
        (hu.imp And.right fun h => by rw [h.2]; rfl) (hv.imp And.right fun h => by rw [h.2]; rfl) h
      congr 1
      rcases hu with ⟨h3, h4⟩ | ⟨h3, h4⟩ <;> rcases hv with ⟨h5, h6⟩ | ⟨h5, h6⟩
      · rw [h3, h5]
      · rw [h4, h6] at h2; cases h2
      · rw [h4, h6] at h2; cases h2
      · rw [h4, h6] at h2
        exact ih m (fun x hx => hl x (List.mem_cons_of_mem _ hx)) (fun x hx => hm x (List.mem_cons_of_mem _ hx))
          (List.cons.inj h2).2

theorem joinComma_mem {c : UInt8} : ∀ (l : List Str), c ∈ joinComma l → c = 0x2c ∨ ∃ a ∈ l, c ∈ a := by
  intro l
  induction l with
  | nil => intro h; cases h
  | cons a l ih =>
    intro h
    obtain ⟨u, e, hu⟩ := joinComma_cons a l
    rw [e] at h
    rcases List.mem_append.1 h with h | h
    · exact .inr ⟨a, List.mem_cons_self, h⟩
    · rcases hu with ⟨_, rfl⟩ | ⟨_, rfl⟩
      · cases h
      · rcases List.mem_cons.1 h with h | h
        · exact .inl h
        · rcases ih h with h | ⟨x, hx, h⟩
          · exact .inl h
          · exact .inr ⟨x, List.mem_cons_of_mem _ hx, h⟩

theorem numText_no {b : Nat} (hb : 1 < b) (h16 : b ≤ 16) (n : Nat) (c : UInt8)
    (hc : c.toNat < 0x30 ∨ (0x39 < c.toNat ∧ c.toNat < 0x61) ∨ 0x66 < c.toNat) : c ∉ numText b n := by
  intro h
  have := numText_range hb h16 n c h
  omega

theorem tagSetText_inj {s t : List UInt8} (h : tagSetText s = tagSetText t) : s = t := by
  unfold tagSetText at h
  have h := List.append_cancel_left (List.append_cancel_right h)
  have ok : ∀ s : List UInt8, ∀ a ∈ s.map (fun t => itoa t.toNat), (0x2c : UInt8) ∉ a ∧ a ≠ [] := by
    intro s a ha
    obtain ⟨x, _, rfl⟩ := List.mem_map.1 ha
    rw [itoa_eq]
    exact ⟨numText_no (by decide) (by decide) _ _ (by decide), numText_ne_nil _ _⟩
  have := joinComma_inj separable_noComma _ _ (ok s) (ok t) h
  exact List.map_injective_iff.2 (fun a b e => UInt8.toNat_inj.1 (itoa_inj e)) this

theorem tagSetText_terminated (s : List UInt8) : ∃ c, tagSetText s = c ++ [0x29] ∧ (0x29 : UInt8) ∉ c := by
  refine ⟨str "TS" ++ str "(" ++ joinComma (s.map fun t => itoa t.toNat), rfl, ?_⟩
  intro h
  rcases List.mem_append.1 h with h | h
  · revert h; decide
  · rcases joinComma_mem _ h with h | ⟨a, ha, h⟩
    · revert h; decide
    · obtain ⟨x, _, rfl⟩ := List.mem_map.1 ha
      rw [itoa_eq] at h
      exact numText_no (by decide) (by decide) _ _ (by decide) h

theorem tagSetTableText_inj {s t : List (List UInt8)} (h : tagSetTableText s = tagSetTableText t) : s = t := by
  unfold tagSetTableText at h
  have h := List.append_cancel_left (List.append_cancel_right h)
  have ok : ∀ s : List (List UInt8), ∀ a ∈ s.zipIdx.map (fun e => itoa e.2 ++ str ": " ++ tagSetText e.1),
      (∃ c, a = c ++ [0x29] ∧ (0x29 : UInt8) ∉ c) ∧ a ≠ [] := by
    intro s a ha
    obtain ⟨x, _, rfl⟩ := List.mem_map.1 ha
    obtain ⟨c, hc, hn⟩ := tagSetText_terminated x.1
    refine ⟨⟨itoa x.2 ++ str ": " ++ c, by rw [hc]; simp, ?_⟩, by rw [hc]; simp⟩
    intro h
    rcases List.mem_append.1 h with h | h
    · rcases List.mem_append.1 h with h | h
      · rw [itoa_eq] at h
        exact numText_no (by decide) (by decide) _ _ (by decide) h
      · revert h; decide
    · exact hn h
  have e := joinComma_inj (separable_terminated 0x29) _ _ (ok s) (ok t) h
  apply List.ext_getElem?
  intro i
  have := congrArg (fun l : List Str => l[i]?) e
  simp only [List.getElem?_map, List.getElem?_zipIdx, Option.map_map, Nat.zero_add] at this
  cases h1 : s[i]? <;> cases h2 : t[i]? <;> rw [h1, h2] at this
  · cases this
  · cases this
  · have := Option.some.inj this
    simp only [Function.comp_def] at this
    rw [tagSetText_inj (List.append_cancel_left this)]

theorem collectionText_inj {s t : List TagSetID} (h : collectionText s = collectionText t) : s = t := by
  unfold collectionText at h
  have h := List.append_cancel_left (List.append_cancel_right h)
  have ok : ∀ s : List TagSetID, ∀ a ∈ s.map (fun t => hexText t.toNat), (0x2c : UInt8) ∉ a ∧ a ≠ [] := by
    intro s a ha
    obtain ⟨x, _, rfl⟩ := List.mem_map.1 ha
    exact ⟨numText_no (b := 16) (by decide) (by decide) _ _ (by decide), numText_ne_nil 16 _⟩
  have := joinComma_inj separable_noComma _ _ (ok s) (ok t) h
  exact List.map_injective_iff.2 (fun a b e => UInt32.toNat_inj.1 (hexText_inj e)) this

theorem enumerations_perm {α β : Type} {m : α → Option β} {a b : List (α × β)} (ha : Enumerates m a)
    (hb : Enumerates m b) : a.Perm b :=
  (List.perm_ext_iff_of_nodup ha.once.of_map hb.once.of_map).2 fun e => by rw [ha.mem, hb.mem]

theorem sortAsc_strings_perm {a b : List Str} (h : a.Perm b) : sortAsc a = sortAsc b := by
  have tr : ∀ l : List Str, (sortAsc l).Pairwise (· ≤ ·) := fun l => by
    unfold sortAsc
    have : Std.Total (α := Str) (· ≤ ·) := ⟨fun a b => List.le_total a b⟩
    have : IsTrans Str (· ≤ ·) := ⟨fun a b c h1 h2 => List.le_trans h1 h2⟩
    exact List.pairwise_insertionSort _ l
  refine List.Perm.eq_of_pairwise ?_ (tr a) (tr b) ?_
  · intro x y _ _ h1 h2
    exact List.le_antisymm h1 h2
  · unfold sortAsc
    exact (List.perm_insertionSort _ a).trans (h.trans (List.perm_insertionSort _ b).symm)

end Verif
