import Verif.Model.Printed
import Verif.Lemmas.Texts
import Verif.Lemmas.Utf8
import Verif.Lemmas.Numbers

/-! # Helper lemmas: reading the text of a node back -/

namespace Verif

/-! ### Bytes after which the line of the parent may begin -/

/-- The bytes of "\nParent:". -/
def parentBytes : Str := str "\nParent:"

/-- No eight consecutive bytes are among those of "\nParent:", given that the last `k` bytes before were. -/
def Runs : Nat → Str → Prop
  | _, [] => True
  | k, c :: s => if c ∈ parentBytes then k < 7 ∧ Runs (k + 1) s else Runs 0 s

theorem Runs.mono : ∀ {s : Str} {j k : Nat}, Runs k s → j ≤ k → Runs j s
  | [], _, _, _, _ => trivial
  | c :: s, j, k, h, hjk => by
    unfold Runs at h ⊢
    split
    · rename_i hc
      rw [if_pos hc] at h
      exact ⟨by omega, h.2.mono (by omega)⟩
    · rename_i hc
      rw [if_neg hc] at h
      exact h

/-- Going from a run of `a` bytes to one of at most `b`. -/
def Tr (a : Nat) (s : Str) (b : Nat) : Prop := ∀ t, Runs b t → Runs a (s ++ t)

theorem Tr.append {a b c : Nat} {s t : Str} (h : Tr a s b) (h' : Tr b t c) : Tr a (s ++ t) c := by
  intro u hu
  rw [List.append_assoc]
  exact h _ (h' _ hu)

theorem Tr.weaken {a a' b b' : Nat} {s : Str} (h : Tr a s b) (ha : a' ≤ a) (hb : b ≤ b') : Tr a' s b' :=
  fun t ht => (h t (ht.mono hb)).mono ha

theorem Tr.nil (a : Nat) : Tr a [] a := fun _ h => h

theorem Tr.out {a : Nat} {c : UInt8} (hc : c ∉ parentBytes) : Tr a [c] 0 := by
  intro t ht
  show Runs a (c :: t)
  unfold Runs
  rw [if_neg hc]
  exact ht

theorem Tr.one {a : Nat} (c : UInt8) (ha : a < 7) : Tr a [c] (a + 1) := by
  intro t ht
  show Runs a (c :: t)
  unfold Runs
  split
  · exact ⟨ha, ht⟩
  · exact ht.mono (Nat.zero_le _)

theorem Tr.any {a : Nat} : ∀ (s : Str), a + s.length ≤ 7 → Tr a s (a + s.length)
  | [], _ => Tr.nil a
  | c :: s, h => by
    rw [List.length_cons] at h ⊢
    have := (Tr.one c (show a < 7 by omega)).append (Tr.any (a := a + 1) s (by omega))
    rw [show a + (s.length + 1) = a + 1 + s.length by omega]
    exact this

theorem Tr.clean {a : Nat} : ∀ (s : Str), (∀ c ∈ s, c ∉ parentBytes) → s ≠ [] → Tr a s 0
  | [], _, h => absurd rfl h
  | [c], h, _ => Tr.out (h c List.mem_cons_self)
  | c :: d :: s, h, _ => (Tr.out (h c List.mem_cons_self)).append
      (Tr.clean (d :: s) (fun x hx => h x (List.mem_cons_of_mem _ hx)) (by simp))

theorem digit_out {c : UInt8} (h : (0x30 ≤ c.toNat ∧ c.toNat ≤ 0x39)) : c ∉ parentBytes := by
  intro hm
  have : ∀ c ∈ parentBytes, ¬ (0x30 ≤ c.toNat ∧ c.toNat ≤ 0x39) := by decide
  exact this c hm h

theorem itoa_digit {n : Nat} {c : UInt8} (h : c ∈ itoa n) : 0x30 ≤ c.toNat ∧ c.toNat ≤ 0x39 := by
  rw [itoa_eq] at h
  have key : ∀ d < 10, 0x30 ≤ (digitByte d).toNat ∧ (digitByte d).toNat ≤ 0x39 := by decide
  induction n using Nat.strongRecOn with
  | ind n ih =>
    rw [numText_eq (by decide)] at h
    split at h
    · rw [List.mem_singleton.1 h]
      exact key n (by omega)
    · rcases List.mem_append.1 h with h | h
      · exact ih (n / 10) (by omega) h
      · rw [List.mem_singleton.1 h]
        exact key _ (Nat.mod_lt _ (by decide))

theorem itoa_ne_nil (n : Nat) : itoa n ≠ [] := by
  rw [itoa_eq]
  exact numText_ne_nil _ _

theorem Tr.itoa (a n : Nat) : Tr a (itoa n) 0 :=
  Tr.clean _ (fun _ hc => digit_out (itoa_digit hc)) (itoa_ne_nil n)

theorem pad2_digit {n : Nat} {c : UInt8} (h : c ∈ pad2 n) : 0x30 ≤ c.toNat ∧ c.toNat ≤ 0x39 := by
  unfold pad2 at h
  rcases List.mem_append.1 h with h | h
  · rw [(List.mem_replicate.1 h).2]; decide
  · exact itoa_digit h

theorem pad2_ne_nil (n : Nat) : pad2 n ≠ [] := by
  unfold pad2
  intro h
  exact itoa_ne_nil n (List.append_eq_nil_iff.1 h).2

theorem Tr.pad2 (a n : Nat) : Tr a (pad2 n) 0 :=
  Tr.clean _ (fun _ hc => digit_out (pad2_digit hc)) (pad2_ne_nil n)

/-- A text the bytes of which have no such run contains no "\nParent:". -/
theorem Runs.no_parent : ∀ {s : Str} {k : Nat}, Runs k s → ∀ t, ¬ (str "\nParent:" ++ t = s)
  | s, k, h, t => by
    rintro rfl
    have e : str "\nParent:" = [0x0a, 0x50, 0x61, 0x72, 0x65, 0x6e, 0x74, 0x3a] := by decide
    rw [e] at h
    have step : ∀ {k : Nat} {c : UInt8} {s : Str}, c ∈ parentBytes → Runs k (c :: s) → k < 7 ∧ Runs (k + 1) s := by
      intro k c s hc h
      unfold Runs at h
      rwa [if_pos hc] at h
    have h1 := step (by decide) h
    have h2 := step (by decide) h1.2
    have h3 := step (by decide) h2.2
    have h4 := step (by decide) h3.2
    have h5 := step (by decide) h4.2
    have h6 := step (by decide) h5.2
    have h7 := step (by decide) h6.2
    have h8 := step (by decide) h7.2
    omega

theorem Runs.tail {c : UInt8} {s : Str} {k : Nat} (h : Runs k (c :: s)) : Runs 0 s := by
  unfold Runs at h
  split at h
  · exact h.2.mono (Nat.zero_le _)
  · exact h

theorem Runs.drop : ∀ {s u : Str} {k : Nat}, Runs k (s ++ u) → Runs 0 u
  | [], _, _, h => h.mono (Nat.zero_le _)
  | _ :: s, _, _, h => Runs.drop (s := s) (k := 0) h.tail

/-- A text without "\nParent:" inside can be told from whatever comes before "\nParent:". -/
theorem parent_split {w w' r r' : Str} (hr : Runs 0 r) (hr' : Runs 0 r')
    (h : w ++ (str "\nParent:" ++ r) = w' ++ (str "\nParent:" ++ r')) : w = w' ∧ r = r' := by
  have half : ∀ (w d r r' : Str), d ≠ [] → Runs 0 r → w ++ (str "\nParent:" ++ r) ≠ w ++ d ++ (str "\nParent:" ++ r') := by
    intro w d r r' hd hr h
    rw [List.append_assoc] at h
    have h := List.append_cancel_left h
    have e : str "\nParent:" = [0x0a, 0x50, 0x61, 0x72, 0x65, 0x6e, 0x74, 0x3a] := by decide
    match d, hd with
    | [a], _ => rw [e] at h; cases h
    | [a, b], _ => rw [e] at h; cases h
    | [a, b, c], _ => rw [e] at h; cases h
    | [a, b, c, d], _ => rw [e] at h; cases h
    | [a, b, c, d, f], _ => rw [e] at h; cases h
    | [a, b, c, d, f, g], _ => rw [e] at h; cases h
    | [a, b, c, d, f, g, i], _ => rw [e] at h; cases h
    | a :: b :: c :: d :: f :: g :: i :: j :: x, _ =>
      have : r = x ++ (str "\nParent:" ++ r') := by
        rw [e] at h ⊢
        simp only [List.cons_append, List.nil_append, List.cons.injEq] at h
        simpa using h.2.2.2.2.2.2.2.2
      rw [this] at hr
      exact hr.drop.no_parent r' rfl
  rcases Nat.lt_trichotomy w.length w'.length with hl | hl | hl
  · exfalso
    have hp : w <+: w' := by
      have h1 : w <+: w' ++ (str "\nParent:" ++ r') := ⟨_, h⟩
      exact List.prefix_of_prefix_length_le h1 (List.prefix_append ..) (by omega)
    obtain ⟨d, rfl⟩ := hp
    exact half w d r r' (by rintro rfl; simp at hl) hr h
  · obtain ⟨rfl, h2⟩ := List.append_inj h hl
    exact ⟨rfl, List.append_cancel_left h2⟩
  · exfalso
    have hp : w' <+: w := by
      have h1 : w' <+: w ++ (str "\nParent:" ++ r) := ⟨_, h.symm⟩
      exact List.prefix_of_prefix_length_le h1 (List.prefix_append ..) (by omega)
    obtain ⟨d, rfl⟩ := hp
    exact half w' d r' r (by rintro rfl; simp at hl) hr' h.symm

/-! ### The part after the parent has no such run -/

theorem Tr.joinComma : ∀ (l : List Str), (∀ a ∈ l, a.length = 4) → Tr 0 (joinComma l) 4
  | [], _ => (Tr.nil 0).weaken (Nat.le_refl _) (by omega)
  | [a], h => by
    have := Tr.any (a := 0) a (by rw [h a List.mem_cons_self]; omega)
    rw [h a List.mem_cons_self] at this
    exact this
  | a :: b :: l, h => by
    have h1 := Tr.any (a := 0) a (by rw [h a List.mem_cons_self]; omega)
    have h3 := Tr.joinComma (b :: l) fun x hx => h x (List.mem_cons_of_mem _ hx)
    exact (h1.append (Tr.out (c := 0x2c) (by decide))).append h3

theorem Tr.reading (i : Nat) (t : List Tag) (h : ∀ x ∈ t, x.name.length = 4) : Tr 6 (readingLine i t) 0 := by
  unfold readingLine
  have e1 : str "\n- " = [0x0a] ++ ([0x2d] ++ [0x20]) := by decide
  have e2 : str ": (" = [0x3a] ++ ([0x20] ++ [0x28]) := by decide
  rw [e1, e2]
  refine Tr.append (b := 0) ?_ (Tr.append (b := 0) (Tr.pad2 _ _) (Tr.append (b := 0) ?_ (Tr.append (b := 4) ?_ ?_)))
  · exact (Tr.one 0x0a (by omega)).append ((Tr.out (by decide)).append (Tr.out (by decide)))
  · exact (Tr.one 0x3a (by omega)).append ((Tr.out (by decide)).append (Tr.out (by decide)))
  · exact Tr.joinComma _ (by intro a ha; obtain ⟨x, hx, rfl⟩ := List.mem_map.1 ha; exact h x hx)
  · exact Tr.out (c := 0x29) (by decide)

theorem Tr.readings : ∀ (L : List (List Tag)) (i : Nat), (∀ t ∈ L, ∀ x ∈ t, x.name.length = 4) →
    Tr 0 (readingLines i L) 0
  | [], _, _ => Tr.nil 0
  | t :: L, i, h => ((Tr.reading i t (h t List.mem_cons_self)).weaken (by omega) (by omega)).append
      (Tr.readings L (i + 1) fun x hx => h x (List.mem_cons_of_mem _ hx))

theorem hexUpper_out {n : Nat} {c : UInt8} (h : c ∈ hexUpper n) : c ∉ parentBytes := by
  intro hm
  have : ∀ c ∈ parentBytes, ∀ d < 16, upperDigit (digitByte d) ≠ c := by decide
  exact hexUpper_no n (this c hm) h

theorem hexUpper_ne_nil (n : Nat) : hexUpper n ≠ [] := by
  rw [hexUpper_eq]
  simpa using numText_ne_nil 16 n

/-- A literal text, checked byte by byte. -/
def runsTo : Nat → Str → Option Nat
  | k, [] => some k
  | k, c :: s => if c ∈ parentBytes then if k < 7 then runsTo (k + 1) s else none else runsTo 0 s

theorem Tr.lit : ∀ {a b : Nat} (s : Str), runsTo a s = some b → Tr a s b
  | a, b, [], h => by
    obtain rfl := Option.some.inj h
    exact Tr.nil _
  | a, b, c :: s, h => by
    unfold runsTo at h
    split at h
    · split at h
      · rename_i ha
        exact (Tr.one c ha).append (Tr.lit s h)
      · cases h
    · rename_i hc
      exact (Tr.out hc).append (Tr.lit s h)

theorem Tr.variants (v : VariantID) (L : List (List Tag)) (h : ∀ t ∈ L, ∀ x ∈ t, x.name.length = 4) :
    Tr 1 (variantsText v L) 1 := by
  unfold variantsText
  split
  · refine (Tr.lit (b := 0) _ (by decide)).append ((Tr.itoa 0 _).append ((Tr.lit (b := 0) _ (by decide)).append
      ((Tr.clean (a := 0) _ (fun c hc => hexUpper_out hc) (hexUpper_ne_nil _)).append
      ((Tr.lit (b := 0) _ (by decide)).append ((Tr.itoa 0 _).append ((Tr.lit (b := 0) _ (by decide)).append
      ((Tr.readings L 0 h).append (Tr.lit _ (by decide)))))))))
  · exact Tr.lit _ (by decide)

theorem encodeRune_length (r : Rune) : (encodeRune r).length ≤ 4 := by
  unfold encodeRune
  simp only
  split
  · simp
  · split
    · simp
    · split
      · simp
      · split <;> simp

/-- The decimal text of a rune. -/
def runeText (r : Rune) : Str := if 0 ≤ r.toInt then itoa r.toInt.toNat else str "-" ++ itoa (-r.toInt).toNat

/-- The line of a child without the mark and the end. -/
def childBody (e : Rune × ID) : Str :=
  encodeRune e.1 ++ str "[" ++ runeText e.1 ++ str "]: " ++ itoa e.2.toNat

theorem childLines_eq (entries : List (Rune × ID)) :
    childLines entries = (sortAsc (entries.map childBody)).map fun l => str "- " ++ l ++ str "\n" := rfl

theorem runeText_out {r : Rune} {c : UInt8} (h : c ∈ runeText r) : c ∉ parentBytes ∧ c ≠ 0x5d := by
  unfold runeText at h
  split at h
  · have := itoa_digit h
    refine ⟨digit_out this, ?_⟩
    rintro rfl
    revert this
    decide
  · rcases List.mem_append.1 h with h | h
    · rw [List.mem_singleton.1 h]
      decide
    · have := itoa_digit h
      refine ⟨digit_out this, ?_⟩
      rintro rfl
      revert this
      decide

theorem runeText_ne_nil (r : Rune) : runeText r ≠ [] := by
  unfold runeText
  split
  · exact itoa_ne_nil _
  · simp [str]

theorem Tr.child (e : Rune × ID) : Tr 2 (str "- " ++ childBody e ++ str "\n") 2 := by
  unfold childBody
  have h := Tr.any (a := 0) (encodeRune e.1) (by have := encodeRune_length e.1; omega)
  refine Tr.append (b := 0) (Tr.append (b := 0) (Tr.lit _ (by decide)) ?_)
    ((Tr.lit (b := 1) _ (by decide)).weaken (Nat.le_refl _) (by omega))
  refine Tr.append (b := 0) (Tr.append (b := 0) (Tr.append (b := 0) (Tr.append h (Tr.out (by decide))) ?_)
    (Tr.lit _ (by decide))) (Tr.itoa _ _)
  exact Tr.clean _ (fun c hc => (runeText_out hc).1) (runeText_ne_nil _)

theorem mem_sortAsc_str {l : List Str} {a : Str} : a ∈ sortAsc l ↔ a ∈ l :=
  (List.perm_insertionSort _ l).mem_iff

theorem Tr.children (entries : List (Rune × ID)) : Tr 1 (childrenText entries) 2 := by
  unfold childrenText
  split
  · refine (Tr.lit (b := 0) _ (by decide)).append ((Tr.itoa 0 _).append ((Tr.lit (b := 2) _ (by decide)).append ?_))
    rw [childLines_eq]
    have : ∀ a ∈ sortAsc (entries.map childBody), ∃ e, a = childBody e := by
      intro a ha
      obtain ⟨e, -, rfl⟩ := List.mem_map.1 (mem_sortAsc_str.1 ha)
      exact ⟨e, rfl⟩
    generalize sortAsc (entries.map childBody) = l at this
    induction l with
    | nil => exact Tr.nil 2
    | cons a l ih =>
      rw [List.map_cons, List.flatten_cons]
      obtain ⟨e, rfl⟩ := this a List.mem_cons_self
      exact (Tr.child e).append (ih fun x hx => this x (List.mem_cons_of_mem _ hx))
  · exact (Tr.lit (b := 1) _ (by decide)).weaken (Nat.le_refl _) (by omega)

/-! ### Reading back -/

/-- A byte that is not in `a` or `b` ends both. -/
theorem stop_split {t : UInt8} {a b u v : Str} (ha : t ∉ a) (hb : t ∉ b) (h : a ++ t :: u = b ++ t :: v) :
    a = b ∧ u = v := by
  obtain ⟨rfl, h2⟩ := append_stop a b (t :: u) (t :: v) ha hb (.inr rfl) (.inr rfl) h
  exact ⟨rfl, (List.cons.inj h2).2⟩

theorem itoa_no {n : Nat} {c : UInt8} (hc : ¬ (0x30 ≤ c.toNat ∧ c.toNat ≤ 0x39)) : c ∉ itoa n :=
  fun h => hc (itoa_digit h)

theorem pad2_no {n : Nat} {c : UInt8} (hc : ¬ (0x30 ≤ c.toNat ∧ c.toNat ≤ 0x39)) : c ∉ pad2 n :=
  fun h => hc (pad2_digit h)

/-- What follows the tags of a reading: a new line whose fourth byte is no separator. -/
def AfterReading (r : Str) : Prop := ∃ x y z t, r = 0x0a :: x :: y :: z :: t ∧ z ≠ 0x2c ∧ z ≠ 0x29

theorem names_split : ∀ (a b : List Str) (r r' : Str), (∀ x ∈ a, x.length = 4) → (∀ x ∈ b, x.length = 4) →
    AfterReading r → AfterReading r' → joinComma a ++ 0x29 :: r = joinComma b ++ 0x29 :: r' → a = b ∧ r = r' := by
  have five : ∀ (n : Str) (l : List Str) (r : Str), n.length = 4 →
      ∃ p q s t c u, joinComma (n :: l) ++ 0x29 :: r = p :: q :: s :: t :: c :: u ∧ (c = 0x2c ∨ c = 0x29) ∧ n = [p, q, s, t] ∧
        (c = 0x29 ↔ l = []) ∧ (l = [] → u = r) ∧ (l ≠ [] → u = joinComma l ++ 0x29 :: r) := by
    intro n l r hn
    match n, hn with
    | [p, q, s, t], _ =>
      cases l with
      | nil => exact ⟨p, q, s, t, 0x29, r, rfl, .inr rfl, rfl, by simp, fun _ => rfl, fun h => absurd rfl h⟩
      | cons b l =>
        exact ⟨p, q, s, t, 0x2c, joinComma (b :: l) ++ 0x29 :: r, by simp [joinComma, str], .inl rfl, rfl, by simp,
          (fun h => by cases h), fun _ => rfl⟩
  have apart : ∀ (n : Str) (l : List Str) (r r' : Str), n.length = 4 → AfterReading r' →
      joinComma (n :: l) ++ 0x29 :: r ≠ joinComma [] ++ 0x29 :: r' := by
    intro n l r r' hn hr h
    obtain ⟨p, q, s, t, c, u, e, hc, -⟩ := five n l r hn
    obtain ⟨x, y, z, t', rfl, h1, h2⟩ := hr
    rw [e] at h
    have h : p :: q :: s :: t :: c :: u = 0x29 :: 0x0a :: x :: y :: z :: t' := h
    simp only [List.cons.injEq] at h
    rcases hc with hc | hc
    · exact h1 (h.2.2.2.2.1.symm.trans hc)
    · exact h2 (h.2.2.2.2.1.symm.trans hc)
  intro a
  induction a with
  | nil =>
    intro b r r' _ hb hr hr' h
    cases b with
    | nil => exact ⟨rfl, (List.cons.inj h).2⟩
    | cons n l => exact absurd h.symm (apart n l r' r (hb n List.mem_cons_self) hr)
  | cons n l ih =>
    intro b r r' ha hb hr hr' h
    cases b with
    | nil => exact absurd h (apart n l r r' (ha n List.mem_cons_self) hr')
    | cons n' l' =>
      obtain ⟨p, q, s, t, c, u, e, hc, e2, e3, e4, e5⟩ := five n l r (ha n List.mem_cons_self)
      obtain ⟨p', q', s', t', c', u', e', hc', e2', e3', e4', e5'⟩ := five n' l' r' (hb n' List.mem_cons_self)
      rw [e, e'] at h
      simp only [List.cons.injEq] at h
      obtain ⟨rfl, rfl, rfl, rfl, rfl, rfl⟩ := h
      rw [e2, e2']
      by_cases hl : l = []
      · have hl' := e3'.1 (e3.2 hl)
        rw [hl, hl']
        exact ⟨rfl, (e4 hl).symm.trans (e4' hl')⟩
      · have hl' : l' ≠ [] := fun h => hl (e3.1 (e3'.2 h))
        obtain ⟨rfl, rfl⟩ := ih l' r r' (fun x hx => ha x (List.mem_cons_of_mem _ hx))
          (fun x hx => hb x (List.mem_cons_of_mem _ hx)) hr hr' ((e5 hl).symm.trans (e5' hl'))
        exact ⟨rfl, rfl⟩

/-- The names of the tags of the readings. -/
def namesOf (L : List (List Tag)) : List (List Str) := L.map fun t => t.map (·.name)

theorem readingLines_after (L : List (List Tag)) (i : Nat) (r : Str) (hr : ∃ t, r = str "\nChil" ++ t) :
    AfterReading (readingLines i L ++ r) := by
  cases L with
  | nil =>
    obtain ⟨t, rfl⟩ := hr
    exact ⟨0x43, 0x68, 0x69, str "l" ++ t, by simp [readingLines, str], by decide, by decide⟩
  | cons x L =>
    unfold readingLines readingLine
    cases hp : pad2 i with
    | nil => exact absurd hp (pad2_ne_nil i)
    | cons z p =>
      have hz := pad2_digit (n := i) (c := z) (by rw [hp]; exact List.mem_cons_self)
      refine ⟨0x2d, 0x20, z, _, rfl, ?_, ?_⟩
      · rintro rfl; revert hz; decide
      · rintro rfl; revert hz; decide

theorem readingLines_split : ∀ (L L' : List (List Tag)) (i : Nat) (r r' : Str),
    (∀ t ∈ L, ∀ x ∈ t, x.name.length = 4) → (∀ t ∈ L', ∀ x ∈ t, x.name.length = 4) →
    (∃ t, r = str "\nChil" ++ t) → (∃ t, r' = str "\nChil" ++ t) →
    readingLines i L ++ r = readingLines i L' ++ r' → namesOf L = namesOf L' ∧ r = r'
  | [], [], _, _, _, _, _, _, _, h => ⟨rfl, h⟩
  | [], t :: L', i, r, r', _, _, ⟨x, hx⟩, _, h => by
    rw [hx] at h
    unfold readingLines readingLine at h
    have e : str "\n- " = [0x0a, 0x2d, 0x20] := by decide
    have e' : str "\nChil" = [0x0a, 0x43, 0x68, 0x69, 0x6c] := by decide
    rw [e, e'] at h
    simp at h
  | t :: L, [], i, r, r', _, _, _, ⟨x, hx⟩, h => by
    rw [hx] at h
    unfold readingLines readingLine at h
    have e : str "\n- " = [0x0a, 0x2d, 0x20] := by decide
    have e' : str "\nChil" = [0x0a, 0x43, 0x68, 0x69, 0x6c] := by decide
    rw [e, e'] at h
    simp at h
  | t :: L, t' :: L', i, r, r', hL, hL', hr, hr', h => by
    unfold readingLines readingLine at h
    simp only [List.append_assoc] at h
    have h := List.append_cancel_left (List.append_cancel_left (List.append_cancel_left h))
    obtain ⟨h1, h2⟩ := names_split _ _ _ _
      (by intro a ha; obtain ⟨x, hx, rfl⟩ := List.mem_map.1 ha; exact hL t List.mem_cons_self x hx)
      (by intro a ha; obtain ⟨x, hx, rfl⟩ := List.mem_map.1 ha; exact hL' t' List.mem_cons_self x hx)
      (readingLines_after L (i + 1) r hr) (readingLines_after L' (i + 1) r' hr') h
    obtain ⟨h3, h4⟩ := readingLines_split L L' (i + 1) r r' (fun x hx => hL x (List.mem_cons_of_mem _ hx))
      (fun x hx => hL' x (List.mem_cons_of_mem _ hx)) hr hr' h2
    refine ⟨?_, h4⟩
    show t.map (·.name) :: namesOf L = t'.map (·.name) :: namesOf L'
    rw [h1, h3]

theorem variants_split {v v' : VariantID} {L L' : List (List Tag)} {r r' : Str}
    (hL : ∀ t ∈ L, ∀ x ∈ t, x.name.length = 4) (hL' : ∀ t ∈ L', ∀ x ∈ t, x.name.length = 4)
    (hr : ∃ t, r = str "Chil" ++ t) (hr' : ∃ t, r' = str "Chil" ++ t)
    (h : variantsText v L ++ r = variantsText v' L' ++ r') :
    v = v' ∧ (v ≠ 0 → namesOf L = namesOf L') ∧ r = r' := by
  have dig : ∀ (n : Nat) (s : Str), ∃ c u, itoa n ++ s = c :: u ∧ c ≠ 0x2d := by
    intro n s
    cases hn : itoa n with
    | nil => exact absurd hn (itoa_ne_nil n)
    | cons c u =>
      refine ⟨c, u ++ s, rfl, ?_⟩
      rintro rfl
      have := itoa_digit (n := n) (c := 0x2d) (by rw [hn]; exact List.mem_cons_self)
      revert this
      decide
  have e0 : str "Variants: --------\n" = str "Variants: " ++ (0x2d :: str "-------\n") := by decide
  unfold variantsText at h
  split at h <;> split at h
  · rename_i hv hv'
    simp only [List.append_assoc] at h
    have h := List.append_cancel_left h
    have e1 : str "(0x" = 0x28 :: str "0x" := by decide
    rw [e1] at h
    simp only [List.cons_append] at h
    obtain ⟨h1, h2⟩ := stop_split (itoa_no (by decide)) (itoa_no (by decide)) h
    have hvv : v = v' := UInt32.toNat_inj.1 (itoa_inj h1)
    subst hvv
    have h3 := List.append_cancel_left (List.append_cancel_left (List.append_cancel_left (List.append_cancel_left
      (List.append_cancel_left h2))))
    obtain ⟨t, rfl⟩ := hr
    obtain ⟨t', rfl⟩ := hr'
    obtain ⟨h4, h5⟩ := readingLines_split L L' 0 _ _ hL hL' ⟨t, by simp [str]⟩ ⟨t', by simp [str]⟩ h3
    exact ⟨rfl, fun _ => h4, List.append_cancel_left h5⟩
  · exfalso
    rw [e0] at h
    simp only [List.append_assoc, List.cons_append] at h
    have h := List.append_cancel_left h
    obtain ⟨c, u, e, hc⟩ := dig v.toNat (str "(0x" ++ (hexUpper v.toNat ++ (str "), " ++
      (itoa (variantTableNum v).toNat ++ (str " item(s): " ++ (readingLines 0 L ++ (str "\n" ++ r)))))))
    rw [e] at h
    exact hc (List.cons.inj h).1
  · exfalso
    rw [e0] at h
    simp only [List.append_assoc, List.cons_append] at h
    have h := List.append_cancel_left h
    obtain ⟨c, u, e, hc⟩ := dig v'.toNat (str "(0x" ++ (hexUpper v'.toNat ++ (str "), " ++
      (itoa (variantTableNum v').toNat ++ (str " item(s): " ++ (readingLines 0 L' ++ (str "\n" ++ r')))))))
    rw [e] at h
    exact hc (List.cons.inj h).1.symm
  · rename_i hv hv'
    have hv : v = 0 := by simpa using hv
    have hv' : v' = 0 := by simpa using hv'
    subst hv hv'
    exact ⟨rfl, fun h0 => absurd rfl h0, List.append_cancel_left h⟩

theorem encodeRune_scalar (r : Rune) : ∃ s, IsScalar s ∧ encodeRune r = encodeRune s := by
  by_cases h : IsScalar r
  · exact ⟨r, h, rfl⟩
  · refine ⟨runeError, by decide, ?_⟩
    unfold IsScalar codePoint at h
    unfold encodeRune
    simp only
    rw [if_neg (by omega), if_neg (by omega), if_pos (by omega)]
    decide

theorem encodeRune_split {a b : Rune} {u v : Str} (h : encodeRune a ++ u = encodeRune b ++ v) :
    encodeRune a = encodeRune b ∧ u = v := by
  obtain ⟨a', ha, ea⟩ := encodeRune_scalar a
  obtain ⟨b', hb, eb⟩ := encodeRune_scalar b
  rw [ea, eb] at h ⊢
  have h1 := decode_encode ha u
  rw [h, decode_encode hb v] at h1
  have := (Prod.mk.inj h1).1
  subst this
  exact ⟨rfl, List.append_cancel_left h⟩

theorem runeText_inj {a b : Rune} (h : runeText a = runeText b) : a = b := by
  have minus : ∀ n, (0x2d : UInt8) ∉ itoa n := fun n => itoa_no (by decide)
  have e : str "-" = [0x2d] := by decide
  unfold runeText at h
  apply Int32.toInt_inj.1
  split at h <;> split at h
  · have := itoa_inj h
    omega
  · exfalso
    have := minus a.toInt.toNat
    rw [h, e] at this
    exact this List.mem_cons_self
  · exfalso
    have := minus b.toInt.toNat
    rw [← h, e] at this
    exact this List.mem_cons_self
  · have := itoa_inj (List.append_cancel_left h)
    omega

theorem childBody_split {e e' : Rune × ID} {u v : Str}
    (h : childBody e ++ 0x0a :: u = childBody e' ++ 0x0a :: v) : e = e' ∧ u = v := by
  unfold childBody at h
  simp only [List.append_assoc] at h
  obtain ⟨-, h⟩ := encodeRune_split h
  have h := List.append_cancel_left h
  have e1 : str "]: " = 0x5d :: str ": " := by decide
  rw [e1] at h
  simp only [List.cons_append] at h
  obtain ⟨h1, h2⟩ := stop_split (fun hm => (runeText_out hm).2 rfl) (fun hm => (runeText_out hm).2 rfl) h
  have h3 := List.append_cancel_left h2
  obtain ⟨h4, h5⟩ := stop_split (itoa_no (by decide)) (itoa_no (by decide)) h3
  exact ⟨Prod.ext (runeText_inj h1) (UInt32.toNat_inj.1 (itoa_inj h4)), h5⟩

theorem childBody_inj {e e' : Rune × ID} (h : childBody e = childBody e') : e = e' :=
  (childBody_split (u := []) (v := []) (by rw [h])).1

theorem lines_inj : ∀ (l m : List (Rune × ID)), l.length = m.length →
    (l.map fun e => str "- " ++ childBody e ++ str "\n").flatten =
      (m.map fun e => str "- " ++ childBody e ++ str "\n").flatten → l = m
  | [], [], _, _ => rfl
  | [], _ :: _, h, _ => by cases h
  | _ :: _, [], h, _ => by cases h
  | e :: l, e' :: m, hl, h => by
    rw [List.map_cons, List.map_cons, List.flatten_cons, List.flatten_cons] at h
    simp only [List.append_assoc] at h
    have h := List.append_cancel_left h
    obtain ⟨rfl, h2⟩ := childBody_split (u := _) (v := _) h
    rw [lines_inj l m (Nat.succ.inj hl) (by simp only [List.append_assoc]; exact h2)]

theorem sorted_preimage (entries : List (Rune × ID)) : ∃ l : List (Rune × ID), l.Perm entries ∧
    sortAsc (entries.map childBody) = l.map childBody := by
  have hp : (sortAsc (entries.map childBody)).Perm (entries.map childBody) := List.perm_insertionSort _ _
  have hex : ∀ s : List Str, (∀ a ∈ s, ∃ e, a = childBody e) → ∃ l : List (Rune × ID), s = l.map childBody := by
    intro s
    induction s with
    | nil => exact fun _ => ⟨[], rfl⟩
    | cons a s ih =>
      intro h
      obtain ⟨e, rfl⟩ := h a List.mem_cons_self
      obtain ⟨l, rfl⟩ := ih fun x hx => h x (List.mem_cons_of_mem _ hx)
      exact ⟨e :: l, rfl⟩
  obtain ⟨l, el⟩ := hex (sortAsc (entries.map childBody)) (by
    intro a ha
    obtain ⟨e, -, rfl⟩ := List.mem_map.1 (mem_sortAsc_str.1 ha)
    exact ⟨e, rfl⟩)
  rw [el] at hp
  exact ⟨l, (List.map_perm_map_iff fun _ _ => childBody_inj).1 hp, el⟩

theorem children_split {a b : List (Rune × ID)} (h : childrenText a = childrenText b) : a.Perm b := by
  have e0 : str "Children: --------\n" = str "Children: " ++ (0x2d :: str "-------\n") := by decide
  have dig : ∀ (n : Nat) (s : Str), ∃ c u, itoa n ++ s = c :: u ∧ c ≠ 0x2d := by
    intro n s
    cases hn : itoa n with
    | nil => exact absurd hn (itoa_ne_nil n)
    | cons c u =>
      refine ⟨c, u ++ s, rfl, ?_⟩
      rintro rfl
      have := itoa_digit (n := n) (c := 0x2d) (by rw [hn]; exact List.mem_cons_self)
      revert this
      decide
  unfold childrenText at h
  split at h <;> split at h
  · have h := List.append_cancel_left h
    have e1 : str " items:\n" = 0x20 :: str "items:\n" := by decide
    rw [e1] at h
    simp only [List.cons_append] at h
    obtain ⟨h1, h2⟩ := stop_split (itoa_no (by decide)) (itoa_no (by decide)) h
    have hlen := itoa_inj h1
    have h3 := List.append_cancel_left h2
    obtain ⟨l, hl, el⟩ := sorted_preimage a
    obtain ⟨m, hm, em⟩ := sorted_preimage b
    rw [childLines_eq, childLines_eq, el, em, List.map_map, List.map_map] at h3
    have := lines_inj l m (by rw [hl.length_eq, hm.length_eq, hlen]) h3
    subst this
    exact hl.symm.trans hm
  · exfalso
    rw [e0] at h
    have h := List.append_cancel_left h
    obtain ⟨c, u, e, hc⟩ := dig a.length (str " items:\n" ++ (childLines a).flatten)
    rw [e] at h
    exact hc (List.cons.inj h).1
  · exfalso
    rw [e0] at h
    have h := List.append_cancel_left h
    obtain ⟨c, u, e, hc⟩ := dig b.length (str " items:\n" ++ (childLines b).flatten)
    rw [e] at h
    exact hc (List.cons.inj h).1.symm
  · have ha : a = [] := List.eq_nil_of_length_eq_zero (by omega)
    have hb : b = [] := List.eq_nil_of_length_eq_zero (by omega)
    rw [ha, hb]

theorem childrenText_start (a : List (Rune × ID)) : ∃ t, childrenText a = str "Chil" ++ t := by
  unfold childrenText
  split
  · exact ⟨str "dren: " ++ _, by rw [← List.append_assoc]; rfl⟩
  · exact ⟨str "dren: --------\n", by decide⟩

/-- The text of a node says everything about it. -/
theorem nodeText_inj {id id' : ID} {w w' : Str} {it it' : Item} {L L' : List (List Tag)} {a a' : List (Rune × ID)}
    (hL : ∀ t ∈ L, ∀ x ∈ t, x.name.length = 4) (hL' : ∀ t ∈ L', ∀ x ∈ t, x.name.length = 4)
    (h : nodeText id w it L a = nodeText id' w' it' L' a') :
    id = id' ∧ w = w' ∧ it.parent = it'.parent ∧ it.variants = it'.variants ∧
      (it.variants ≠ 0 → namesOf L = namesOf L') ∧ a.Perm a' := by
  unfold nodeText at h
  have h := List.append_cancel_left h
  have e1 : str "\n" = [0x0a] := by decide
  rw [e1] at h
  simp only [List.cons_append, List.nil_append] at h
  obtain ⟨h1, h2⟩ := stop_split (itoa_no (by decide)) (itoa_no (by decide)) h
  have h3 := List.append_cancel_left h2
  have e2 : ∀ s : Str, (0x0a :: (str "Parent:   " ++ s)) = str "\nParent:" ++ (str "   " ++ s) := by
    intro s
    rw [← List.append_assoc, ← List.cons_append]
    rfl
  rw [e2, e2] at h3
  have hruns : ∀ (it : Item) (L : List (List Tag)) (a : List (Rune × ID)), (∀ t ∈ L, ∀ x ∈ t, x.name.length = 4) →
      Runs 0 (str "   " ++ (itoa it.parent.toNat ++ 0x0a :: (variantsText it.variants L ++ childrenText a))) := by
    intro it L a hL
    have t1 : Tr 0 (str "   ") 0 := Tr.lit _ (by decide)
    have := t1.append ((Tr.itoa 0 it.parent.toNat).append ((Tr.one (a := 0) 0x0a (by omega)).append
      ((Tr.variants it.variants L hL).append (Tr.children a)))) [] trivial
    rw [List.append_nil] at this
    exact this
  obtain ⟨h4, h5⟩ := parent_split (hruns it L a hL) (hruns it' L' a' hL') h3
  have h6 := List.append_cancel_left h5
  obtain ⟨h7, h8⟩ := stop_split (itoa_no (by decide)) (itoa_no (by decide)) h6
  obtain ⟨h9, h10, h11⟩ := variants_split hL hL' (childrenText_start a) (childrenText_start a') h8
  exact ⟨UInt32.toNat_inj.1 (itoa_inj h1), h4, UInt32.toNat_inj.1 (itoa_inj h7), h9, h10, children_split h11⟩

end Verif
