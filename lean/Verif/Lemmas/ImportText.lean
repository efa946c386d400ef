import Verif.Model.ImportText
import Verif.Lemmas.Printed
import Verif.Lemmas.Numbers

/-! # Helper lemmas: the texts of the parser's and of `Optimize`'s messages can be read back -/

namespace Verif

/-- The value of a digit. -/
def byteDigit (c : UInt8) : Nat := if c.toNat < 0x3a then c.toNat - 0x30 else c.toNat - 0x57

/-- The value of a text of digits. -/
def textValue (b : Nat) (s : Str) : Nat := s.foldl (fun a c => a * b + byteDigit c) 0

theorem byteDigit_digitByte : ∀ d < 16, byteDigit (digitByte d) = d := by decide

theorem textValue_numText {b : Nat} (hb : 1 < b) (h16 : b ≤ 16) (n : Nat) : textValue b (numText b n) = n := by
  induction n using Nat.strongRecOn with
  | ind n ih =>
    rw [numText_eq hb]
    split
    · rename_i h
      unfold textValue
      simp only [List.foldl_cons, List.foldl_nil, Nat.zero_mul, Nat.zero_add]
      exact byteDigit_digitByte n (by omega)
    · rename_i h
      unfold textValue
      rw [List.foldl_append]
      have := ih (n / b) (Nat.div_lt_self (by omega) hb)
      unfold textValue at this
      rw [this]
      simp only [List.foldl_cons, List.foldl_nil]
      rw [byteDigit_digitByte _ (Nat.lt_of_lt_of_le (Nat.mod_lt _ (by omega)) h16)]
      rw [Nat.mul_comm]
      exact Nat.div_add_mod n b

theorem textValue_zeros (b k : Nat) (s : Str) : textValue b (List.replicate k 0x30 ++ s) = textValue b s := by
  induction k with
  | zero => rfl
  | succ k ih =>
    rw [← ih]
    unfold textValue
    rw [List.replicate_succ, List.cons_append, List.foldl_cons]
    have : 0 * b + byteDigit 0x30 = 0 := by
      rw [Nat.zero_mul]; decide
    rw [this]

theorem zeroPad_inj {k n m : Nat} (h : zeroPad k n = zeroPad k m) : n = m := by
  have h' := congrArg (textValue 10) h
  unfold zeroPad at h'
  rw [textValue_zeros, textValue_zeros, itoa_eq, itoa_eq, textValue_numText (by decide) (by decide),
    textValue_numText (by decide) (by decide)] at h'
  exact h'

theorem zeroPad_noSpace (k n : Nat) : (0x20 : UInt8) ∉ zeroPad k n := by
  unfold zeroPad
  intro h
  rcases List.mem_append.1 h with h | h
  · exact absurd (List.mem_replicate.1 h).2 (by decide)
  · exact itoa_noSpace n h

theorem hexText_noSpace (n : Nat) : (0x20 : UInt8) ∉ hexText n := by
  intro h
  have := numText_range (b := 16) (by decide) (by decide) n _ h
  revert this
  decide

theorem hex8_inj {v w : VariantID} (h : hex8 v = hex8 w) : v = w := by
  unfold hex8 at h
  have h' := congrArg (textValue 16) (List.append_cancel_left h)
  have e : ∀ n, hexText n = numText 16 n := fun _ => rfl
  rw [textValue_zeros, textValue_zeros, e, e, textValue_numText (by decide) (by decide),
    textValue_numText (by decide) (by decide)] at h'
  exact UInt32.toNat_inj.1 h'

theorem hex8_noSpace (v : VariantID) : (0x20 : UInt8) ∉ hex8 v := by
  unfold hex8
  intro h
  rcases List.mem_append.1 h with h | h
  · exact absurd h (by decide)
  rcases List.mem_append.1 h with h | h
  · exact absurd (List.mem_replicate.1 h).2 (by decide)
  · exact hexText_noSpace _ h

theorem joinSpace_cons (a : Str) (l : List Str) : ∃ u, joinSpace (a :: l) = a ++ u ∧
    (l = [] ∧ u = [] ∨ l ≠ [] ∧ u = 0x20 :: joinSpace l) := by
  cases l with
  | nil => exact ⟨[], by simp [joinSpace], .inl ⟨rfl, rfl⟩⟩
  | cons b l => exact ⟨0x20 :: joinSpace (b :: l), by simp [joinSpace, str], .inr ⟨by simp, rfl⟩⟩

theorem joinSpace_inj : ∀ (l m : List Str), (∀ a ∈ l, (0x20 : UInt8) ∉ a ∧ a ≠ []) →
    (∀ a ∈ m, (0x20 : UInt8) ∉ a ∧ a ≠ []) → joinSpace l = joinSpace m → l = m := by
  have hnil : ∀ (a : Str) l, a ≠ [] → joinSpace (a :: l) ≠ [] := by
    intro a l ha h
    obtain ⟨u, hu, -⟩ := joinSpace_cons a l
    rw [hu] at h
    exact ha (List.append_eq_nil_iff.1 h).1
  intro l
  induction l with
  | nil =>
    intro m _ hm h
    cases m with
    | nil => rfl
    | cons b m => exact absurd h.symm (hnil b m (hm b List.mem_cons_self).2)
  | cons a l ih =>
    intro m hl hm h
    cases m with
    | nil => exact absurd h (hnil a l (hl a List.mem_cons_self).2)
    | cons b m =>
      obtain ⟨u, hu, hu'⟩ := joinSpace_cons a l
      obtain ⟨v, hv, hv'⟩ := joinSpace_cons b m
      rw [hu, hv] at h
      have h0 : u = [] ∨ u.head? = some 0x20 := by
        rcases hu' with ⟨_, rfl⟩ | ⟨_, rfl⟩
        · exact .inl rfl
        · exact .inr rfl
      have h1 : v = [] ∨ v.head? = some 0x20 := by
        rcases hv' with ⟨_, rfl⟩ | ⟨_, rfl⟩
        · exact .inl rfl
        · exact .inr rfl
      obtain ⟨rfl, rfl⟩ := append_stop a b u v (hl a List.mem_cons_self).1 (hm b List.mem_cons_self).1 h0 h1 h
      rcases hu' with ⟨rfl, rfl⟩ | ⟨hn, rfl⟩ <;> rcases hv' with ⟨rfl, hv'⟩ | ⟨hn', hv'⟩
      · rfl
      · cases hv'
      · cases hv'
      · rw [ih m (fun x hx => hl x (List.mem_cons_of_mem _ hx)) (fun x hx => hm x (List.mem_cons_of_mem _ hx))
          (List.cons.inj hv').2]

theorem collectionPlain_inj {c d : Coll} (h : collectionPlain c = collectionPlain d) : c = d := by
  have h' := List.append_cancel_right (List.append_cancel_left h)
  have hm := joinSpace_inj _ _ (by
    intro a ha
    obtain ⟨i, _, rfl⟩ := List.mem_map.1 ha
    exact ⟨itoa_noSpace _, by rw [itoa_eq]; exact numText_ne_nil _ _⟩) (by
    intro a ha
    obtain ⟨i, _, rfl⟩ := List.mem_map.1 ha
    exact ⟨itoa_noSpace _, by rw [itoa_eq]; exact numText_ne_nil _ _⟩) h'
  exact List.map_injective_iff.2 (fun a b e => UInt32.toNat_inj.1 (itoa_inj e)) hm

theorem hexUpper_noSpace (n : Nat) : (0x20 : UInt8) ∉ hexUpper n := hexUpper_no n (by decide)

theorem hexUpper_inj {n m : Nat} (h : hexUpper n = hexUpper m) : n = m := by
  have low : ∀ n, (hexUpper n).map (fun c => if 0x41 ≤ c.toNat then c + 0x20 else c) = hexText n := by
    intro n
    unfold hexUpper
    rw [List.map_map]
    conv_rhs => rw [← List.map_id (hexText n)]
    apply List.map_congr_left
    intro c hc
    have hr := numText_range (b := 16) (by decide) (by decide) n c hc
    have key : ∀ c : UInt8, (0x30 ≤ c.toNat ∧ c.toNat ≤ 0x39) ∨ (0x61 ≤ c.toNat ∧ c.toNat ≤ 0x66) →
        (if 0x41 ≤ (if 0x61 ≤ c.toNat then c - 0x20 else c).toNat then (if 0x61 ≤ c.toNat then c - 0x20 else c) + 0x20
          else (if 0x61 ≤ c.toNat then c - 0x20 else c)) = c := by
      intro c
      have all : ∀ i : Fin 256, let c := UInt8.ofNat i.val
          (0x30 ≤ c.toNat ∧ c.toNat ≤ 0x39) ∨ (0x61 ≤ c.toNat ∧ c.toNat ≤ 0x66) →
          (if 0x41 ≤ (if 0x61 ≤ c.toNat then c - 0x20 else c).toNat then (if 0x61 ≤ c.toNat then c - 0x20 else c) + 0x20
            else (if 0x61 ≤ c.toNat then c - 0x20 else c)) = c := by decide +kernel
      have h1 := all ⟨c.toNat, c.toNat_lt⟩
      simpa using h1
    exact key c hr
  exact hexText_inj (by rw [← low n, ← low m, h])

theorem collectionText_stop (c : Coll) : ∃ t, collectionText c = t ++ [0x5d] ∧ (0x5d : UInt8) ∉ t := by
  refine ⟨str "[" ++ joinComma (c.map fun id => hexText id.toNat), rfl, ?_⟩
  intro h
  rcases List.mem_append.1 h with h | h
  · exact absurd h (by decide)
  · rcases joinComma_mem _ h with h | ⟨a, ha, h⟩
    · exact absurd h (by decide)
    · obtain ⟨i, _, rfl⟩ := List.mem_map.1 ha
      have := numText_range (b := 16) (by decide) (by decide) _ _ h
      revert this
      decide

/-- A collection followed by something else. -/
theorem collectionText_split {c d : Coll} {u v : Str} (h : collectionText c ++ u = collectionText d ++ v) :
    c = d ∧ u = v := by
  obtain ⟨s, hs, ns⟩ := collectionText_stop c
  obtain ⟨t, ht, nt⟩ := collectionText_stop d
  rw [hs, ht, List.append_assoc, List.append_assoc] at h
  obtain ⟨rfl, rfl⟩ := stop_split ns nt h
  exact ⟨collectionText_inj (hs.trans ht.symm), rfl⟩

/-- A text without spaces, followed by a space. -/
theorem space_split {a b u v : Str} (ha : (0x20 : UInt8) ∉ a) (hb : (0x20 : UInt8) ∉ b)
    (h : a ++ (0x20 :: u) = b ++ (0x20 :: v)) : a = b ∧ u = v := stop_split ha hb h

theorem joinComma_four : ∀ (l : List Str), (∀ a ∈ l, a.length = 4) → l ≠ [] →
    (joinComma l).length + 1 = 5 * l.length := by
  intro l
  induction l with
  | nil => intro _ h; exact absurd rfl h
  | cons a l ih =>
    intro hl _
    have ha := hl a List.mem_cons_self
    obtain ⟨u, hu, ⟨rfl, rfl⟩ | ⟨hn, rfl⟩⟩ := joinComma_cons a l
    · rw [hu, List.append_nil, ha]
      rfl
    · have := ih (fun x hx => hl x (List.mem_cons_of_mem _ hx)) hn
      rw [hu, List.length_append, ha, List.length_cons, List.length_cons]
      omega

/-- A list of names does not contain " [" and another list of names at its end, unless the other list is empty and a name
ends in " [". -/
theorem joinComma_bracket (m : List Str) (hm : ∀ a ∈ m, a.length = 4) : ∀ (l : List Str) (x : Str),
    (∀ a ∈ l, a.length = 4) → (∀ a ∈ l, a.drop 2 ≠ str " [") → joinComma l = x ++ (str " [" ++ joinComma m) → False := by
  have es : str " [" = [0x20, 0x5b] := by decide
  have hmlen : (joinComma m).length = 0 ∨ (joinComma m).length + 1 = 5 * m.length := by
    by_cases h : m = []
    · left; rw [h]; rfl
    · exact .inr (joinComma_four m hm h)
  intro l
  induction l with
  | nil =>
    intro x _ _ h
    rw [es] at h
    have := congrArg List.length h
    simp [joinComma] at this
  | cons a l ih =>
    intro x hl hb h
    have ha := hl a List.mem_cons_self
    have hlen := joinComma_four (a :: l) hl (by simp)
    obtain ⟨u, hu, ⟨rfl, rfl⟩ | ⟨hn, rfl⟩⟩ := joinComma_cons a l
    · rw [hu, List.append_nil] at h
      have h4 := congrArg List.length h
      rw [es] at h4
      simp only [List.length_append, List.length_cons, List.length_nil] at h4
      have h0 : (joinComma m).length = 0 := by omega
      have hx : x.length = 2 := by omega
      refine hb a List.mem_cons_self ?_
      rw [h, List.eq_nil_of_length_eq_zero h0, List.append_nil, ← hx, List.drop_left]
    · have hll := joinComma_four l (fun y hy => hl y (List.mem_cons_of_mem _ hy)) hn
      rw [hu] at h hlen
      have h4 := congrArg List.length h
      rw [es] at h4
      simp only [List.length_append, List.length_cons, List.length_nil] at h4 hlen
      by_cases hx : 5 ≤ x.length
      · have e1 : a ++ [0x2c] = x.take 5 := by
          have := congrArg (List.take 5) h
          rw [List.take_append_of_le_length hx, show a ++ (0x2c :: joinComma l) = (a ++ [0x2c]) ++ joinComma l by simp,
            List.take_append_of_le_length (by simp [ha]), List.take_of_length_le (by simp [ha])] at this
          exact this
        refine ih (x.drop 5) (fun y hy => hl y (List.mem_cons_of_mem _ hy)) (fun y hy => hb y (List.mem_cons_of_mem _ hy)) ?_
        have := congrArg (List.drop 5) h
        rw [List.drop_append_of_le_length hx, show a ++ (0x2c :: joinComma l) = (a ++ [0x2c]) ++ joinComma l by simp,
          show (5 : Nat) = (a ++ [0x2c]).length by simp [ha], List.drop_left] at this
        rw [this]
        simp [ha]
      · have hl1 : 1 ≤ l.length := List.length_pos_iff.2 hn
        have hx3 : x.length = 3 := by
          rcases hmlen with h0 | h0 <;> omega
        have h5 := congrArg (fun s => s[4]?) h
        rw [List.getElem?_append_right (by omega), List.getElem?_append_right (by omega), ha, hx3, es] at h5
        simp at h5

/-- The spelling and the tags of a form can be told apart. -/
theorem form_split {t t' : List Str} {w w' : Str} (h4 : ∀ a ∈ t, a.length = 4) (h4' : ∀ a ∈ t', a.length = 4)
    (hb : ∀ a ∈ t, a.drop 2 ≠ str " [") (hb' : ∀ a ∈ t', a.drop 2 ≠ str " [")
    (h : w ++ (str " [" ++ joinComma t) = w' ++ (str " [" ++ joinComma t')) : w = w' ∧ t = t' := by
  have ne : ∀ a : Str, a.length = 4 → a ≠ [] := by rintro a h rfl; cases h
  have key : ∀ {t t' : List Str} {w w' : Str}, (∀ a ∈ t, a.length = 4) → (∀ a ∈ t', a.length = 4) →
      (∀ a ∈ t, a.drop 2 ≠ str " [") → w ++ (str " [" ++ joinComma t) = w' ++ (str " [" ++ joinComma t') →
      ¬ w.length < w'.length := by
    intro t t' w w' h4 h4' hb h hlt
    obtain ⟨x, rfl⟩ : ∃ x, w' = w ++ x := by
      obtain ⟨x, hx⟩ : w <+: w' := List.prefix_of_prefix_length_le ⟨_, h⟩ ⟨_, rfl⟩ (by omega)
      exact ⟨x, hx.symm⟩
    rw [List.append_assoc] at h
    have h := List.append_cancel_left h
    have es : str " [" = [0x20, 0x5b] := by decide
    rw [List.length_append] at hlt
    cases x with
    | nil => simp at hlt
    | cons c x => cases x with
      | nil =>
        rw [es] at h
        simp only [List.cons_append, List.nil_append] at h
        have := (List.cons.inj (List.cons.inj h).2).1
        exact absurd this (by decide)
      | cons d x =>
        rw [es] at h
        simp only [List.cons_append, List.nil_append] at h
        refine joinComma_bracket t' h4' t x h4 hb ?_
        rw [es]
        exact (List.cons.inj (List.cons.inj h).2).2
  have hl : w.length = w'.length := by
    have h1 := key h4 h4' hb h
    have h2 := key h4' h4 hb' h.symm
    omega
  obtain ⟨rfl, h'⟩ := List.append_inj h hl
  exact ⟨rfl, joinComma_inj (separable_length 4) t t' (fun a ha => ⟨h4 a ha, ne a (h4 a ha)⟩)
    (fun a ha => ⟨h4' a ha, ne a (h4' a ha)⟩) (List.append_cancel_left h')⟩

/-- How a message of `Optimize` begins; nothing if it begins with a number. -/
def OptLine.start : OptLine → Str
  | .check _ => str "check"
  | .lookup => str "looku"
  | .eliminate _ => str "elimi"
  | .noUnused => str "no un"
  | .oldDiffers _ _ => str "old s"
  | .newDiffers _ _ => str "new s"
  | .pair _ _ => str "IDX? "
  | .toReplace _ => str "have "
  | .item _ _ _ _ _ => str "IDX# "
  | .updated _ => []
  | .reduced _ _ => str "reduc"
  | .tagSets _ => str "has "

theorem OptLine.start_spec (l : OptLine) : l.start =
    if l.text.head?.any isDigit then [] else if l.text.take 4 = str "has " then str "has " else l.text.take 5 := by
  cases l with
  | updated n =>
    have : (OptLine.updated n).text.head?.any isDigit = true := by
      show (itoa n ++ str " items VariantID updated").head?.any isDigit = true
      have hd := itoa_isDigit n
      cases e : itoa n with
      | nil => rw [itoa_eq] at e; exact absurd e (numText_ne_nil _ _)
      | cons c t =>
        rw [e] at hd
        exact List.all_eq_true.1 hd c List.mem_cons_self
    rw [if_pos this]
    rfl
  | _ => rfl

/-- The messages of `Optimize` with the same text are the same. -/
theorem OptLine.text_inj {l m : OptLine} (h : l.text = m.text) : l = m := by
  have hs : l.start = m.start := by rw [l.start_spec, m.start_spec, h]
  have num : ∀ {n m : Nat} {u v : Str}, itoa n ++ (0x20 :: u) = itoa m ++ (0x20 :: v) → n = m ∧ u = v := by
    intro n m u v e
    obtain ⟨e1, e2⟩ := space_split (itoa_noSpace n) (itoa_noSpace m) e
    exact ⟨itoa_inj e1, e2⟩
  cases l with
  | updated n =>
    cases m <;> first
      | exact absurd hs (of_decide_eq_false rfl)
      | skip
    obtain ⟨rfl, -⟩ := num h
    rfl
  | check n =>
    cases m <;> first
      | exact absurd hs (of_decide_eq_false rfl)
      | skip
    obtain ⟨rfl, -⟩ := num (List.append_cancel_left h)
    rfl
  | lookup =>
    cases m <;> first
      | exact absurd hs (of_decide_eq_false rfl)
      | rfl
  | eliminate n =>
    cases m <;> first
      | exact absurd hs (of_decide_eq_false rfl)
      | skip
    obtain ⟨rfl, -⟩ := num (List.append_cancel_left h)
    rfl
  | noUnused =>
    cases m <;> first
      | exact absurd hs (of_decide_eq_false rfl)
      | rfl
  | oldDiffers id c =>
    cases m <;> first
      | exact absurd hs (of_decide_eq_false rfl)
      | skip
    obtain ⟨e1, e2⟩ := space_split (hexUpper_noSpace _) (hexUpper_noSpace _) (List.append_cancel_left h)
    obtain rfl := UInt32.toNat_inj.1 (hexUpper_inj e1)
    obtain rfl := collectionPlain_inj (List.append_cancel_left (as := str "collection ") e2)
    rfl
  | newDiffers id c =>
    cases m <;> first
      | exact absurd hs (of_decide_eq_false rfl)
      | skip
    obtain ⟨e1, e2⟩ := space_split (hexUpper_noSpace _) (hexUpper_noSpace _) (List.append_cancel_left h)
    obtain rfl := UInt32.toNat_inj.1 (hexUpper_inj e1)
    obtain rfl := collectionPlain_inj (List.append_cancel_left (as := str "collection ") e2)
    rfl
  | pair o n =>
    cases m <;> first
      | exact absurd hs (of_decide_eq_false rfl)
      | skip
    obtain ⟨e1, e2⟩ := space_split (hex8_noSpace _) (hex8_noSpace _) (List.append_cancel_left h)
    obtain rfl := hex8_inj e1
    obtain rfl := hex8_inj (List.append_cancel_left (as := str "N") e2)
    rfl
  | toReplace n =>
    cases m <;> first
      | exact absurd hs (of_decide_eq_false rfl)
      | skip
    obtain ⟨rfl, -⟩ := num (List.append_cancel_left h)
    rfl
  | item id o ol n nl =>
    cases m <;> first
      | exact absurd hs (of_decide_eq_false rfl)
      | skip
    obtain ⟨e1, e2⟩ := space_split (zeroPad_noSpace _ _) (zeroPad_noSpace _ _) (List.append_cancel_left h)
    obtain rfl := UInt32.toNat_inj.1 (zeroPad_inj e1)
    obtain ⟨e3, e4⟩ := space_split (hex8_noSpace _) (hex8_noSpace _) (List.append_cancel_left (as := str "O") e2)
    obtain rfl := hex8_inj e3
    obtain ⟨rfl, e5⟩ := collectionText_split (List.append_cancel_left (as := str "OL") e4)
    obtain ⟨e6, e7⟩ := space_split (hex8_noSpace _) (hex8_noSpace _) (List.append_cancel_left (as := str " N") e5)
    obtain rfl := hex8_inj e6
    obtain rfl := collectionText_inj (List.append_cancel_left (as := str "NL") e7)
    rfl
  | reduced b a =>
    cases m <;> first
      | exact absurd hs (of_decide_eq_false rfl)
      | skip
    obtain ⟨rfl, e⟩ := num (List.append_cancel_left h)
    obtain ⟨rfl, -⟩ := num (List.append_cancel_left (as := str "to ") e)
    rfl
  | tagSets n =>
    cases m <;> first
      | exact absurd hs (of_decide_eq_false rfl)
      | skip
    obtain ⟨rfl, -⟩ := num (List.append_cancel_left h)
    rfl

end Verif
