import Verif.Model.Numbers
import Verif.Lemmas.Texts

/-! # Helper lemmas: numbers that are printed and read back -/

namespace Verif

theorem parseLoop_append (b max n : Nat) (s t : Str) :
    parseLoop b max n (s ++ t) = (parseLoop b max n s).bind fun m => parseLoop b max m t := by
  induction s generalizing n with
  | nil => rfl
  | cons c s ih =>
    rw [List.cons_append, parseLoop, parseLoop]
    split
    · exact ih n
    · split
      · rfl
      · split
        · rfl
        · exact ih _

theorem digitOf_digitByte : ∀ d < 16, digitOf (digitByte d) = some d := by decide

theorem digitByte_ne_us : ∀ d < 16, digitByte d ≠ 0x5f := by decide

theorem parseLoop_digit {b max m d : Nat} (hb : b ≤ 16) (hd : d < b) (hm : m * b + d ≤ max) :
    parseLoop b max m [digitByte d] = some (m * b + d) := by
  rw [parseLoop, if_neg (digitByte_ne_us d (by omega)), digitOf_digitByte d (by omega)]
  simp only
  rw [if_neg (by omega), parseLoop]

theorem parseLoop_numText {b max : Nat} (hb : 1 < b) (h16 : b ≤ 16) (n : Nat) (hn : n ≤ max) :
    parseLoop b max 0 (numText b n) = some n := by
  induction n using Nat.strongRecOn with
  | ind n ih =>
    rw [numText_eq hb]
    split
    · have := parseLoop_digit (max := max) (m := 0) h16 (d := n) (by omega) (by omega)
      rwa [Nat.zero_mul, Nat.zero_add] at this
    · have hlt := Nat.div_lt_self (n := n) (k := b) (by omega) hb
      have e : n / b * b + n % b = n := Nat.div_add_mod' n b
      rw [parseLoop_append, ih (n / b) hlt (by omega), Option.bind_some,
        parseLoop_digit h16 (Nat.mod_lt _ (by omega)) (by omega), e]

theorem numText_noUs {b : Nat} (hb : 1 < b) (h16 : b ≤ 16) (n : Nat) : (0x5f : UInt8) ∉ numText b n := by
  intro hm
  have := numText_range hb h16 n _ hm
  revert this
  decide

/-- A number other than zero does not begin with a zero. -/
theorem numText_head {b : Nat} (hb : 1 < b) (h16 : b ≤ 16) (n : Nat) (hn : 0 < n) :
    ∃ c t, numText b n = c :: t ∧ c ≠ 0x30 := by
  induction n using Nat.strongRecOn with
  | ind n ih =>
    rw [numText_eq hb]
    split
    · refine ⟨digitByte n, [], rfl, ?_⟩
      intro h
      have := digitByte_inj n (by omega) 0 (by decide) (by rw [h]; decide)
      omega
    · obtain ⟨c, t, e, hc⟩ := ih (n / b) (Nat.div_lt_self (by omega) hb) (Nat.div_pos (by omega) (by omega))
      exact ⟨c, t ++ [digitByte (n % b)], by rw [e]; rfl, hc⟩

theorem baseOf_other {c : UInt8} {s : Str} (hc : c ≠ 0x30) : baseOf (c :: s) = (10, c :: s) := by
  unfold baseOf
  split
  · rename_i h; exact absurd (List.cons.inj h).1 hc
  · rename_i h; exact absurd (List.cons.inj h).1 hc
  · rfl

theorem parseUint0_of {max n : Nat} {s : Str} (hs : s ≠ []) (hu : (0x5f : UInt8) ∉ (baseOf s).2)
    (h : parseLoop (baseOf s).1 max 0 (baseOf s).2 = some n) : parseUint0 max s = some n := by
  unfold parseUint0
  rw [if_neg hs, h]
  simp only
  rw [if_neg fun h => hu h.1]

/-- Decimal numbers are read as they are written. -/
theorem parseUint0_itoa {max n : Nat} (hn : n ≤ max) : parseUint0 max (itoa n) = some n := by
  rw [itoa_eq]
  by_cases h0 : n = 0
  · subst h0
    rfl
  · obtain ⟨c, t, e, hc⟩ := numText_head (b := 10) (by decide) (by decide) n (by omega)
    have hb : baseOf (numText 10 n) = (10, numText 10 n) := by rw [e]; exact baseOf_other hc
    refine parseUint0_of (numText_ne_nil 10 n) ?_ ?_
    · rw [hb]; exact numText_noUs (by decide) (by decide) n
    · rw [hb]; exact parseLoop_numText (b := 10) (by decide) (by decide) n hn

/-- The upper-case form of a letter; digits stay. -/
def upperDigit (c : UInt8) : UInt8 := if 0x61 ≤ c.toNat then c - 0x20 else c

theorem upperDigit_spec : ∀ d < 16, digitOf (upperDigit (digitByte d)) = some d ∧ upperDigit (digitByte d) ≠ 0x5f ∧
    upperDigit (digitByte d) ≠ 0x20 := by decide

theorem hexUpper_eq (n : Nat) : hexUpper n = (numText 16 n).map upperDigit := rfl

theorem numText_digits {b : Nat} (hb : 1 < b) (n : Nat) : ∀ c ∈ numText b n, ∃ d < b, c = digitByte d := by
  induction n using Nat.strongRecOn with
  | ind n ih =>
    intro c hc
    rw [numText_eq hb] at hc
    split at hc
    · rename_i h
      exact ⟨n, h, List.mem_singleton.1 hc⟩
    · rcases List.mem_append.1 hc with h | h
      · exact ih (n / b) (Nat.div_lt_self (by omega) hb) c h
      · exact ⟨n % b, Nat.mod_lt _ (by omega), List.mem_singleton.1 h⟩

theorem parseLoop_upper (b max n : Nat) (s : Str) (hs : ∀ c ∈ s, ∃ d < 16, c = digitByte d) :
    parseLoop b max n (s.map upperDigit) = parseLoop b max n s := by
  induction s generalizing n with
  | nil => rfl
  | cons c s ih =>
    obtain ⟨d, hd, rfl⟩ := hs c List.mem_cons_self
    obtain ⟨h1, h2, _⟩ := upperDigit_spec d hd
    rw [List.map_cons, parseLoop, parseLoop, if_neg h2, if_neg (digitByte_ne_us d hd), h1, digitOf_digitByte d hd]
    simp only
    split
    · rfl
    · exact ih _ fun c hc => hs c (List.mem_cons_of_mem _ hc)

theorem hexUpper_no {c : UInt8} (n : Nat) (hc : ∀ d < 16, upperDigit (digitByte d) ≠ c) : c ∉ hexUpper n := by
  rw [hexUpper_eq]
  intro hm
  obtain ⟨x, hx, rfl⟩ := List.mem_map.1 hm
  obtain ⟨d, hd, rfl⟩ := numText_digits (by decide) n x hx
  exact hc d hd rfl

/-- Hexadecimal numbers are read as they are written. -/
theorem parseUint0_hex {max n : Nat} (hn : n ≤ max) : parseUint0 max (0x30 :: 0x78 :: hexUpper n) = some n := by
  have hne : hexUpper n ≠ [] := by
    rw [hexUpper_eq]
    intro h
    exact numText_ne_nil 16 n (List.map_eq_nil_iff.1 h)
  have hb : baseOf (0x30 :: 0x78 :: hexUpper n) = (16, hexUpper n) := by
    cases h : hexUpper n with
    | nil => exact absurd h hne
    | cons d s =>
      rw [baseOf, if_neg (by decide), if_neg (by decide), if_pos (by decide)]
  refine parseUint0_of (List.cons_ne_nil _ _) ?_ ?_
  · rw [hb]; exact hexUpper_no n fun d hd => (upperDigit_spec d hd).2.1
  · rw [hb, hexUpper_eq]
    simp only
    rw [parseLoop_upper _ _ _ _ (numText_digits (by decide) n), parseLoop_numText (by decide) (by decide) n hn]

/-- A text that begins with a digit has no sign. -/
theorem parseInt0_digit {c : UInt8} {s : Str} (hc : 0x30 ≤ c.toNat) :
    parseInt0 (c :: s) = match parseUint0 18446744073709551615 (c :: s) with
      | some n => if n < 9223372036854775808 then some (n : Int) else none
      | none => none := by
  unfold parseInt0
  split
  · rename_i h; rw [(List.cons.inj h).1] at hc; exact absurd hc (by decide)
  · rename_i h; rw [(List.cons.inj h).1] at hc; exact absurd hc (by decide)
  · rfl

theorem itoa_head (n : Nat) : ∃ c t, itoa n = c :: t ∧ 0x30 ≤ c.toNat ∧ c.toNat ≤ 0x39 := by
  rw [itoa_eq]
  cases h : numText 10 n with
  | nil => exact absurd h (numText_ne_nil 10 n)
  | cons c t =>
    obtain ⟨d, hd, rfl⟩ := numText_digits (b := 10) (by decide) n c (by rw [h]; exact List.mem_cons_self)
    refine ⟨_, t, rfl, ?_⟩
    revert d
    have : ∀ d < 10, 0x30 ≤ (digitByte d).toNat ∧ (digitByte d).toNat ≤ 0x39 := by decide
    exact fun d hd _ => this d hd

theorem parseInt0_itoa {n : Nat} (hn : n < 9223372036854775808) : parseInt0 (itoa n) = some (n : Int) := by
  obtain ⟨c, t, e, h1, _⟩ := itoa_head n
  rw [e, parseInt0_digit h1, ← e, parseUint0_itoa (by omega)]
  simp only
  rw [if_pos hn]

theorem parseInt0_hex {n : Nat} (hn : n < 9223372036854775808) :
    parseInt0 (0x30 :: 0x78 :: hexUpper n) = some (n : Int) := by
  rw [parseInt0_digit (by decide), parseUint0_hex (by omega)]
  simp only
  rw [if_pos hn]

theorem atoi_digit {c : UInt8} {s : Str} (hc : 0x30 ≤ c.toNat) (hs : (c :: s).all isDigit = true)
    (hv : digitsValue (c :: s) ≤ 9223372036854775807) : atoi (c :: s) = some (digitsValue (c :: s) : Int) := by
  unfold atoi
  split
  rename_i neg ds h
  have : (neg, ds) = (false, c :: s) := by
    rw [← h]
    split
    · rename_i h; rw [(List.cons.inj h).1] at hc; exact absurd hc (by decide)
    · rename_i h; rw [(List.cons.inj h).1] at hc; exact absurd hc (by decide)
    · rfl
  obtain ⟨rfl, rfl⟩ := Prod.mk.inj this
  rw [if_neg (by rw [hs]; simp)]
  simp only [Bool.false_eq_true, if_false]
  rw [if_pos (by omega)]

theorem digitsValue_append (s : Str) (c : UInt8) : digitsValue (s ++ [c]) = digitsValue s * 10 + (c.toNat - 48) := by
  unfold digitsValue
  rw [List.foldl_append]
  rfl

theorem digitByte_value : ∀ d < 10, (digitByte d).toNat - 48 = d := by decide

theorem digitsValue_numText (n : Nat) : digitsValue (numText 10 n) = n := by
  induction n using Nat.strongRecOn with
  | ind n ih =>
    rw [numText_eq (by decide)]
    split
    · rename_i h
      unfold digitsValue
      rw [List.foldl_cons, List.foldl_nil, digitByte_value n h]
      omega
    · rw [digitsValue_append, ih (n / 10) (Nat.div_lt_self (by omega) (by decide)),
        digitByte_value _ (Nat.mod_lt _ (by decide))]
      omega

theorem itoa_isDigit (n : Nat) : (itoa n).all isDigit = true := by
  rw [itoa_eq, List.all_eq_true]
  intro c hc
  obtain ⟨d, hd, rfl⟩ := numText_digits (b := 10) (by decide) n c hc
  have : ∀ d < 10, isDigit (digitByte d) = true := by decide
  exact this d hd

theorem atoi_itoa {n : Nat} (hn : n ≤ 9223372036854775807) : atoi (itoa n) = some (n : Int) := by
  obtain ⟨c, t, e, h1, _⟩ := itoa_head n
  have hv : digitsValue (itoa n) = n := by rw [itoa_eq]; exact digitsValue_numText n
  have hd := itoa_isDigit n
  rw [e] at hv hd ⊢
  rw [atoi_digit h1 hd (by omega), hv]

theorem itoa_length (n : Nat) : (itoa n).length = (if n < 10 then 1 else (itoa (n / 10)).length + 1) := by
  rw [itoa_eq, itoa_eq, numText_eq (by decide)]
  split
  · rfl
  · rw [List.length_append]; rfl

theorem pad3_large {n : Nat} (hn : 100 ≤ n) : pad3 n = itoa n := by
  have h1 := itoa_length n
  have h2 := itoa_length (n / 10)
  have h3 := itoa_length (n / 10 / 10)
  rw [if_neg (by omega)] at h1 h2
  have : 1 ≤ (itoa (n / 10 / 10)).length := by
    split at h3 <;> omega
  unfold pad3
  rw [show 3 - (itoa n).length = 0 by omega]
  rfl

/-- Up to 99, a number padded with zeros is read as an octal number. -/
theorem parseInt0_pad3_small : ∀ n < 100, parseInt0 (pad3 n) =
    if n / 10 < 8 ∧ n % 10 < 8 then some ((8 * (n / 10) + n % 10 : Nat) : Int) else none := by
  have h : ∀ n < 100, parseInt0 (List.replicate (3 - (numText 10 n).length) 0x30 ++ numText 10 n) =
      if n / 10 < 8 ∧ n % 10 < 8 then some ((8 * (n / 10) + n % 10 : Nat) : Int) else none := by decide
  intro n hn
  have := h n hn
  rwa [← itoa_eq] at this

theorem splitSpaces_one {s : Str} (hs : (0x20 : UInt8) ∉ s) : splitSpaces s = [s] := by
  induction s with
  | nil => rfl
  | cons c s ih =>
    rw [splitSpaces, if_neg (fun h => hs (by rw [h]; exact List.mem_cons_self)),
      ih fun h => hs (List.mem_cons_of_mem _ h)]

theorem splitSpaces_two {c a : Str} (hc : (0x20 : UInt8) ∉ c) (ha : (0x20 : UInt8) ∉ a) :
    splitSpaces (c ++ 0x20 :: a) = [c, a] := by
  induction c with
  | nil => rw [List.nil_append, splitSpaces, if_pos rfl, splitSpaces_one ha]
  | cons x c ih =>
    rw [List.cons_append, splitSpaces, if_neg (fun h => hc (by rw [h]; exact List.mem_cons_self)),
      ih fun h => hc (List.mem_cons_of_mem _ h)]

theorem itoa_noSpace (n : Nat) : (0x20 : UInt8) ∉ itoa n := by
  intro hm
  have := List.all_eq_true.1 (itoa_isDigit n) _ hm
  revert this
  decide

theorem pad3_noSpace (n : Nat) : (0x20 : UInt8) ∉ pad3 n := by
  unfold pad3
  intro hm
  rcases List.mem_append.1 hm with h | h
  · have := (List.mem_replicate.1 h).2
    revert this
    decide
  · exact itoa_noSpace n h

theorem hex_noSpace (n : Nat) : (0x20 : UInt8) ∉ (0x30 : UInt8) :: 0x78 :: hexUpper n := by
  intro hm
  rcases List.mem_cons.1 hm with h | h
  · revert h; decide
  · rcases List.mem_cons.1 h with h | h
    · revert h; decide
    · exact hexUpper_no n (fun d hd => (upperDigit_spec d hd).2.2) h

end Verif
