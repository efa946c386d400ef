import Verif.Props.Numbers
import Verif.Lemmas.Output

/-!
# C84, against the printed text

The numbers of C84 are those the tool really prints: cut out of what `set` and `var` write to the standard output and typed
again, they make the tool write the same.
-/

namespace Verif

theorem parseInt0_range {s : Str} {n : Int} (h : parseInt0 s = some n) : -9223372036854775808 ≤ n ∧ n < 9223372036854775808 := by
  unfold parseInt0 at h
  split at h <;> split at h <;> first
    | cases h
    | (split at h <;> [skip; cases h]
       have := Option.some.inj h
       omega)

theorem parseInt0_intText {n : Int} (h1 : -9223372036854775808 ≤ n) (h2 : n < 9223372036854775808) :
    parseInt0 (intText n) = some n := by
  unfold intText
  split
  · rw [parseInt0_itoa (by omega)]
    congr 1; omega
  · have e : str "-" ++ itoa (-n).toNat = 0x2d :: itoa (-n).toNat := by
      have : str "-" = [0x2d] := by decide
      rw [this]; rfl
    rw [e]
    unfold parseInt0
    simp only
    rw [parseUint0_itoa (by omega)]
    simp only
    rw [if_pos (by omega)]
    congr 1; omega

theorem parseInt0_minusHex (s : Str) : parseInt0 (0x30 :: 0x78 :: 0x2d :: s) = none := by
  rw [parseInt0_digit (by decide)]
  have : parseUint0 18446744073709551615 (0x30 :: 0x78 :: 0x2d :: s) = none := by
    unfold parseUint0
    rw [if_neg (List.cons_ne_nil _ _)]
    have hb : baseOf (0x30 :: 0x78 :: 0x2d :: s) = (16, 0x2d :: s) := by
      rw [baseOf, if_neg (by decide), if_neg (by decide), if_pos (by decide)]
    rw [hb]
    have hl : parseLoop 16 18446744073709551615 0 (0x2d :: s) = none := by
      rw [parseLoop, if_neg (by decide)]
      have : digitOf 0x2d = none := by decide
      rw [this]
    simp only [hl]
  rw [this]

theorem intHex_no {c : UInt8} (n : Int) (hc : ∀ d < 16, upperDigit (digitByte d) ≠ c) (hm : c ≠ 0x2d) : c ∉ intHex n := by
  unfold intHex
  split
  · exact hexUpper_no _ hc
  · intro h
    rcases List.mem_append.1 h with h | h
    · have e : str "-" = [0x2d] := by decide
      rw [e] at h
      exact hm (List.mem_singleton.1 h)
    · exact hexUpper_no _ hc h

theorem typed_set (lib : Lib) (order : IdMap → List (Rune × ID)) (ix : Index) {a : Str} (hs : (0x20 : UInt8) ∉ a)
    (h1 : a ≠ str "tables") (h2 : a ≠ str "table") :
    lineOutput lib order ix (str "set " ++ a) = (match lib.parseInt a with
      | none => []
      | some n => match ix.tagSets.get (toU32 n) with
        | none => []
        | some ts => setText ix.tags n ts) ++ str "\n" := by
  have e : splitSpaces (str "set " ++ a) = [str "set", a] := by
    have := splitSpaces_two (c := str "set") (by decide) hs
    rw [← this]
    congr 1
  unfold lineOutput
  rw [e]
  simp only [List.headD_cons]
  rw [if_neg (by decide), if_pos (by decide)]
  unfold setOutput
  simp only
  rw [if_neg h1, if_neg h2]
  rfl

theorem typed_var (lib : Lib) (order : IdMap → List (Rune × ID)) (ix : Index) {a : Str} (hs : (0x20 : UInt8) ∉ a) :
    lineOutput lib order ix (str "var " ++ a) = (match lib.parseUint a with
      | none => []
      | some v => match ix.variants v with
        | .ok c => varText ix v c
        | _ => []) ++ str "\n" := by
  have e : splitSpaces (str "var " ++ a) = [str "var", a] := by
    have := splitSpaces_two (c := str "var") (by decide) hs
    rw [← this]
    congr 1
  unfold lineOutput
  rw [e]
  simp only [List.headD_cons]
  rw [if_neg (by decide), if_neg (by decide), if_neg (by decide), if_pos (by decide)]
  unfold varOutput
  rfl

theorem ne_tables {a : Str} (h : (0x74 : UInt8) ∉ a) : a ≠ str "tables" ∧ a ≠ str "table" := by
  constructor <;> rintro rfl <;> exact h (by decide)

/-- C84, read off the screen: whatever line with `set` makes the tool print a set, its number stands between `set.` and `(0x`,
and again in hexadecimal after `(0x`. Typed again, the first makes the tool print the same; so does the second after `0x`,
unless the number is negative, which is then refused. -/
theorem C84_printed (fold : Str → Str → Bool) (order : IdMap → List (Rune × ID)) (ix : Index) (a : Str)
    (hs : (0x20 : UInt8) ∉ a) (hp : lineOutput (goLib fold) order ix (str "set " ++ a) ≠ str "\n") :
    ∃ dec hex names : Str,
      lineOutput (goLib fold) order ix (str "set " ++ a) = str "set." ++ dec ++ str "(0x" ++ hex ++ str "): " ++ names ∧
      (0x28 : UInt8) ∉ dec ∧ (0x29 : UInt8) ∉ hex ∧
      lineOutput (goLib fold) order ix (str "set " ++ dec) = lineOutput (goLib fold) order ix (str "set " ++ a) ∧
      lineOutput (goLib fold) order ix (str "set " ++ (str "0x" ++ hex)) =
        if (0x2d : UInt8) ∈ dec then str "\n" else lineOutput (goLib fold) order ix (str "set " ++ a) := by
  have ht : a ≠ str "tables" ∧ a ≠ str "table" := by
    constructor <;> rintro rfl <;> exact hp rfl
  rw [typed_set _ _ _ hs ht.1 ht.2] at hp ⊢
  cases hn : (goLib fold).parseInt a with
  | none => rw [hn] at hp; exact absurd rfl hp
  | some n =>
    rw [hn] at hp
    simp only at hp ⊢
    cases hg : ix.tagSets.get (toU32 n) with
    | none => rw [hg] at hp; exact absurd rfl hp
    | some ts =>
      simp only
      obtain ⟨r1, r2⟩ := parseInt0_range (show parseInt0 a = some n from hn)
      have hd : (0x20 : UInt8) ∉ intText n := intText_no n (by decide) (by decide)
      have hd' := ne_tables (intText_no n (c := 0x74) (by decide) (by decide))
      refine ⟨intText n, intHex n, joinWith (str ", ") (ts.map (setName ix.tags)) ++ str "\n",
        by simp only [setText, List.append_assoc], intText_no n (by decide) (by decide), intHex_no n (by decide) (by decide), ?_, ?_⟩
      · rw [typed_set _ _ _ hd hd'.1 hd'.2]
        have : (goLib fold).parseInt (intText n) = some n := parseInt0_intText r1 r2
        rw [this]
        simp only [hg]
      · have e : str "0x" ++ intHex n = 0x30 :: 0x78 :: intHex n := by
          have : str "0x" = [0x30, 0x78] := by decide
          rw [this]; rfl
        have hx : (0x20 : UInt8) ∉ str "0x" ++ intHex n := by
          rw [e]
          simp only [List.mem_cons, not_or]
          exact ⟨by decide, by decide, intHex_no n (by decide) (by decide)⟩
        have hx' : str "0x" ++ intHex n ≠ str "tables" ∧ str "0x" ++ intHex n ≠ str "table" := by
          rw [e]
          constructor <;> intro h <;> have h' := congrArg (fun l : Str => l.head?) h <;> revert h' <;> simp only [List.head?_cons] <;> decide
        rw [typed_set _ _ _ hx hx'.1 hx'.2, e]
        by_cases h0 : 0 ≤ n
        · have hm : (0x2d : UInt8) ∉ intText n := by
            unfold intText; rw [if_pos h0]; exact itoa_no (by decide)
          have : (goLib fold).parseInt (0x30 :: 0x78 :: intHex n) = some n := by
            change parseInt0 (0x30 :: 0x78 :: intHex n) = _
            unfold intHex
            rw [if_pos h0, parseInt0_hex (by omega)]
            congr 1; omega
          rw [this, if_neg hm]
          simp only [hg]
        · have em : str "-" = [0x2d] := by decide
          have hm : (0x2d : UInt8) ∈ intText n := by
            unfold intText; rw [if_neg h0, em]; exact List.mem_append_left _ List.mem_cons_self
          have : (goLib fold).parseInt (0x30 :: 0x78 :: intHex n) = none := by
            change parseInt0 (0x30 :: 0x78 :: intHex n) = _
            unfold intHex
            rw [if_neg h0, em]
            exact parseInt0_minusHex _
          rw [this, if_pos hm]
          rfl

/-- C84, read off the screen: whatever line with `var` makes the tool print a collection, its number stands between `variant: `
and `: [`; typed again it makes the tool print the same. -/
theorem C84_printed_var (fold : Str → Str → Bool) (order : IdMap → List (Rune × ID)) (ix : Index) (a : Str)
    (hs : (0x20 : UInt8) ∉ a) (hp : lineOutput (goLib fold) order ix (str "var " ++ a) ≠ str "\n") :
    ∃ dec rest : Str,
      lineOutput (goLib fold) order ix (str "var " ++ a) = str "variant: " ++ dec ++ str ": [" ++ rest ∧ (0x3a : UInt8) ∉ dec ∧
      lineOutput (goLib fold) order ix (str "var " ++ dec) = lineOutput (goLib fold) order ix (str "var " ++ a) := by
  rw [typed_var _ _ _ hs] at hp ⊢
  cases hn : (goLib fold).parseUint a with
  | none => rw [hn] at hp; exact absurd rfl hp
  | some v =>
    rw [hn] at hp
    simp only at hp ⊢
    cases hg : ix.variants v with
    | ok c =>
      simp only
      refine ⟨itoa v.toNat, joinWith (str " ") (c.map fun id => itoa id.toNat) ++ (str "]" ++ (varLines ix 0 c ++ str "\n")) ++ str "\n",
        by simp only [varText, List.append_assoc], itoa_no (by decide), ?_⟩
      rw [typed_var _ _ _ (itoa_noSpace _)]
      have : (goLib fold).parseUint (itoa v.toNat) = some v := by
        show (parseUint0 _ _).map _ = _
        rw [parseUint0_itoa (by have := v.toNat_lt; omega)]
        simp
      rw [this]
      simp only [hg]
    | err e => rw [hg] at hp; exact absurd rfl hp
    | panic => rw [hg] at hp; exact absurd rfl hp
    | diverge => rw [hg] at hp; exact absurd rfl hp

/-- Lines that print a set, by a positive and by a negative number, and one that prints a collection. -/
example :
    lineOutput (goLib fun _ _ => false) (fun _ => []) (execAll elevenReadings) (str "set 10") ≠ str "\n" ∧
    lineOutput (goLib fun _ _ => false) (fun _ => []) (execAll elevenReadings) (str "set -4294967286") ≠ str "\n" ∧
    lineOutput (goLib fun _ _ => false) (fun _ => []) (execAll elevenReadings) (str "var 65536") ≠ str "\n" := by
  refine ⟨?_, ?_, ?_⟩ <;> intro h <;> exact absurd (congrArg List.length h) (by decide +kernel)

end Verif
