import Verif.Model.Go

/-! # Specification: UTF-8 -/

namespace Verif

/-- Code point of a rune. -/
def codePoint (r : Rune) : Nat := r.toUInt32.toNat

/-- A Unicode scalar value: at most 10FFFF and not a surrogate. -/
def IsScalar (r : Rune) : Prop := codePoint r ≤ 0x10FFFF ∧ ¬ (0xD800 ≤ codePoint r ∧ codePoint r ≤ 0xDFFF)

instance (r : Rune) : Decidable (IsScalar r) := inferInstanceAs (Decidable (_ ∧ ¬ _))

/-- Well-formed UTF-8: the encoding of a sequence of scalar values. -/
def ValidUtf8 (w : Str) : Prop := ∃ rs : List Rune, (∀ r ∈ rs, IsScalar r) ∧ w = encodeRunes rs

/-- `Sanitized w w'`: `w'` is `w` with every byte at which no well-formed character starts replaced by
the encoding of U+FFFD (EF BF BD). -/
inductive Sanitized : Str → Str → Prop
  | nil : Sanitized [] []
  | good {r rest rest'} : IsScalar r → Sanitized rest rest' →
      Sanitized (encodeRune r ++ rest) (encodeRune r ++ rest')
  | bad {b rest rest'} : (∀ r, IsScalar r → ¬ encodeRune r <+: b :: rest) → Sanitized rest rest' →
      Sanitized (b :: rest) ([0xEF, 0xBF, 0xBD] ++ rest')

end Verif
