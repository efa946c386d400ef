import Verif.Lemmas.Pack

/-!
# C26 — composite ids pack and unpack losslessly

`Combine8`/`Combine16` put one part into the upper and one into the lower half; the accessors return the
parts, and every id is the combination of its parts.
-/

namespace Verif

/-- C26 (16 bit): packing is a bijection with the two accessors as inverse, and the value is
`hi * 256 + lo`. -/
theorem C26_id16 :
    (∀ hi lo : UInt8, upper8 (combine8 hi lo) = hi ∧ lower8 (combine8 hi lo) = lo ∧
      (combine8 hi lo).toNat = hi.toNat * 256 + lo.toNat) ∧
    (∀ x : UInt16, combine8 (upper8 x) (lower8 x) = x) :=
  ⟨fun hi lo => ⟨upper8_combine8 hi lo, lower8_combine8 hi lo, toNat_combine8 hi lo⟩,
   combine8_upper_lower⟩

/-- C26 (32 bit). -/
theorem C26_id32 :
    (∀ hi lo : UInt16, upper16 (combine16 hi lo) = hi ∧ lower16 (combine16 hi lo) = lo ∧
      (combine16 hi lo).toNat = hi.toNat * 65536 + lo.toNat) ∧
    (∀ x : UInt32, combine16 (upper16 x) (lower16 x) = x) :=
  ⟨fun hi lo => ⟨upper16_combine16 hi lo, lower16_combine16 hi lo, toNat_combine16 hi lo⟩,
   combine16_upper_lower⟩

/-- C26: no two different pairs share an id (both widths). -/
theorem C26_injective :
    (∀ a b c d : UInt8, combine8 a b = combine8 c d → a = c ∧ b = d) ∧
    (∀ a b c d : UInt16, combine16 a b = combine16 c d → a = c ∧ b = d) := by
  refine ⟨fun a b c d h => ?_, fun a b c d h => ?_⟩
  · have h1 := congrArg upper8 h
    have h2 := congrArg lower8 h
    rw [upper8_combine8, upper8_combine8] at h1
    rw [lower8_combine8, lower8_combine8] at h2
    exact ⟨h1, h2⟩
  · have h1 := congrArg upper16 h
    have h2 := congrArg lower16 h
    rw [upper16_combine16, upper16_combine16] at h1
    rw [lower16_combine16, lower16_combine16] at h2
    exact ⟨h1, h2⟩

example : combine16 0x1234 0xabcd = 0x1234abcd := by decide
example : upper8 0xfe01 = 0xfe := by decide

end Verif
