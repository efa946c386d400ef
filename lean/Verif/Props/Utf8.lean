import Verif.Lemmas.Utf8

/-!
# C50 — conversions between strings and runes

`decodeRunes` is Go's `[]rune(s)` (used by `AddString`, `FetchString`), `encodeRunes` is Go's
`string(runes)` (used by `Node.Word`).
-/

namespace Verif

/-- C50: decoding the encoding of any sequence of Unicode scalar values gives that sequence back. -/
theorem C50_decode_encode (rs : List Rune) (h : ∀ r ∈ rs, IsScalar r) :
    decodeRunes (encodeRunes rs) = rs := decodeAux_encode rs h _ (Nat.le_refl _)

/-- C50: on well-formed UTF-8 the two conversions are inverse. -/
theorem C50_encode_decode (w : Str) (h : ValidUtf8 w) : encodeRunes (decodeRunes w) = w := by
  obtain ⟨rs, hrs, rfl⟩ := h
  rw [C50_decode_encode rs hrs]

/-- C50: different well-formed strings are different rune sequences. -/
theorem C50_injective (v w : Str) (hv : ValidUtf8 v) (hw : ValidUtf8 w)
    (h : decodeRunes v = decodeRunes w) : v = w := by
  rw [← C50_encode_decode v hv, h, C50_encode_decode w hw]

/-- C50 (any string): decoding yields scalar values only, and encoding them again gives the string with
each undecodable byte replaced by U+FFFD — and nothing else. -/
theorem C50_any (w : Str) :
    (∀ r ∈ decodeRunes w, IsScalar r) ∧
    ∀ w', Sanitized w w' ↔ w' = encodeRunes (decodeRunes w) := by
  have h := decodeAux_sanitized w.length w (Nat.le_refl _)
  exact ⟨h.1, fun w' => ⟨fun h' => h'.unique h.2, fun e => e ▸ h.2⟩⟩

/-- C50: only the empty string decodes to the empty sequence. -/
theorem C50_empty (w : Str) : decodeRunes w = [] ↔ w = [] := by
  constructor
  · intro h
    cases w with
    | nil => rfl
    | cons b t => unfold decodeRunes decodeAux at h; simp at h
  · rintro rfl; rfl

/-! The hypotheses are met: a two-letter Cyrillic word, an astral character, and a broken string. -/
example : ∀ r ∈ ([0x44F, 0x434, 0x1F600] : List Rune), IsScalar r := by decide
example : ValidUtf8 [0xD1, 0x8F, 0xD0, 0xB4] := ⟨[0x44F, 0x434], by decide, by decide⟩
example : encodeRunes (decodeRunes [0x61, 0xD1, 0x62]) = [0x61, 0xEF, 0xBF, 0xBD, 0x62] := by decide
/-- The surrogate range is rightly excluded: an encoded surrogate does not come back. -/
example : decodeRunes (encodeRunes [0xD800]) ≠ [0xD800] := by decide

end Verif
