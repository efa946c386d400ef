import Verif.Lemmas.Codec

/-!
# C35 — binary codec of tag names and tags
-/

namespace Verif

/-- The two byte strings besides `""` that mean "no name" on disk or in memory: `"----"`, `"    "`. -/
def fourSpaces : Str := [0x20, 0x20, 0x20, 0x20]

/-- C35: which names can be marshalled, to how many bytes. -/
theorem C35_marshal (n : Str) :
    ((n = [] ∨ n.length = 4) → ∃ b, marshalName n = .ok b ∧ b.length = 4) ∧
    (¬ (n = [] ∨ n.length = 4) → ∃ e, marshalName n = .err e) := by
  unfold marshalName
  constructor
  · rintro (rfl | h)
    · exact ⟨_, rfl, rfl⟩
    · split
      · exact ⟨_, rfl, rfl⟩
      · rw [if_neg (by simpa using h)]
        exact ⟨n, rfl, h⟩
  · intro h
    rw [not_or] at h
    have h1 : ¬ (n.length = 0 ∨ n = emptyTagName) := by
      rintro (h0 | rfl)
      · exact h.1 (List.length_eq_zero_iff.1 h0)
      · exact h.2 rfl
    rw [if_neg h1, if_pos h.2]
    exact ⟨_, rfl⟩

/-- C35: what is read back: the name itself, except that the empty name and four spaces come back as
the empty marker `"----"`. -/
theorem C35_roundtrip (n b : Str) (h : marshalName n = .ok b) :
    unmarshalName b = .ok (if n = [] ∨ n = fourSpaces then emptyTagName else n) := by
  unfold marshalName at h
  split at h
  · rename_i h0
    obtain rfl := Out.ok.inj h
    rcases h0 with h0 | rfl
    · obtain rfl := List.length_eq_zero_iff.1 h0
      rfl
    · rfl
  · rename_i h0
    split at h
    · cases h
    · rename_i h4
      obtain rfl := Out.ok.inj h
      unfold unmarshalName
      rw [if_neg h4]
      rw [not_or] at h0
      by_cases hs : n = fourSpaces
      · subst hs; rfl
      · rw [if_neg (show ¬ n = [32, 32, 32, 32] from hs), if_neg]
        rintro (rfl | h')
        · exact h0.1 rfl
        · exact hs h'

/-- C35: two names share an encoding only if they are equal or both spell "empty". -/
theorem C35_injective (n m b : Str) (hn : marshalName n = .ok b) (hm : marshalName m = .ok b) :
    n = m ∨ ((n = [] ∨ n = fourSpaces ∨ n = emptyTagName) ∧
      (m = [] ∨ m = fourSpaces ∨ m = emptyTagName)) := by
  have h1 := C35_roundtrip n b hn
  rw [C35_roundtrip m b hm] at h1
  have h1 := Out.ok.inj h1
  by_cases h2 : n = [] ∨ n = fourSpaces <;> by_cases h3 : m = [] ∨ m = fourSpaces
  · exact .inr ⟨h2.imp_right .inl, h3.imp_right .inl⟩
  · rw [if_pos h2, if_neg h3] at h1
    exact .inr ⟨h2.imp_right .inl, .inr (.inr h1)⟩
  · rw [if_neg h2, if_pos h3] at h1
    exact .inr ⟨.inr (.inr h1.symm), h3.imp_right .inl⟩
  · rw [if_neg h2, if_neg h3] at h1
    exact .inl h1.symm

/-- C35: every four-byte string is accepted on reading; no other is. -/
theorem C35_unmarshal (b : Str) :
    (b.length = 4 → ∃ n, unmarshalName b = .ok n ∧ n.length = 4) ∧
    (b.length ≠ 4 → ∃ e, unmarshalName b = .err e) := by
  unfold unmarshalName
  constructor
  · intro h
    rw [if_neg (by simpa using h)]
    split
    · exact ⟨_, rfl, rfl⟩
    · exact ⟨_, rfl, h⟩
  · intro h
    rw [if_pos h]
    exact ⟨_, rfl⟩

example : marshalName (str "NOUN") = .ok (str "NOUN") := by decide
example : unmarshalName (str "NOUN") = .ok (str "NOUN") := by decide
example : marshalName (str "VERBS") = .err (.marshal (str "VERBS")) := by decide

end Verif
