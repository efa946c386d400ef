import Verif.Spec.Small
import Verif.Spec.Readings

/-!
# Specification: histories within the capacity of the index

Only the dictionary a history describes is counted here — words, tags, readings — not the tables of the index.
-/

namespace Verif

/-- The same readings: every reading of one is, up to the order of its tags, a reading of the other. -/
def SameSets (A B : List (List Str)) : Prop := (∀ a ∈ A, ∃ b ∈ B, a.Perm b) ∧ ∀ b ∈ B, ∃ a ∈ A, a.Perm b

/-- A history within capacity: fewer than 2³² nodes, at most 255 tags with names of four bytes, at most 255 tags in a
reading, 65535 different readings in all, 255 different readings of one word, and at most 65536 different sets of
readings that a word ever had. There is no bound on the number of calls. -/
structure Room (h : List Op) : Prop where
  nodes : (dictOf h).nodes.length < 4294967296
  tags : (dictOf h).tags.length ≤ 255
  plain : ∀ op ∈ h, op.Plain
  readings : ∃ L : List (List Str), L.length ≤ 65535 ∧ ∀ e ∈ (dictOf h).readings, ∃ l ∈ L, l.Perm e.2
  perWord : ∀ k, ∃ L : List (List Str), L.length ≤ 255 ∧ ∀ names ∈ (dictOf h).attached k, ∃ l ∈ L, l.Perm names
  sets : ∃ L : List (List (List Str)), L.length ≤ 65536 ∧
    ∀ q, q <+: h → ∀ k, (dictOf q).attached k ≠ [] → ∃ A ∈ L, SameSets A ((dictOf q).attached k)

end Verif
