import Verif.Spec.Readings
import Verif.Spec.Queries
import Verif.Spec.Room

/-! # Specification: dictionaries with the same content, and indexes that answer alike, whatever the node numbers -/

namespace Verif

/-- The readings attached to the word `w`. -/
def Dict.readingsFor (d : Dict) (w : List Rune) : List (List Str) :=
  (d.readings.filter fun e => d.nodes[e.1]? = some w).map (·.2)

/-- The same words, the same tags and, for every word, the same readings — in any order, any number of times, the tags of
a reading in any order. -/
structure SameContent (a b : Dict) : Prop where
  words : ∀ v, v ∈ a.words ↔ v ∈ b.words
  tags : ∀ t, t ∈ a.tags ↔ t ∈ b.tags
  readings : ∀ w, SameSets (a.readingsFor w) (b.readingsFor w)

/-- The same readings (with the tags' parents), each as often. -/
structure SameTagSets (L₁ L₂ : List (List Tag)) : Prop where
  length : L₁.length = L₂.length
  left : ∀ t ∈ L₁, ∃ t' ∈ L₂, t.Perm t'
  right : ∀ t ∈ L₂, ∃ t' ∈ L₁, t.Perm t'

/-- The two indexes answer alike for the word `w`: both do not know it, with the same error; or both know it, spell it
the same, know the same continuations by one character and, unless an empty reading was attached to it (`hidden`), show
the same readings. -/
def AlikeAt (a b : Index) (hidden : Prop) (w : List Rune) : Prop :=
  (∃ e, (a.fetchRunes w).2 = .err e ∧ (b.fetchRunes w).2 = .err e) ∨
  ∃ i j, (a.fetchRunes w).2 = .ok i ∧ (b.fetchRunes w).2 = .ok j ∧ a.word i = b.word j ∧
    (∀ c, (a.getChildrenMap i c).isSome = (b.getChildrenMap j c).isSome) ∧
    (¬ hidden → ∃ L M, a.tagSetsOf i = .ok L ∧ b.tagSetsOf j = .ok M ∧ SameTagSets L M)

end Verif
