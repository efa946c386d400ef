import Verif.Spec.Readings

/-! # Specification: the order in which readings are shown -/

namespace Verif

/-- The number of the call (counting the successful `AddTagSet` calls of the whole dictionary) that first attached this
combination of tags, in any order of the tags, to any word. -/
def Dict.firstUse (d : Dict) (names : List Str) : Nat := d.readings.findIdx fun e => decide (e.2.Perm names)

/-- Readings with fewer tags come first, those with equally many in the order in which the combinations were first used in
the dictionary; within a reading the tags come in the order in which they were registered. -/
structure Arranged (d : Dict) (L : List (List Tag)) : Prop where
  readings : L.Pairwise fun a b => a.length < b.length ∨
    a.length = b.length ∧ d.firstUse (tagNames a) < d.firstUse (tagNames b)
  tags : ∀ t ∈ L, t.Pairwise fun a b => d.tags.idxOf a ≤ d.tags.idxOf b

end Verif
