import Verif.Model.ConcurrentAdd

/-! # Specification: calls that may meet in a map -/

namespace Verif

/-- `AddRunes w`, if `a`, else `FetchRunes w`, alone on the index `ix`, gives some node a map of children it did not
have. -/
def Grows (ix : Index) (a : Bool) (w : List Rune) : Prop :=
  ∃ p, ix.childrenMap p = none ∧ (if a then (ix.addRunes w).1 else (ix.fetchRunes w).1).childrenMap p ≠ none

/-- The word `w` is not in the index, and the word `x` passes the place of its last letter: it begins like `w` without the
last letter, and goes on from there. -/
def Crosses (ix : Index) (w x : List Rune) : Prop :=
  (∀ id, (ix.fetchRunes w).2 ≠ .ok id) ∧ ∃ v a b, w = v ++ [a] ∧ v ++ [b] <+: x

end Verif
