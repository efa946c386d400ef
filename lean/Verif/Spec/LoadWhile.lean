import Verif.Model.LoadWhile
import Verif.Spec.Queries

/-! # Specification: what may be seen of a dictionary that is still being loaded -/

namespace Verif

/-- `now` is an index at some moment of a load, `final` the one the load ends with. -/
structure SeenSoFar (now final : Index) : Prop where
  /-- A lookup gives the final answer or an error. -/
  fetch : ∀ rs, NoLeadingNul rs → (now.fetchRunes rs).2 = (final.fetchRunes rs).2 ∨ ∃ e, (now.fetchRunes rs).2 = .err e
  /-- So does a lookup of a string. -/
  fetchString : ∀ w, NoLeadingNul (decodeRunes w) →
    (now.fetchString w).2 = (final.fetchString w).2 ∨ ∃ e, (now.fetchString w).2 = .err e
  /-- A node that was found is complete: its text, its readings, `Get`. -/
  node : ∀ rs id, NoLeadingNul rs → (now.fetchRunes rs).2 = .ok id →
    now.word id = final.word id ∧ now.tagSetsOf id = final.tagSetsOf id ∧ now.get id = final.get id
  /-- Below it as well, lookups give the final answer or an error. -/
  below : ∀ rs id ts, NoLeadingNul rs → (now.fetchRunes rs).2 = .ok id →
    (now.fetchFromItem id ts).2 = (final.fetchFromItem id ts).2 ∨ ∃ e, (now.fetchFromItem id ts).2 = .err e
  /-- Its children are final ones. -/
  children : ∀ rs id l c, NoLeadingNul rs → (now.fetchRunes rs).2 = .ok id →
    now.getChildrenMap id l = some c → final.getChildrenMap id l = some c
  /-- The number of words only lags behind. -/
  words : now.wordsCount ≤ final.wordsCount

/-- The events that are steps of the load. -/
def loadsIn (evs : List LoadEv) : Nat := (evs.filter fun | .load => true | _ => false).length

end Verif
