import Verif.Model.SaveWhile
import Verif.Spec.Queries
import Verif.Spec.Room

/-! # A file saved while other goroutines work: vocabulary -/

namespace Verif

/-- The reads come in the order of the file: tags, tag sets, collections, items. -/
structure Moments.Ordered (m : Moments) : Prop where
  sets : m.tags ≤ m.sets
  set : ∀ k, m.sets ≤ m.set k ∧ m.set k ≤ m.colls
  coll : ∀ k, m.colls ≤ m.coll k ∧ m.coll k ≤ m.items
  item : ∀ k, m.items ≤ m.item k

/-- The index after the calls `h` and the first `i` calls of `during`. -/
def momentsOf (h during : List Op) (i : Nat) : Index := execAll (h ++ during.take i)

/-- Calls that only add: everything but `Optimize` and loading. (Loading takes the mutex the writer holds, so it cannot
happen during a save.) -/
def OnlyAdds (during : List Op) : Prop := Op.optimize ∉ during ∧ Op.reload ∉ during

/-- `b` answers like `a` where words, nodes and characters are concerned (nothing is said about lookups from the root
that start with NUL, see C18). -/
structure SameWords (a b : Index) : Prop where
  fetch : ∀ id rs, id ≠ 0 ∨ rs.head? ≠ some 0 → (b.fetchFromItem id rs).2 = (a.fetchFromItem id rs).2
  fetchItem : ∀ id rs, id ≠ 0 ∨ rs.head? ≠ some 0 →
    (b.fetchItemFromParent id rs).2 = (a.fetchItemFromParent id rs).2
  get : ∀ id, b.get id = a.get id
  word : ∀ id, b.word id = a.word id
  children : ∀ id r, id ≠ 0 ∨ r ≠ 0 → b.getChildrenMap id r = a.getChildrenMap id r
  nodesCount : b.nodesCount = a.nodesCount

/-- The reading `b` with parts missing: left out altogether, or with some of its tags blank. -/
def Blanked (b a : List Tag) : Prop := b = [] ∨ List.Forall₂ (fun y x => y = x ∨ y = Index.zeroTag) b a

/-- Each of the two lists of tables is read in one go. -/
def Moments.OneGo (m : Moments) : Prop := ∀ k, m.set k = m.sets ∧ m.coll k = m.colls

/-- After the calls `l`, some word — not necessarily still — has or had exactly the readings `A`, and `Optimize` was not
called since. -/
def CombinedBy (l : List Op) (A : List (List Str)) : Prop :=
  ∃ q t, l = q ++ t ∧ Op.optimize ∉ t ∧ ∃ k, SameSets ((dictOf q).attached k) A

/-- After the calls `l`, some word has the reading `names` (in any order of its tags). -/
def AttachedBy (l : List Op) (names : List Str) : Prop := ∃ k, ∃ n ∈ (dictOf l).attached k, n.Perm names

end Verif
