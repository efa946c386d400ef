import Verif.Spec.Dictionary

/-! # Specification: what can be asked of an index -/

namespace Verif

/-- Every query of the public interface has the same answer in `a` and `b`. -/
structure SameAnswers (a b : Index) : Prop where
  /-- `FetchFromItem`; `FetchRunes` is the case `id = 0` -/
  fetch : ∀ id rs, (b.fetchFromItem id rs).2 = (a.fetchFromItem id rs).2
  /-- `FetchItemFromParent` -/
  fetchItem : ∀ id rs, (b.fetchItemFromParent id rs).2 = (a.fetchItemFromParent id rs).2
  /-- `Get` -/
  get : ∀ id, b.get id = a.get id
  /-- `Node.Word` -/
  word : ∀ id, b.word id = a.word id
  /-- `Node.TagSets` -/
  tagSets : ∀ id, b.tagSetsOf id = a.tagSetsOf id
  /-- `GetChildrenMap`; `Children` is the case `id = 0` -/
  children : ∀ id, b.getChildrenMap id = a.getChildrenMap id
  /-- `Tags` -/
  tags : b.tags = a.tags
  /-- `NodesCount` -/
  nodesCount : b.nodesCount = a.nodesCount
  /-- `WordsCount` -/
  wordsCount : b.wordsCount = a.wordsCount

/-- Like `SameAnswers`, but nothing is said about lookups from the root that start with NUL (character 0). -/
structure SameAnswersExceptNul (a b : Index) : Prop where
  fetch : ∀ id rs, id ≠ 0 ∨ rs.head? ≠ some 0 → (b.fetchFromItem id rs).2 = (a.fetchFromItem id rs).2
  fetchItem : ∀ id rs, id ≠ 0 ∨ rs.head? ≠ some 0 →
    (b.fetchItemFromParent id rs).2 = (a.fetchItemFromParent id rs).2
  get : ∀ id, b.get id = a.get id
  word : ∀ id, b.word id = a.word id
  tagSets : ∀ id, b.tagSetsOf id = a.tagSetsOf id
  children : ∀ id r, id ≠ 0 ∨ r ≠ 0 → b.getChildrenMap id r = a.getChildrenMap id r
  tags : b.tags = a.tags
  nodesCount : b.nodesCount = a.nodesCount
  wordsCount : b.wordsCount = a.wordsCount

/-- The state after a history (whether or not the capacity was kept). -/
def execAll (h : List Op) : Index := h.foldl Op.exec Index.new

/-- No call of the history saves and loads. -/
def NoReload (h : List Op) : Prop := Op.reload ∉ h

/-- The sequence does not start with the NUL character. -/
def NoLeadingNul (q : List Rune) : Prop := q.head? ≠ some 0

end Verif
