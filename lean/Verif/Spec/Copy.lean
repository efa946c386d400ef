import Verif.Spec.Alike
import Verif.Spec.Utf8

/-!
# Specification: copying a dictionary by calls of its own interface

The program a user would write: register the tags of `src` in a new index, then go through the nodes of `src` by number,
add the word of each and attach each of its readings. It stops at the first call that fails.
-/

namespace Verif

/-- `TagID` for each tag. -/
def copyTags (dst : Index) : List Tag → Index
  | [] => dst
  | t :: rest => copyTags (dst.tagID t.name t.parent).1 rest

/-- `AddTagSet` for each reading; `none` if a call fails. -/
def attachAll (dst : Index) (n : ID) : List (List Tag) → Option Index
  | [] => some dst
  | s :: rest =>
    match dst.addTagSet n (tagNames s) with
    | (dst, .ok ()) => attachAll dst n rest
    | _ => none

/-- Copy one node: `Word` and `TagSets` of the node in `src`, `AddString` and `AddTagSet` in `dst`. -/
def copyNode (src dst : Index) (id : ID) : Option Index :=
  match src.word id, src.tagSetsOf id with
  | .ok w, .ok sets =>
    match dst.addString w with
    | (dst, .ok n) => attachAll dst n sets
    | _ => none
  | _, _ => none

/-- Copy the tags and the nodes `1 … n`. -/
def copyNodes (src : Index) : Nat → Option Index
  | 0 => some (copyTags Index.new src.tags)
  | n + 1 => (copyNodes src n).bind fun dst => copyNode src dst (UInt32.ofNat (n + 1))

/-- The copy of `src`, a new index; `none` if a call failed on the way. -/
def copyOf (src : Index) : Option Index := copyNodes src src.nodesCount

/-- Every character of every word of the index is a Unicode character (not a lone surrogate, not above 10FFFF, not
negative): the words are what their text says. -/
def TextWords (ix : Index) : Prop :=
  ∀ rs id, (ix.fetchRunes rs).2 = .ok id → ∀ c ∈ rs, IsScalar c

/-- The call adds Unicode characters only. `AddString` always does. -/
def Op.Text : Op → Prop
  | .addRunes rs => ∀ c ∈ rs, IsScalar c
  | .addToNode _ rs => ∀ c ∈ rs, IsScalar c
  | _ => True

instance (op : Op) : Decidable op.Text := by
  unfold Op.Text; split <;> infer_instance

/-- The copy has room: at most 65536 different sets of readings come about while the readings of each word are attached
one by one. -/
def CopyRoom (ix : Index) : Prop :=
  ∃ L : List (List (List Tag)), L.length ≤ 65536 ∧
    ∀ id sets, ix.tagSetsOf id = .ok sets → ∀ q, q <+: sets → q ≠ [] →
      ∃ A ∈ L, SameSets (A.map tagNames) (q.map tagNames)

/-- Room for a copy of `ix`, the index after `h`, and for the calls `f` after it: at most 65536 different sets of readings
come about. -/
def CopyRoomThen (h f : List Op) (ix : Index) : Prop :=
  ∃ L : List (List (List Str)), L.length ≤ 65536 ∧
    (∀ id sets, ix.tagSetsOf id = .ok sets → ∀ q, q <+: sets → q ≠ [] → ∃ A ∈ L, SameSets A (q.map tagNames)) ∧
    ∀ q, q <+: f → ∀ k, (dictOf (h ++ q)).attached k ≠ [] → ∃ A ∈ L, SameSets A ((dictOf (h ++ q)).attached k)

/-- The same dictionary: every query has the same answer, node numbers included. Lookups from the root that start with NUL
are left out; the readings of a word may come in another order, as may the tags of a reading; and a list of readings with
an empty one among them (which stands for readings that `TagSets` cannot show) is a list of empty readings in both. -/
structure SameDictionary (a b : Index) : Prop where
  fetch : ∀ id rs, id ≠ 0 ∨ rs.head? ≠ some 0 → (b.fetchFromItem id rs).2 = (a.fetchFromItem id rs).2
  fetchItem : ∀ id rs, id ≠ 0 ∨ rs.head? ≠ some 0 →
    (b.fetchItemFromParent id rs).2 = (a.fetchItemFromParent id rs).2
  get : ∀ id, b.get id = a.get id
  word : ∀ id, b.word id = a.word id
  children : ∀ id r, id ≠ 0 ∨ r ≠ 0 → b.getChildrenMap id r = a.getChildrenMap id r
  tags : b.tags = a.tags
  nodesCount : b.nodesCount = a.nodesCount
  wordsCount : b.wordsCount = a.wordsCount
  /-- readings that can be shown -/
  tagSets : ∀ id L, a.tagSetsOf id = .ok L → [] ∉ L → ∃ M, b.tagSetsOf id = .ok M ∧ SameTagSets L M
  /-- readings that cannot -/
  hidden : ∀ id L, a.tagSetsOf id = .ok L → [] ∈ L → (∀ t ∈ L, t = []) ∧ b.tagSetsOf id = .ok [[]]
  /-- no such node -/
  noNode : ∀ id, a.tagSetsOf id = .panic → b.tagSetsOf id = .panic

end Verif
