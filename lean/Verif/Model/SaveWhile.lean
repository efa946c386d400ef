import Verif.Model.Codec

/-!
# Saving an index while other goroutines use it

`BinaryWriteTo` (internal/index/idx.go:49-67) holds the mutex of the index, but `AddRunes`, `AddTagSet`, `TagID` and
`Optimize` do not take it. So the index may change between the reads of the writer: the file is made of pieces of
different moments.

Simplification: the calls of the other goroutines happen one after the other, between the reads of the writer (what
they do to each other when they overlap: `Model/Tagging.lean`, `Model/TagWhileAdding.lean`); a slice header or an item
is read in one piece.
-/

namespace Verif

/-- When the writer reads what: the moments are numbers of calls of the other goroutines. -/
structure Moments where
  /-- the slice of tags: copied as the receiver of `Idx.BinaryWriteTo`, pkg/dag/idx.go:67 -/
  tags : Nat
  /-- the slice of tag set tables: copied as the receiver, internal/index/tagset_index.go:42 -/
  sets : Nat
  /-- each tag set table: `range`, internal/index/tagset_index.go:51 -/
  set : Nat → Nat
  /-- the slice of collection tables: copied as the receiver, internal/index/variant_idx.go:16 -/
  colls : Nat
  /-- each collection table: `range`, internal/index/variant_idx.go:21 -/
  coll : Nat → Nat
  /-- the slice of items with its length and `nextID`: copied as the receiver, internal/index/items.go:49 -/
  items : Nat
  /-- each item: `range`, internal/index/items.go:54. If `NewChild` has moved the items to a larger array since, the
  writer goes on reading the old one: the moment is then the one of the move. (Likewise for the tables.) -/
  item : Nat → Nat

/-- The pieces, put together: what `BinaryWriteTo` of internal/index/idx.go:49-67 gets to see of an index that is
`mom i` after `i` calls of the other goroutines. Elements of a table are never changed once they are there
(internal/index/tagset_table.go:101-106, variant_table.go:77-82), so a table is given by its header; of an item only
`Variants` changes (node.go:67). The children and the number of words are not written. -/
def Moments.seen (m : Moments) (mom : Nat → Index) : Index :=
  { tags := (mom m.tags).tags
    tagSets := (List.range (mom m.sets).tagSets.length).map fun k => (mom (m.set k)).tagSets.getD k []
    collectionIdx :=
      (List.range (mom m.colls).collectionIdx.length).map fun k => (mom (m.coll k)).collectionIdx.getD k []
    items :=
      { items := (List.range (mom m.items).items.items.length).map fun k =>
          (mom (m.item k)).items.items.getD k zeroItem
        nextID := (mom m.items).items.nextID }
    childrenMap := (mom m.items).childrenMap
    wordsCount := (mom m.items).wordsCount }

/-- `BinaryWriteTo` among other goroutines — internal/index/idx.go:49-67 -/
def Moments.save (m : Moments) (mom : Nat → Index) : Wr := (m.seen mom).save

end Verif
