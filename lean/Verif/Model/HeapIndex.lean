import Verif.Model.Heap
import Verif.Model.Codec
import Verif.Spec.Dictionary

/-!
# The index with its sets and collections as references

`TagSetTable` and `VariantsTable` are slices of slices: `Index` keeps the slice it is given, after sorting it in
place, and `Get` returns the slice that is kept. Only the inner slices are references here; the outer ones are never
shared.
-/

namespace Verif

section tables

variable {α : Type} [DecidableEq α] [LE α] [DecidableRel (α := α) (· ≤ ·)]

/-- `item.Sort()`, `sort.Sort(item)`: in place. Used at internal/index/tagset_def.go:90,
internal/index/variant_table.go:72. -/
def Heap.sort (h : Heap α) (item : Slice) : Heap α := h.write item (sortAsc (h.read item))

/-- `Index` of `Table8` (pkg/storage/table8.go:22-40), `Table16` (table16.go:23-41), `TagSetTable`
(internal/index/tagset_table.go:89-107) and `VariantsTable` (variant_table.go:65-83) for a non-empty set; the
position is not yet converted to the id type. -/
def hTableIndex (h : Heap α) (t : List Slice) (item : Slice) : Heap α × List Slice × Nat :=
  let h := h.sort item
  match t.findIdx? (fun existed => equalTo (h.read existed) (h.read item)) with
  | some i => (h, t, i)
  | none => (h, t ++ [item], t.length)

/-- `Get` of the same tables: the kept slice itself — internal/index/tagset_table.go:110-116,
internal/index/variant_table.go:86-88 -/
def hTableGet (t : List Slice) (i : Nat) : Option Slice := t[i]?

end tables

/-- `TagSetIndex.Index` — internal/index/tagset_index.go:107-124 -/
def hSetIndex (h : Heap UInt8) (ts : List (List Slice)) (item : Slice) :
    Heap UInt8 × List (List Slice) × TagSetID :=
  if item.len = 0 then (h, ts, 0)
  else
    let col := item.len - 1
    let ts := extendTables ts col
    let (h, t, i) := hTableIndex h (ts.getD col []) item
    (h, ts.set col t, combine16 (UInt16.ofNat col) (UInt16.ofNat i))

/-- `VariantsIndex.Index` — internal/index/variant_idx.go:73-92; the slice is sorted here and once more in the
table's `Index`. -/
def hCollIndex (h : Heap UInt32) (ts : List (List Slice)) (item : Slice) :
    Heap UInt32 × List (List Slice) × VariantID :=
  if item.len = 0 then (h, ts, 0)
  else
    let h := h.sort item
    let n := UInt16.ofNat (item.len - 1)
    let ts := extendTables ts n.toNat
    let (h, t, i) := hTableIndex h (ts.getD n.toNat []) item
    (h, ts.set n.toNat t, mkVariantID (UInt16.ofNat (n.toNat + 1)) (UInt16.ofNat i))

/-- `VariantsIndex.Get` — internal/index/variant_idx.go:95-106; `none` is a panic. -/
def hCollGet (h : Heap UInt32) (ts : List (List Slice)) (id : VariantID) : Option (Heap UInt32 × Slice) :=
  if id = 0 then some h.makeEmpty
  else if (variantTableNum id).toNat < 1 then some h.makeEmpty
  else match ts[(variantTableNum id).toNat - 1]? with
    | none => none
    | some t => (hTableGet t (variantSubID id).toNat).map fun s => (h, s)

/-- `TagSetIDCollection.Add` — internal/index/variant_def.go:114-125: the same slice or a new one. -/
def hCollAdd (h : Heap UInt32) (c : Slice) (id : TagSetID) : Heap UInt32 × Slice :=
  if Coll.has (h.read c) id then (h, c) else h.makeWith (sortAsc (h.read c ++ [id]))

/-- `VariantsIndex.KnownID` — internal/index/variant_idx.go:113-127: it only looks at the sizes of the tables. -/
def hKnownID (ts : List (List Slice)) : List VariantID :=
  (ts.zipIdx.map fun (t, i) =>
    ((List.range t.length).map fun j =>
      mkVariantID (tableNumberAdd (UInt16.ofNat i) 1) (UInt16.ofNat j)).filter (· ≠ 0)).flatten

/-- `Index` — internal/index/idx.go:22-33; the fields `tagSets` and `collectionIdx` of `ix` are not used. -/
structure HIndex where
  ix : Index
  sets : Heap UInt8
  tagSets : List (List Slice)
  colls : Heap UInt32
  collectionIdx : List (List Slice)

namespace HIndex

/-- `New` — internal/index/idx.go:37-47 -/
def new : HIndex := { ix := Index.new, sets := [], tagSets := [], colls := [], collectionIdx := [] }

/-- The index with values in place of references. For internal/index/idx.go:22-48. -/
def value (x : HIndex) : Index :=
  { x.ix with tagSets := x.tagSets.map (List.map x.sets.read),
              collectionIdx := x.collectionIdx.map (List.map x.colls.read) }

/-- `Node.AddTagSet` — internal/index/node.go:52-70 -/
def addTagSet (x : HIndex) (id : ID) (names : List Str) : HIndex × Out Unit :=
  match Index.findAll x.ix.tags names with
  | .error n => (x, .err (.unknownTag n))
  | .ok tagSet =>
    match x.ix.items.get id with
    | none => (x, .panic)
    | some item =>
      match hCollGet x.colls x.collectionIdx item.variants with
      | none => (x, .panic)
      | some (colls, coll) =>
        let (sets, ts) := x.sets.makeWith tagSet
        let (sets, tagSets, tsID) := hSetIndex sets x.tagSets ts
        let (colls, coll) := hCollAdd colls coll tsID
        let wordsCount := if item.variants = 0 then x.ix.wordsCount + 1 else x.ix.wordsCount
        let (colls, collectionIdx, vID) := hCollIndex colls x.collectionIdx coll
        ({ ix := { x.ix with wordsCount := wordsCount, items := Index.setVariants x.ix.items id vID },
           sets := sets, tagSets := tagSets, colls := colls, collectionIdx := collectionIdx }, .ok ())

/-- Third loop of `Optimize` — internal/index/idx.go:524-544: the kept slices of the old tables go into the new
ones. -/
def optimizeBuild (old : List (List Slice)) (used : VariantID → Option (List ID)) :
    List VariantID → Heap UInt32 → List (List Slice) → List (VariantID × VariantID) →
    Option (Heap UInt32 × List (List Slice) × List (VariantID × VariantID))
  | [], h, new, acc => some (h, new, acc)
  | id :: rest, h, new, acc =>
    match used id with
    | none => optimizeBuild old used rest h new acc
    | some _ =>
      match hCollGet h old id with
      | none => none
      | some (h, c) =>
        let (h, new, nid) := hCollIndex h new c
        match hCollGet h new nid with
        | none => none
        | some (h, c') =>
          if equalTo (h.read c) (h.read c') then optimizeBuild old used rest h new (acc ++ [(id, nid)]) else none

/-- `Optimize` — internal/index/idx.go:488-574 -/
def optimize (x : HIndex) : HIndex × Out Unit :=
  let used := Index.usedCollections x.ix.items.items
  let known := hKnownID x.collectionIdx
  let unused := known.filter fun id => (used id).isNone
  if unused.length = 0 then (x, .ok ())
  else match optimizeBuild x.collectionIdx used known x.colls [] [] with
    | some (h, new, repl) => match Index.replaceAll used repl x.ix.items.items with
      | some items =>
        ({ x with ix := { x.ix with items := { x.ix.items with items := items } }, colls := h,
                  collectionIdx := new }, .ok ())
      | none => (x, .panic)
    | none => (x, .panic)

/-- A new array for every set of a table, as the readers do — internal/index/tagset_def.go, variant_def.go:46-66 —
internal/index/tagset_table.go:32-52, internal/index/variant_table.go:33-48 -/
def allocTable {α : Type} (h : Heap α) : List (List α) → Heap α × List Slice
  | [] => (h, [])
  | xs :: rest =>
    let (h, s) := h.makeWith xs
    let (h, ss) := allocTable h rest
    (h, s :: ss)

/-- A new array for every set of all tables — internal/index/tagset_index.go:63-82,
internal/index/variant_idx.go:33-48 -/
def allocTables {α : Type} (h : Heap α) : List (List (List α)) → Heap α × List (List Slice)
  | [] => (h, [])
  | t :: rest =>
    let (h, s) := allocTable h t
    let (h, ss) := allocTables h rest
    (h, s :: ss)

/-- What a reader makes of the contents of a file: new arrays for all sets and collections —
internal/index/idx.go:220-240 -/
def ofValue (ix : Index) : HIndex :=
  let s := allocTables [] ix.tagSets
  let c := allocTables [] ix.collectionIdx
  { ix := { ix with tagSets := [], collectionIdx := [] }, sets := s.1, tagSets := s.2, colls := c.1,
    collectionIdx := c.2 }

/-- A call on the index with references; the calls not listed do not touch the sets and collections. For
internal/index/idx.go:244-520. -/
def exec (x : HIndex) : Op → HIndex
  | .addTagSet id names => (x.addTagSet id names).1
  | .optimize => x.optimize.1
  | .reload =>
    if x.value.save.err = none then
      match Index.new.load x.value.save.bytes with
      | .ok (ix', _) => ofValue ix'
      | _ => x
    else x
  | op => { x with ix := op.exec x.ix }

/-- The calls of a history, on a new index. For internal/index/idx.go:244-520. -/
def execAll (h : List Op) : HIndex := h.foldl exec new

end HIndex

end Verif
