import Verif.Model.Dag

/-!
# Model of the tag set index (`internal/index/tagset_*.go`) and of the variants index
(`internal/index/variant_*.go`)
-/

namespace Verif

/-- `TagSet` — internal/index/tagset_def.go:19 -/
abbrev TagSet := List UInt8
/-- `TagSetTable` — internal/index/tagset_table.go:16 -/
abbrev TagSetTable := List TagSet
/-- `TagSetIndex` — internal/index/tagset_index.go:17 -/
abbrev TagSetIndex := List TagSetTable
/-- `TagSetID` — internal/index/tagset_id.go:46 -/
abbrev TagSetID := UInt32

namespace TagSetTable

/-- `TagSetTable.Find` — internal/index/tagset_table.go:76-84 -/
def find (t : TagSetTable) (item : TagSet) : Option UInt16 := (findSet t item).map UInt16.ofNat

/-- `TagSetTable.Index` — internal/index/tagset_table.go:89-107 -/
def index (t : TagSetTable) (item : TagSet) : Out (TagSetTable × UInt16) :=
  if item.length = 0 then .panic
  else
    let item := sortAsc item
    match find t item with
    | some id => .ok (t, id)
    | none => .ok (t ++ [item], UInt16.ofNat t.length)

/-- `TagSetTable.Get` — internal/index/tagset_table.go:110-116 -/
def get (t : TagSetTable) (id : UInt16) : Option TagSet :=
  if id.toNat ≥ t.length then none else t[id.toNat]?

end TagSetTable

/-- `TagSetTableNumber.TagSetID` — internal/index/tagset_id.go:41-43 -/
def mkTagSetID (table sub : UInt16) : TagSetID := combine16 table sub
/-- `TagSetID.TagSetSubID` — internal/index/tagset_id.go:49-51 -/
def tagSetSubID (id : TagSetID) : UInt16 := lower16 id
/-- `TagSetID.TagSetTableNumber` — internal/index/tagset_id.go:54-56 -/
def tagSetTableNumber (id : TagSetID) : UInt16 := upper16 id
/-- `TagSetTableNumber.Add` — internal/index/tagset_id.go:26-28 (wraps at 16 bits) -/
def tableNumberAdd (n : UInt16) (k : Nat) : UInt16 := UInt16.ofNat (n.toNat + k)

namespace TagSetIndex

/-- `TagSetIndex.Size` — internal/index/tagset_index.go:31-37 -/
def size (ix : TagSetIndex) : Nat := (ix.map List.length).sum

/-- `TagSetIndex.getTable` — internal/index/tagset_index.go:140-146 -/
def getTable (ix : TagSetIndex) (n : UInt16) : Option TagSetTable :=
  if n.toNat ≥ ix.length then none else ix[n.toNat]?

/-- `TagSetIndex.getTagSet` — internal/index/tagset_index.go:149-155 -/
def getTagSet (ix : TagSetIndex) (n sub : UInt16) : Option TagSet :=
  match getTable ix n with
  | some t => TagSetTable.get t sub
  | none => none

/-- `TagSetIndex.Get` — internal/index/tagset_index.go:159-165 -/
def get (ix : TagSetIndex) (id : TagSetID) : Option TagSet :=
  if (tagSetTableNumber id).toNat ≥ ix.length then none
  else getTagSet ix (tagSetTableNumber id) (tagSetSubID id)

/-- `TagSetIndex.Find` — internal/index/tagset_index.go:86-102. `TagSetTableNumber(len(item)-1)`
truncates to 16 bits. -/
def find (ix : TagSetIndex) (item : TagSet) : Option TagSetID :=
  if item.length = 0 then none
  else
    let n := UInt16.ofNat (item.length - 1)
    match getTable ix n with
    | none => none
    | some t => match TagSetTable.find t item with
      | none => none
      | some lower => some (mkTagSetID n lower)

/-- `TagSetIndex.Index` — internal/index/tagset_index.go:107-124. The table's `Index` cannot panic
here because the set is not empty; the model keeps the index unchanged in that unreachable branch
and returns 0. -/
def index (ix : TagSetIndex) (item : TagSet) : TagSetIndex × TagSetID :=
  if item.length = 0 then (ix, 0)
  else
    let col := item.length - 1
    let ix := extendTables ix col
    match TagSetTable.index (ix.getD col []) item with
    | .ok (t, sub) => (ix.set col t, combine16 (UInt16.ofNat col) sub)
    | _ => (ix, 0)

/-- `TagSetIndex.TableIDs` — internal/index/tagset_index.go:127-137 -/
def tableIDs (ix : TagSetIndex) : List TagSetID :=
  (ix.zipIdx.map fun (t, i) =>
    (List.range t.length).map fun j =>
      mkTagSetID (tableNumberAdd (UInt16.ofNat i) 1) (UInt16.ofNat j)).flatten

end TagSetIndex

/-! ## Collections of tag sets ("variants") -/

/-- `TagSetIDCollection` — internal/index/variant_def.go:15 -/
abbrev Coll := List TagSetID
/-- `VariantsTable` — internal/index/variant_table.go:11 -/
abbrev VariantsTable := List Coll
/-- `VariantsIndex` — internal/index/variant_idx.go:11 -/
abbrev VariantsIndex := List VariantsTable
/-- `VariantID` — internal/index/variant_id.go:37 -/
abbrev VariantID := UInt32

/-- `TagSetIDCollection.Has` — internal/index/variant_def.go:100-108 -/
def Coll.has (c : Coll) (id : TagSetID) : Bool := c.any (· == id)

/-- `TagSetIDCollection.Add` — internal/index/variant_def.go:114-125 -/
def Coll.add (c : Coll) (id : TagSetID) : Coll :=
  if Coll.has c id then c else sortAsc (c ++ [id])

/-- `CollectionTableNumber.VariantID` — internal/index/variant_id.go:32-34 -/
def mkVariantID (table sub : UInt16) : VariantID := combine16 table sub
/-- `VariantID.TableNum` — internal/index/variant_id.go:39-41 -/
def variantTableNum (id : VariantID) : UInt16 := upper16 id
/-- `VariantID.CollectionTableID` — internal/index/variant_id.go:43-45 -/
def variantSubID (id : VariantID) : UInt16 := lower16 id

namespace VariantsTable

/-- `VariantsTable.Find` — internal/index/variant_table.go:52-60 -/
def find (t : VariantsTable) (item : Coll) : Option UInt16 := (findSet t item).map UInt16.ofNat

/-- `VariantsTable.Index` — internal/index/variant_table.go:65-83 -/
def index (t : VariantsTable) (item : Coll) : VariantsTable × UInt16 :=
  if item.length = 0 then (t, 0)
  else
    let item := sortAsc item
    match find t item with
    | some id => (t, id)
    | none => (t ++ [item], UInt16.ofNat t.length)

/-- `VariantsTable.Get` — internal/index/variant_table.go:86-88; out of range is a panic -/
def get (t : VariantsTable) (id : UInt16) : Out Coll :=
  match t[id.toNat]? with
  | some c => .ok c
  | none => .panic

/-- `VariantsTable.Following` — internal/index/variant_table.go:91-98 -/
def following (t : VariantsTable) (id : UInt16) : List UInt16 :=
  (List.range' (id.toNat + 1) (t.length - (id.toNat + 1))).map UInt16.ofNat

end VariantsTable

namespace VariantsIndex

/-- `VariantsIndex.Find` — internal/index/variant_idx.go:52-70. `ok none` is `found == false`;
indexing a missing table is a panic. -/
def find (ix : VariantsIndex) (item : Coll) : Out (Option VariantID) :=
  if item.length = 0 then .ok (some 0)
  else
    let n := UInt16.ofNat (item.length - 1)
    if item.length > ix.length then .ok none
    else match ix[n.toNat]? with
      | none => .panic
      | some t => match VariantsTable.find t item with
        | none => .ok none
        | some sub => .ok (some (mkVariantID (UInt16.ofNat (n.toNat + 1)) sub))

/-- `VariantsIndex.Index` — internal/index/variant_idx.go:73-92. The table number is truncated to
16 bits before it is used. -/
def index (ix : VariantsIndex) (item : Coll) : VariantsIndex × VariantID :=
  if item.length = 0 then (ix, 0)
  else
    let item := sortAsc item
    let n := UInt16.ofNat (item.length - 1)
    let ix := extendTables ix n.toNat
    let (t, sub) := VariantsTable.index (ix.getD n.toNat []) item
    (ix.set n.toNat t, mkVariantID (UInt16.ofNat (n.toNat + 1)) sub)

/-- `VariantsIndex.Get` — internal/index/variant_idx.go:95-106; a missing table or entry is a panic -/
def get (ix : VariantsIndex) (id : VariantID) : Out Coll :=
  if id = 0 then .ok []
  else if (variantTableNum id).toNat < 1 then .ok []
  else match ix[(variantTableNum id).toNat - 1]? with
    | none => .panic
    | some t => VariantsTable.get t (variantSubID id)

/-- `VariantsIndex.Table` — internal/index/variant_idx.go:109-111; `tableID.Add(-1)` wraps at 0 -/
def table (ix : VariantsIndex) (id : UInt16) : Out VariantsTable :=
  match ix[(id - 1).toNat]? with
  | some t => .ok t
  | none => .panic

/-- `VariantsIndex.KnownID` — internal/index/variant_idx.go:113-127 -/
def knownID (ix : VariantsIndex) : List VariantID :=
  (ix.zipIdx.map fun (t, i) =>
    ((List.range t.length).map fun j =>
      mkVariantID (tableNumberAdd (UInt16.ofNat i) 1) (UInt16.ofNat j)).filter (· ≠ 0)).flatten

end VariantsIndex

end Verif
