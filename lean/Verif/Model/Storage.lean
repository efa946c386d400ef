import Verif.Model.Go

/-!
# Model of `pkg/storage`: packed ids, sets, tables, collections
-/

namespace Verif

/-! ## Packed ids -/

/-- `ID16.Upper` — pkg/storage/id16.go:12-14 -/
def upper8 (x : UInt16) : UInt8 := ((x >>> 8) &&& 0x00ff).toUInt8
/-- `ID16.Lower` — pkg/storage/id16.go:17-19 -/
def lower8 (x : UInt16) : UInt8 := (0x00ff &&& x).toUInt8
/-- `Combine8` — pkg/storage/id16.go:22-24 -/
def combine8 (hi lo : UInt8) : UInt16 := (hi.toUInt16 <<< 8) ||| lo.toUInt16

/-- `ID32.Upper16` — pkg/storage/id32.go:12-14 -/
def upper16 (x : UInt32) : UInt16 := ((x >>> 16) &&& 0x0000ffff).toUInt16
/-- `ID32.Lower16` — pkg/storage/id32.go:17-19 -/
def lower16 (x : UInt32) : UInt16 := (0x0000ffff &&& x).toUInt16
/-- `Combine16` — pkg/storage/id32.go:27-29 -/
def combine16 (upper lower : UInt16) : UInt32 := (upper.toUInt32 <<< 16) ||| lower.toUInt32

/-! ## Sets -/

/-- `EqualTo` of `Set8` (pkg/storage/set8.go:41-53), `Set16` (pkg/storage/set16.go:41-53),
`TagSet` (internal/index/tagset_def.go:95-107) and `TagSetIDCollection`
(internal/index/variant_def.go:85-97): the four bodies are identical. The index loop is
written as recursion over both lists after the length check. -/
def equalTo {α : Type} [DecidableEq α] (a b : List α) : Bool :=
  if a.length ≠ b.length then false else go a b
where
  /-- the element loop -/
  go : List α → List α → Bool
  | x :: xs, y :: ys => if x ≠ y then false else go xs ys
  | _, _ => true

/-- The `for id, existedSet := range table { if existedSet.EqualTo(item) ...` loop of
`Table8.Find` (pkg/storage/table8.go:9-17), `Table16.Find` (table16.go:10-18),
`TagSetTable.Find` (internal/index/tagset_table.go:76-84) and
`VariantsTable.Find` (internal/index/variant_table.go:52-60): position of the first equal set,
before conversion to the id type. -/
def findSet {α : Type} [DecidableEq α] (table : List (List α)) (item : List α) : Option Nat :=
  table.findIdx? (fun existed => equalTo existed item)

/-- The "extend inplace" loops that append empty tables until column `col` exists:
pkg/storage/collection8.go:32-38, pkg/storage/collection16.go:33-39, internal/index/tagset_index.go:113-119,
internal/index/variant_idx.go:81-87. -/
def extendTables {β : Type} (ts : List (List β)) (col : Nat) : List (List β) :=
  if col ≥ ts.length then ts ++ List.replicate (col + 1 - ts.length) [] else ts

/-! ## Table8 / Table16 -/

/-- `Table8.Find` — pkg/storage/table8.go:9-17 -/
def Table8.find (t : List (List UInt8)) (item : List UInt8) : Option UInt8 :=
  (findSet t item).map UInt8.ofNat
/-- `Table8.Index` — pkg/storage/table8.go:22-40. The in-place sort of the caller's slice is the
`sortAsc`; aliasing of that slice is modelled separately (`Model/Heap.lean`). -/
def Table8.index (t : List (List UInt8)) (item : List UInt8) : Out (List (List UInt8) × UInt8) :=
  if item.length = 0 then .panic
  else
    let item := sortAsc item
    match Table8.find t item with
    | some id => .ok (t, id)
    | none => .ok (t ++ [item], UInt8.ofNat t.length)
/-- `Table8.Get` — pkg/storage/table8.go:43-49 -/
def Table8.get (t : List (List UInt8)) (id : UInt8) : Option (List UInt8) :=
  if id.toNat ≥ t.length then none else t[id.toNat]?

/-- `Table16.Find` — pkg/storage/table16.go:10-18 -/
def Table16.find (t : List (List UInt16)) (item : List UInt16) : Option UInt16 :=
  (findSet t item).map UInt16.ofNat
/-- `Table16.Index` — pkg/storage/table16.go:23-41 -/
def Table16.index (t : List (List UInt16)) (item : List UInt16) :
    Out (List (List UInt16) × UInt16) :=
  if item.length = 0 then .panic
  else
    let item := sortAsc item
    match Table16.find t item with
    | some id => .ok (t, id)
    | none => .ok (t ++ [item], UInt16.ofNat t.length)
/-- `Table16.Get` — pkg/storage/table16.go:44-50 -/
def Table16.get (t : List (List UInt16)) (id : UInt16) : Option (List UInt16) :=
  if id.toNat ≥ t.length then none else t[id.toNat]?

/-! ## Collection8x8 / Collection16 -/

/-- `Collection8x8.Find` — pkg/storage/collection8.go:9-23. Indexing past the last column is a Go
panic; `ok none` is `found == false`. -/
def Collection8.find (c : List (List (List UInt8))) (item : List UInt8) : Out (Option UInt16) :=
  if item.length = 0 then .ok none
  else match c[item.length - 1]? with
    | none => .panic
    | some t => match Table8.find t item with
      | none => .ok none
      | some i => .ok (some (combine8 (UInt8.ofNat (item.length - 1)) i))
/-- `Collection8x8.Index` — pkg/storage/collection8.go:26-43 -/
def Collection8.index (c : List (List (List UInt8))) (item : List UInt8) :
    Out (List (List (List UInt8)) × UInt16) :=
  if item.length = 0 then .panic
  else
    let col := item.length - 1
    let c := extendTables c col
    match c[col]? with
    | none => .panic
    | some t => (Table8.index t item).bind fun (t, i) =>
        .ok (c.set col t, combine8 (UInt8.ofNat col) i)
/-- `Collection8x8.Get` — pkg/storage/collection8.go:46-52 -/
def Collection8.get (c : List (List (List UInt8))) (id : UInt16) : Option (List UInt8) :=
  if (upper8 id).toNat ≥ c.length then none
  else match c[(upper8 id).toNat]? with
    | none => none
    | some t => Table8.get t (lower8 id)

/-- `Collection16.Find` — pkg/storage/collection16.go:10-24 -/
def Collection16.find (c : List (List (List UInt16))) (item : List UInt16) : Out (Option UInt32) :=
  if item.length = 0 then .ok none
  else match c[item.length - 1]? with
    | none => .panic
    | some t => match Table16.find t item with
      | none => .ok none
      | some i => .ok (some (combine16 (UInt16.ofNat (item.length - 1)) i))
/-- `Collection16.Index` — pkg/storage/collection16.go:27-44 -/
def Collection16.index (c : List (List (List UInt16))) (item : List UInt16) :
    Out (List (List (List UInt16)) × UInt32) :=
  if item.length = 0 then .panic
  else
    let col := item.length - 1
    let c := extendTables c col
    match c[col]? with
    | none => .panic
    | some t => (Table16.index t item).bind fun (t, i) =>
        .ok (c.set col t, combine16 (UInt16.ofNat col) i)
/-- `Collection16.Get` — pkg/storage/collection16.go:47-53 -/
def Collection16.get (c : List (List (List UInt16))) (id : UInt32) : Option (List UInt16) :=
  if (upper16 id).toNat ≥ c.length then none
  else match c[(upper16 id).toNat]? with
    | none => none
    | some t => Table16.get t (lower16 id)

end Verif
