import Verif.Model.Index

/-!
# Model of the binary format

`binutils` (v0.6.0, not available here) is modelled by its documented behaviour: big-endian integers,
zero-terminated strings, verbatim byte strings, an error whenever the input ends too early.
-/

namespace Verif

/-! ## Readers and writers of `binutils` -/

/-- A read call: consumes bytes from the front of the stream. For the `BinaryReadFrom` methods,
internal/index/idx.go:86-240. -/
abbrev Rd (α : Type) := Str → Out (α × Str)

/-- Sequencing with `if err != nil { return err }`. As at internal/index/idx.go:89-98. -/
def Rd.bind {α β : Type} (r : Rd α) (f : α → Rd β) : Rd β := fun s => (r s).bind fun (a, s) => f a s
/-- A read that consumes nothing. For internal/index/idx.go:86-240. -/
def Rd.pure {α : Type} (a : α) : Rd α := fun s => .ok (a, s)

/-- `BinaryReader.ReadUint8`. Used at internal/index/tagset_def.go:34-52, pkg/dag/idx.go:46-63. -/
def readU8 : Rd UInt8
  | a :: s => .ok (a, s)
  | _ => .err .eof
/-- `BinaryReader.ReadUint16` (big-endian). Used at internal/index/variant_def.go:46-65,
internal/index/tagset_table.go:32-52. -/
def readU16 : Rd UInt16
  | a :: b :: s => .ok (UInt16.ofNat (a.toNat * 256 + b.toNat), s)
  | _ => .err .eof
/-- `BinaryReader.ReadUint32` (big-endian). Used at internal/index/items.go:32, internal/index/item_def.go:25-48. -/
def readU32 : Rd UInt32
  | a :: b :: c :: d :: s =>
    .ok (UInt32.ofNat (((a.toNat * 256 + b.toNat) * 256 + c.toNat) * 256 + d.toNat), s)
  | _ => .err .eof
/-- `BinaryReader.ReadBytesCount`. Used at pkg/dag/name.go:30-43. -/
def readBytes (n : Nat) : Rd Str := fun s =>
  if s.length < n then .err .eof else .ok (s.take n, s.drop n)
/-- `BinaryReader.ReadStringZ`. Used at internal/index/idx.go:89, 123, 157, 191. -/
def readStringZ : Rd Str
  | [] => .err .eof
  | a :: s => if a = 0 then .ok ([], s) else (readStringZ s).bind fun (t, s) => .ok (a :: t, s)

/-- `for idx := 0; idx < n; idx++ { read element }`. As at internal/index/items.go:38-42. -/
def readN {α : Type} (r : Rd α) : Nat → Rd (List α)
  | 0 => Rd.pure []
  | n + 1 => Rd.bind r fun a => Rd.bind (readN r n) fun as => Rd.pure (a :: as)

/-- What a write call put on the (healthy) stream, and its error. For the `BinaryWriteTo` methods,
internal/index/idx.go:50-183. -/
structure Wr where
  bytes : Str
  err : Option Err
  deriving DecidableEq, Repr

/-- A successful write. For internal/index/idx.go:50-183. -/
def Wr.put (b : Str) : Wr := { bytes := b, err := none }
/-- Sequencing with `if err != nil { return err }`. As at internal/index/idx.go:73-78. -/
def Wr.seq (a b : Wr) : Wr :=
  match a.err with
  | some _ => a
  | none => { bytes := a.bytes ++ b.bytes, err := b.err }
/-- `for _, x := range xs { write element }`. As at internal/index/items.go:54-59. -/
def Wr.all {α : Type} (w : α → Wr) : List α → Wr
  | [] => Wr.put []
  | x :: xs => Wr.seq (w x) (Wr.all w xs)

/-- `BinaryWriter.WriteUint8`. Used at internal/index/tagset_def.go:57-69. -/
def writeU8 (x : UInt8) : Wr := Wr.put [x]
/-- `BinaryWriter.WriteUint16`. Used at internal/index/variant_def.go:29-43, internal/index/tagset_table.go:56-72. -/
def writeU16 (x : UInt16) : Wr := Wr.put [UInt8.ofNat (x.toNat / 256), UInt8.ofNat (x.toNat % 256)]
/-- `BinaryWriter.WriteUint32`. Used at internal/index/items.go:50, internal/index/item_def.go:52-70. -/
def writeU32 (x : UInt32) : Wr :=
  Wr.put [UInt8.ofNat (x.toNat / 16777216), UInt8.ofNat (x.toNat / 65536 % 256),
    UInt8.ofNat (x.toNat / 256 % 256), UInt8.ofNat (x.toNat % 256)]
/-- `BinaryWriter.WriteStringZ`. Used at internal/index/idx.go:73, 107, 141, 175. -/
def writeStringZ (s : Str) : Wr := Wr.put (s ++ [0])

/-! ## Tags (`pkg/dag`) -/

/-- `TagName.BinaryWriteTo` — pkg/dag/name.go:46-58 -/
def writeName (g : Str) : Wr :=
  match marshalName g with
  | .ok b => Wr.put b
  | .err e => { bytes := [], err := some e }
  | _ => Wr.put []
/-- `TagName.BinaryReadFrom` — pkg/dag/name.go:30-41 -/
def readName : Rd Str := Rd.bind (readBytes 4) fun b s => (unmarshalName b).bind fun n => .ok (n, s)

/-- `Tag.BinaryWriteTo` — pkg/dag/tag.go:21-31 -/
def writeTag (t : Tag) : Wr := Wr.seq (writeName t.parent) (writeName t.name)
/-- `Tag.BinaryReadFrom` — pkg/dag/tag.go:36-46 -/
def readTag : Rd Tag :=
  Rd.bind readName fun parent => Rd.bind readName fun name => Rd.pure { parent := parent, name := name }

/-- `Idx.BinaryWriteTo` — pkg/dag/idx.go:67-79: the length is truncated to one byte -/
def writeTags (tags : List Tag) : Wr :=
  Wr.seq (writeU8 (UInt8.ofNat tags.length)) (Wr.all writeTag tags)
/-- `Idx.BinaryReadFrom` — pkg/dag/idx.go:46-62 -/
def readTags : Rd (List Tag) := Rd.bind readU8 fun n => readN readTag n.toNat

/-! ## Tag sets -/

/-- `TagSet.BinaryWriteTo` — internal/index/tagset_def.go:58-70 -/
def writeTagSet (t : TagSet) : Wr := Wr.seq (writeU8 (UInt8.ofNat t.length)) (Wr.all writeU8 t)
/-- `TagSet.BinaryReadFrom` — internal/index/tagset_def.go:34-53 -/
def readTagSet : Rd TagSet := Rd.bind readU8 fun n => readN readU8 n.toNat

/-- `TagSetTable.BinaryWriteTo` — internal/index/tagset_table.go:56-71 -/
def writeTagSetTable (t : TagSetTable) : Wr :=
  Wr.seq (writeU16 (UInt16.ofNat t.length)) (Wr.all writeTagSet t)
/-- `TagSetTable.BinaryReadFrom` — internal/index/tagset_table.go:32-51 -/
def readTagSetTable : Rd TagSetTable := Rd.bind readU16 fun n => readN readTagSet n.toNat

/-- `TagSetIndex.BinaryWriteTo` — internal/index/tagset_index.go:42-58 -/
def writeTagSetIndex (t : TagSetIndex) : Wr :=
  Wr.seq (writeU32 (UInt32.ofNat t.length)) (Wr.all writeTagSetTable t)
/-- `TagSetIndex.BinaryReadFrom` — internal/index/tagset_index.go:63-82 -/
def readTagSetIndex : Rd TagSetIndex := Rd.bind readU32 fun n => readN readTagSetTable n.toNat

/-! ## Collections -/

/-- `TagSetIDCollection.BinaryWriteTo` — internal/index/variant_def.go:29-41 -/
def writeColl (c : Coll) : Wr := Wr.seq (writeU8 (UInt8.ofNat c.length)) (Wr.all writeU32 c)
/-- `TagSetIDCollection.BinaryReadFrom` — internal/index/variant_def.go:46-65 -/
def readColl : Rd Coll := Rd.bind readU8 fun n => readN readU32 n.toNat

/-- `VariantsTable.BinaryWriteTo` — internal/index/variant_table.go:16-28 -/
def writeVariantsTable (t : VariantsTable) : Wr :=
  Wr.seq (writeU32 (UInt32.ofNat t.length)) (Wr.all writeColl t)
/-- `VariantsTable.BinaryReadFrom` — internal/index/variant_table.go:33-48 -/
def readVariantsTable : Rd VariantsTable := Rd.bind readU32 fun n => readN readColl n.toNat

/-- `VariantsIndex.BinaryWriteTo` — internal/index/variant_idx.go:16-28 -/
def writeVariantsIndex (t : VariantsIndex) : Wr :=
  Wr.seq (writeU8 (UInt8.ofNat t.length)) (Wr.all writeVariantsTable t)
/-- `VariantsIndex.BinaryReadFrom` — internal/index/variant_idx.go:33-48 -/
def readVariantsIndex : Rd VariantsIndex := Rd.bind readU8 fun n => readN readVariantsTable n.toNat

/-! ## Items -/

/-- `Item.BinaryWriteTo` — internal/index/item_def.go:52-70; `WriteRune` writes the rune as `uint32` -/
def writeItem (i : Item) : Wr :=
  Wr.seq (writeU32 i.parent) (Wr.seq (writeU32 i.id)
    (Wr.seq (writeU32 i.letter.toUInt32) (writeU32 i.variants)))
/-- `Item.BinaryReadFrom` — internal/index/item_def.go:25-49 -/
def readItem : Rd Item :=
  Rd.bind readU32 fun parent => Rd.bind readU32 fun id => Rd.bind readU32 fun letter =>
    Rd.bind readU32 fun variants =>
      Rd.pure { parent := parent, id := id, letter := letter.toInt32, variants := variants }

/-- `Items.BinaryWriteTo` — internal/index/items.go:49-62. `items[:nextID]` would panic beyond the
capacity; `nextID ≤ len(items)` in every reachable state. -/
def writeItems (its : Items) : Wr :=
  Wr.seq (writeU32 its.nextID) (Wr.all writeItem (its.items.take its.nextID.toNat))
/-- `Items.BinaryReadFrom` — internal/index/items.go:29-45 -/
def readItems : Rd Items := Rd.bind readU32 fun n =>
  Rd.bind (readN readItem n.toNat) fun items => Rd.pure { items := items, nextID := n }

/-! ## The index file -/

/-- `binaryTagsPrefix`, `binaryTagSetPrefix`, `binaryColIdxPrefix`, `binaryItemsIdxPrefix` —
internal/index/idx.go:15-17, internal/index/tagset_index.go:11 -/
def prefixTD : Str := [0x54, 0x44]
/-- see `prefixTD` — internal/index/idx.go:15-17, internal/index/tagset_index.go:11 -/
def prefixTI : Str := [0x54, 0x49]
/-- see `prefixTD` — internal/index/idx.go:15-17, internal/index/tagset_index.go:11 -/
def prefixCD : Str := [0x43, 0x44]
/-- see `prefixTD` — internal/index/idx.go:15-17, internal/index/tagset_index.go:11 -/
def prefixID : Str := [0x49, 0x44]

/-- The common shape of `readTagsDefinitions` (idx.go:86-101), `readTagSetsDefinitions` (120-135),
`readCollectionsDefinitions` (154-169), `readItemsDefinitions` (188-203) — internal/index/idx.go:86-101, 120-135,
154-169, 188-203 -/
def readSection {α : Type} (pfx : Str) (r : Rd α) : Rd α :=
  Rd.bind readStringZ fun s => if s ≠ pfx then fun _ => .err .section else r

namespace Index

/-- `BinaryWriteTo` — internal/index/idx.go:49-67 with 72-81, 106-115, 140-149, 174-183 -/
def save (ix : Index) : Wr :=
  Wr.seq (Wr.seq (writeStringZ prefixTD) (writeTags ix.tags))
    (Wr.seq (Wr.seq (writeStringZ prefixTI) (writeTagSetIndex ix.tagSets))
      (Wr.seq (Wr.seq (writeStringZ prefixCD) (writeVariantsIndex ix.collectionIdx))
        (Wr.seq (writeStringZ prefixID) (writeItems ix.items))))

/-- One iteration of `rebuildChildrenIndex` — internal/index/idx.go:207-215 -/
def rebuildStep (ix : Index) (e : Item × Nat) : Index :=
  let item := e.1
  let nodeID := UInt32.ofNat e.2
  let ix := (ix.getChildrenIDMap item.parent).1
  let ix := (ix.getChildrenIDMap nodeID).1
  { ix with childrenMap := setChild ix.childrenMap item.parent item.letter nodeID,
            wordsCount := if item.variants ≠ 0 then ix.wordsCount + 1 else ix.wordsCount }

/-- `rebuildChildrenIndex` — internal/index/idx.go:205-216 -/
def rebuildChildren (ix : Index) : Index :=
  ix.items.items.zipIdx.foldl rebuildStep (ix.getChildrenIDMap 0).1

/-- `BinaryReadFrom` — internal/index/idx.go:220-240. On an error the Go receiver keeps the sections
read so far; the model returns the error only (`LoadIndex` drops the index in that case). -/
def load (ix : Index) : Rd Index :=
  Rd.bind (readSection prefixTD readTags) fun tags =>
  Rd.bind (readSection prefixTI readTagSetIndex) fun tagSets =>
  Rd.bind (readSection prefixCD readVariantsIndex) fun colls =>
  Rd.bind (readSection prefixID readItems) fun items =>
  Rd.pure (rebuildChildren
    { ix with tags := tags, tagSets := tagSets, collectionIdx := colls, items := items })

end Index

/-! ## Stand-alone set files (`WriteTo` / `ReadFrom`) -/

/-- `Set8.WriteTo` (pkg/storage/set8.go:58-77) and `TagSet.WriteTo`
(internal/index/tagset_def.go:112-116): bytes and reported count. -/
def set8WriteTo (s : List UInt8) : Str × Nat :=
  (UInt8.ofNat s.length :: s, 1 + s.length)

/-- The element loop of `Set8.ReadFrom`: result of the call, bytes counted so far, rest of the stream —
pkg/storage/set8.go:97-104 -/
def set8ReadLoop : Nat → Str → Nat → List UInt8 → (Out (List UInt8)) × Nat × Str
  | 0, s, taken, acc => (.ok acc, taken, s)
  | n + 1, s, taken, acc => match readU8 s with
    | .ok (b, s) => set8ReadLoop n s (taken + 1) (acc ++ [b])
    | _ => (.err .eof, taken, s)

/-- `Set8.ReadFrom` (pkg/storage/set8.go:82-107) and `TagSet.ReadFrom`
(internal/index/tagset_def.go:121-146). -/
def set8ReadFrom (s : Str) : (Out (List UInt8)) × Nat × Str :=
  match readU8 s with
  | .ok (n, s) => set8ReadLoop n.toNat s 1 []
  | _ => (.err .eof, 0, s)

/-- Big-endian bytes of one `uint16` (as `writeU16`). Used at pkg/storage/set16.go:58-78. -/
def u16Bytes (x : UInt16) : Str := (writeU16 x).bytes

/-- `Set16.WriteTo` — pkg/storage/set16.go:58-77 -/
def set16WriteTo (s : List UInt16) : Str × Nat :=
  (u16Bytes (UInt16.ofNat s.length) ++ s.flatMap u16Bytes, 2 + 2 * s.length)

/-- The element loop of `Set16.ReadFrom` — pkg/storage/set16.go:97-104 -/
def set16ReadLoop : Nat → Str → Nat → List UInt16 → (Out (List UInt16)) × Nat × Str
  | 0, s, taken, acc => (.ok acc, taken, s)
  | n + 1, s, taken, acc => match readU16 s with
    | .ok (b, s) => set16ReadLoop n s (taken + 2) (acc ++ [b])
    | _ => (.err .eof, taken, s)

/-- `Set16.ReadFrom` — pkg/storage/set16.go:82-107 -/
def set16ReadFrom (s : Str) : (Out (List UInt16)) × Nat × Str :=
  match readU16 s with
  | .ok (n, s) => set16ReadLoop n.toNat s 2 []
  | _ => (.err .eof, 0, s)

end Verif
