import Verif.Model.Codec
import Verif.Model.Cost

/-!
# How many steps saving and loading take

The functions of `Model.Codec` with a count: a step is one round of a loop. `ReadStringZ` of `binutils` is counted with one
step for each byte it asks for. Not counted: reading or writing a number or a fixed number of bytes, and `make`, which the
runtime does in one go (how much is asked of it is the subject of C68).
-/

namespace Verif

/-- A read call with the number of steps it took. For the `BinaryReadFrom` methods, internal/index/idx.go:86-240. -/
abbrev RdT (α : Type) := Str → Timed (Out (α × Str))

/-- A read call without a loop. As `ReadUint8`, used at internal/index/tagset_def.go:34-52. -/
def RdT.lift {α : Type} (r : Rd α) : RdT α := fun s => (r s, 0)

/-- Sequencing with `if err != nil { return err }`. As at internal/index/idx.go:89-98. -/
def RdT.bind {α β : Type} (r : RdT α) (f : α → RdT β) : RdT β := fun s =>
  match r s with
  | (.ok (a, s), k) => ((f a s).1, k + (f a s).2)
  | (.err e, k) => (.err e, k)
  | (.panic, k) => (.panic, k)
  | (.diverge, k) => (.diverge, k)

/-- `BinaryReader.ReadStringZ`: one step for each byte asked for. Used at internal/index/idx.go:89, 123, 157, 191. -/
def readStringZT : RdT Str
  | [] => (.err .eof, 1)
  | a :: s =>
    if a = 0 then (.ok ([], s), 1)
    else ((readStringZT s).1.bind fun (t, s) => .ok (a :: t, s), (readStringZT s).2 + 1)

/-- `for idx := 0; idx < n; idx++ { read element }`: one step for each round begun. As at internal/index/items.go:38-42. -/
def readNT {α : Type} (r : RdT α) : Nat → RdT (List α)
  | 0 => RdT.lift (Rd.pure [])
  | n + 1 => RdT.bind (fun s => ((r s).1, (r s).2 + 1)) fun a =>
      RdT.bind (readNT r n) fun as => RdT.lift (Rd.pure (a :: as))

/-- `Idx.BinaryReadFrom` — pkg/dag/idx.go:46-62 -/
def readTagsT : RdT (List Tag) := RdT.bind (RdT.lift readU8) fun n => readNT (RdT.lift readTag) n.toNat
/-- `TagSet.BinaryReadFrom` — internal/index/tagset_def.go:34-53 -/
def readTagSetT : RdT TagSet := RdT.bind (RdT.lift readU8) fun n => readNT (RdT.lift readU8) n.toNat
/-- `TagSetTable.BinaryReadFrom` — internal/index/tagset_table.go:32-51 -/
def readTagSetTableT : RdT TagSetTable := RdT.bind (RdT.lift readU16) fun n => readNT readTagSetT n.toNat
/-- `TagSetIndex.BinaryReadFrom` — internal/index/tagset_index.go:63-82 -/
def readTagSetIndexT : RdT TagSetIndex := RdT.bind (RdT.lift readU32) fun n => readNT readTagSetTableT n.toNat
/-- `TagSetIDCollection.BinaryReadFrom` — internal/index/variant_def.go:46-65 -/
def readCollT : RdT Coll := RdT.bind (RdT.lift readU8) fun n => readNT (RdT.lift readU32) n.toNat
/-- `VariantsTable.BinaryReadFrom` — internal/index/variant_table.go:33-48 -/
def readVariantsTableT : RdT VariantsTable := RdT.bind (RdT.lift readU32) fun n => readNT readCollT n.toNat
/-- `VariantsIndex.BinaryReadFrom` — internal/index/variant_idx.go:33-48 -/
def readVariantsIndexT : RdT VariantsIndex := RdT.bind (RdT.lift readU8) fun n => readNT readVariantsTableT n.toNat
/-- `Items.BinaryReadFrom` — internal/index/items.go:29-45 -/
def readItemsT : RdT Items := RdT.bind (RdT.lift readU32) fun n =>
  RdT.bind (readNT (RdT.lift readItem) n.toNat) fun items => RdT.lift (Rd.pure { items := items, nextID := n })

/-- `readTagsDefinitions` and the three like it — internal/index/idx.go:86-101, 120-135, 154-169, 188-203 -/
def readSectionT {α : Type} (pfx : Str) (r : RdT α) : RdT α :=
  RdT.bind readStringZT fun s => if s ≠ pfx then fun _ => (.err .section, 0) else r

/-- `BinaryReadFrom` — internal/index/idx.go:220-240, with one step for each round of `rebuildChildrenIndex` (205-216) -/
def Index.loadT (ix : Index) : RdT Index :=
  RdT.bind (readSectionT prefixTD readTagsT) fun tags =>
  RdT.bind (readSectionT prefixTI readTagSetIndexT) fun tagSets =>
  RdT.bind (readSectionT prefixCD readVariantsIndexT) fun colls =>
  RdT.bind (readSectionT prefixID readItemsT) fun items s =>
  (.ok (rebuildChildren { ix with tags := tags, tagSets := tagSets, collectionIdx := colls, items := items }, s),
    items.items.length)

/-- What a write call put on the stream and its error, with the number of steps. For the `BinaryWriteTo` methods,
internal/index/idx.go:50-183. -/
abbrev WrT := Timed Wr

/-- A write without a loop. As `WriteUint8`, used at internal/index/tagset_def.go:57-69. -/
def WrT.lift (w : Wr) : WrT := (w, 0)

/-- Sequencing with `if err != nil { return err }`. As at internal/index/idx.go:73-78. -/
def WrT.seq (a b : WrT) : WrT :=
  match a.1.err with
  | some _ => a
  | none => (Wr.seq a.1 b.1, a.2 + b.2)

/-- `for _, x := range xs { write element }`: one step for each round begun. As at internal/index/items.go:54-59. -/
def WrT.all {α : Type} (w : α → WrT) : List α → WrT
  | [] => WrT.lift (Wr.put [])
  | x :: xs => WrT.seq ((w x).1, (w x).2 + 1) (WrT.all w xs)

/-- `Idx.BinaryWriteTo` — pkg/dag/idx.go:67-79 -/
def writeTagsT (tags : List Tag) : WrT :=
  WrT.seq (WrT.lift (writeU8 (UInt8.ofNat tags.length))) (WrT.all (fun t => WrT.lift (writeTag t)) tags)
/-- `TagSet.BinaryWriteTo` — internal/index/tagset_def.go:58-70 -/
def writeTagSetT (t : TagSet) : WrT :=
  WrT.seq (WrT.lift (writeU8 (UInt8.ofNat t.length))) (WrT.all (fun x => WrT.lift (writeU8 x)) t)
/-- `TagSetTable.BinaryWriteTo` — internal/index/tagset_table.go:56-71 -/
def writeTagSetTableT (t : TagSetTable) : WrT :=
  WrT.seq (WrT.lift (writeU16 (UInt16.ofNat t.length))) (WrT.all writeTagSetT t)
/-- `TagSetIndex.BinaryWriteTo` — internal/index/tagset_index.go:42-58 -/
def writeTagSetIndexT (t : TagSetIndex) : WrT :=
  WrT.seq (WrT.lift (writeU32 (UInt32.ofNat t.length))) (WrT.all writeTagSetTableT t)
/-- `TagSetIDCollection.BinaryWriteTo` — internal/index/variant_def.go:29-41 -/
def writeCollT (c : Coll) : WrT :=
  WrT.seq (WrT.lift (writeU8 (UInt8.ofNat c.length))) (WrT.all (fun x => WrT.lift (writeU32 x)) c)
/-- `VariantsTable.BinaryWriteTo` — internal/index/variant_table.go:16-28 -/
def writeVariantsTableT (t : VariantsTable) : WrT :=
  WrT.seq (WrT.lift (writeU32 (UInt32.ofNat t.length))) (WrT.all writeCollT t)
/-- `VariantsIndex.BinaryWriteTo` — internal/index/variant_idx.go:16-28 -/
def writeVariantsIndexT (t : VariantsIndex) : WrT :=
  WrT.seq (WrT.lift (writeU8 (UInt8.ofNat t.length))) (WrT.all writeVariantsTableT t)
/-- `Items.BinaryWriteTo` — internal/index/items.go:49-62 -/
def writeItemsT (its : Items) : WrT :=
  WrT.seq (WrT.lift (writeU32 its.nextID)) (WrT.all (fun i => WrT.lift (writeItem i)) (its.items.take its.nextID.toNat))

/-- `BinaryWriteTo` — internal/index/idx.go:49-67 with 72-81, 106-115, 140-149, 174-183 -/
def Index.saveT (ix : Index) : WrT :=
  WrT.seq (WrT.seq (WrT.lift (writeStringZ prefixTD)) (writeTagsT ix.tags))
    (WrT.seq (WrT.seq (WrT.lift (writeStringZ prefixTI)) (writeTagSetIndexT ix.tagSets))
      (WrT.seq (WrT.seq (WrT.lift (writeStringZ prefixCD)) (writeVariantsIndexT ix.collectionIdx))
        (WrT.seq (WrT.lift (writeStringZ prefixID)) (writeItemsT ix.items))))

end Verif
