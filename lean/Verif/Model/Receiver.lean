import Verif.Model.Codec

/-!
# Model of `BinaryReadFrom` as it acts on its receiver

`Model/Codec.lean` models a read as a function from bytes to a value. Here the same calls are modelled with their
effects: what the receiver holds afterwards, also when the call fails half-way, and which slices were allocated on the
way (`make` is called with the count found in the file before any element is read).
-/

namespace Verif

/-- What a call of `BinaryReadFrom` leaves: the receiver, the lengths passed to `make`, and the result with the rest of
the stream. For internal/index/idx.go:220-240. -/
structure Filled (α : Type) where
  val : α
  made : List Nat
  out : Out Str

/-- A `BinaryReadFrom` method: receiver and stream. For internal/index/idx.go:220-240. -/
abbrev Fill (α : Type) := α → Str → Filled α

/-- Read a value with `r` and, if that succeeded, store it in the receiver. As at internal/index/item_def.go:25-48. -/
def Fill.store {α β : Type} (r : Rd β) (set : β → α → α) : Fill α := fun a s =>
  match r s with
  | .ok (b, s) => { val := set b a, made := [], out := .ok s }
  | .err e => { val := a, made := [], out := .err e }
  | .panic => { val := a, made := [], out := .panic }
  | .diverge => { val := a, made := [], out := .diverge }

/-- Two parts of a method with `if err != nil { return err }` between them. As at internal/index/idx.go:224-235. -/
def Fill.seq {α : Type} (f g : Fill α) : Fill α := fun a s =>
  match f a s with
  | { val := b, made := m, out := .ok s } =>
    let x := g b s
    { val := x.val, made := m ++ x.made, out := x.out }
  | x => x

/-- A call of the method of a field. As at internal/index/idx.go:96, 130, 164, 198. -/
def Fill.field {α β : Type} (get : α → β) (set : β → α → α) (f : Fill β) : Fill α := fun a s =>
  let x := f (get a) s
  { val := set x.val a, made := x.made, out := x.out }

/-- `for idx := 0; idx < n; idx++ { if err = x[idx].BinaryReadFrom(reader); err != nil { return err } }` on a slice of
`n` zero values. As at internal/index/items.go:38-42. -/
def fillLoop {α : Type} (zero : α) (f : Fill α) : Nat → Str → Filled (List α)
  | 0, s => { val := [], made := [], out := .ok s }
  | n + 1, s =>
    match f zero s with
    | { val := a, made := m, out := .ok s } =>
      let x := fillLoop zero f n s
      { val := a :: x.val, made := m ++ x.made, out := x.out }
    | { val := a, made := m, out := o } => { val := a :: List.replicate n zero, made := m, out := o }

/-- Read a count, `make` a slice of that length, read its elements. As at internal/index/items.go:32-42. -/
def Fill.slice {α : Type} (count : Rd Nat) (zero : α) (f : Fill α) : Fill (List α) := fun old s =>
  match count s with
  | .ok (n, s) =>
    let x := fillLoop zero f n s
    { val := x.val, made := n :: x.made, out := x.out }
  | .err e => { val := old, made := [], out := .err e }
  | .panic => { val := old, made := [], out := .panic }
  | .diverge => { val := old, made := [], out := .diverge }

/-- A count of one byte. As at pkg/dag/idx.go:46-53. -/
def count8 : Rd Nat := Rd.bind readU8 fun n => Rd.pure n.toNat
/-- A count of two bytes. As at internal/index/variant_idx.go:33-40. -/
def count16 : Rd Nat := Rd.bind readU16 fun n => Rd.pure n.toNat
/-- A count of four bytes. As at internal/index/items.go:32. -/
def count32 : Rd Nat := Rd.bind readU32 fun n => Rd.pure n.toNat

/-- `Tag.BinaryReadFrom` — pkg/dag/tag.go:36-46 with `TagName.BinaryReadFrom` — pkg/dag/name.go:30-41 -/
def fillTag : Fill Tag :=
  Fill.seq (Fill.store readName fun n t => { t with parent := n }) (Fill.store readName fun n t => { t with name := n })
/-- `Idx.BinaryReadFrom` — pkg/dag/idx.go:46-62 -/
def fillTags : Fill (List Tag) := Fill.slice count8 { parent := [], name := [] } fillTag
/-- `TagSet.BinaryReadFrom` — internal/index/tagset_def.go:34-53 -/
def fillTagSet : Fill TagSet := Fill.slice count8 0 (Fill.store readU8 fun n _ => n)
/-- `TagSetTable.BinaryReadFrom` — internal/index/tagset_table.go:32-51 -/
def fillTagSetTable : Fill TagSetTable := Fill.slice count16 [] fillTagSet
/-- `TagSetIndex.BinaryReadFrom` — internal/index/tagset_index.go:63-82 -/
def fillTagSetIndex : Fill TagSetIndex := Fill.slice count32 [] fillTagSetTable
/-- `TagSetIDCollection.BinaryReadFrom` — internal/index/variant_def.go:46-65 -/
def fillColl : Fill Coll := Fill.slice count8 0 (Fill.store readU32 fun n _ => n)
/-- `VariantsTable.BinaryReadFrom` — internal/index/variant_table.go:33-48 -/
def fillVariantsTable : Fill VariantsTable := Fill.slice count32 [] fillColl
/-- `VariantsIndex.BinaryReadFrom` — internal/index/variant_idx.go:33-48 -/
def fillVariantsIndex : Fill VariantsIndex := Fill.slice count8 [] fillVariantsTable
/-- `Item.BinaryReadFrom` — internal/index/item_def.go:25-49 -/
def fillItem : Fill Item :=
  Fill.seq (Fill.store readU32 fun n i => { i with parent := n })
    (Fill.seq (Fill.store readU32 fun n i => { i with id := n })
      (Fill.seq (Fill.store readU32 fun n i => { i with letter := n.toInt32 })
        (Fill.store readU32 fun n i => { i with variants := n })))
/-- `Items.BinaryReadFrom` — internal/index/items.go:29-45 -/
def fillItems : Fill Items := fun old s =>
  match readU32 s with
  | .ok (n, s) =>
    let x := fillLoop zeroItem fillItem n.toNat s
    { val := { items := x.val, nextID := n }, made := n.toNat :: x.made, out := x.out }
  | .err e => { val := old, made := [], out := .err e }
  | .panic => { val := old, made := [], out := .panic }
  | .diverge => { val := old, made := [], out := .diverge }

/-- Read a section marker and compare it, then call the method of the field — internal/index/idx.go:86-101, 120-135,
154-169, 188-203 -/
def fillSection {α : Type} (pfx : Str) (f : Fill α) : Fill α :=
  Fill.seq (Fill.store (readSection pfx (Rd.pure ())) fun _ a => a) f

/-- The four sections, each field replaced as soon as its bytes are read — internal/index/idx.go:224-235 -/
def Index.fillSections : Fill Index :=
  Fill.seq (fillSection prefixTD (Fill.field (·.tags) (fun x ix => { ix with tags := x }) fillTags))
    (Fill.seq (fillSection prefixTI (Fill.field (·.tagSets) (fun x ix => { ix with tagSets := x }) fillTagSetIndex))
      (Fill.seq
        (fillSection prefixCD (Fill.field (·.collectionIdx) (fun x ix => { ix with collectionIdx := x }) fillVariantsIndex))
        (fillSection prefixID (Fill.field (·.items) (fun x ix => { ix with items := x }) fillItems))))

/-- `Index.BinaryReadFrom` — internal/index/idx.go:220-240: the four sections, then the children maps. -/
def Index.fill : Fill Index := fun ix s =>
  match Index.fillSections ix s with
  | { val := ix, made := m, out := .ok s } => { val := ix.rebuildChildren, made := m, out := .ok s }
  | x => x

end Verif
