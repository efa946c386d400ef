import Verif.Model.Index

/-!
# How many steps calls take

The functions of `Model.Index` with a count: a step is one round of a loop or one call of a recursive function in the Go
code. Not counted: single accesses to maps and slices, the conversion between strings and runes, growing a slice, and
`sort.Sort`, which is only called on the set and on the collection at hand.
-/

namespace Verif

/-- A result with the number of steps. For the calls of internal/index/idx.go:323-424. -/
abbrev Timed (α : Type) := α × Nat

/-- `Node.Word` — internal/index/node.go:73-89: one step for each call -/
def wordFuelT : Nat → Items → ID → Timed (Out Str)
  | 0, _, _ => (.diverge, 0)
  | n + 1, its, id =>
    if id = 0 then (.ok [], 1)
    else match its.get id with
      | none => (.ok (Index.noItemText id), 1)
      | some it =>
        if it.parent ≠ 0 then
          let (pre, k) := wordFuelT n its it.parent
          (pre.bind fun pre => .ok (pre ++ encodeRune it.letter), k + 1)
        else (.ok (encodeRune it.letter), 1)

namespace Index

/-- `Node.Word` — internal/index/node.go:73-89 -/
def wordT (ix : Index) (id : ID) : Timed (Out Str) := wordFuelT (ix.items.nextID.toNat + 1) ix.items id

/-- Loop of `FetchFromItem` — internal/index/idx.go:357-388: one step for each round, and those of `Word` for the error -/
def fetchFromItemT (ix : Index) (parent : ID) : List Rune → Timed (Index × Out ID)
  | [] => ((ix, .err .emptyRunes), 0)
  | r :: rest =>
    let (ix, cm) := ix.getChildrenIDMap parent
    match cm r with
    | none =>
      let (w, k) := ix.wordT parent
      ((ix, w.bind fun w => .err (.notFound w r)), k + 1)
    | some next =>
      if rest = [] then ((ix, ix.get next), 1)
      else
        let (res, k) := fetchFromItemT ix next rest
        (res, k + 1)

/-- Loop of `AddToNode` — internal/index/idx.go:390-424: one step for each round -/
def addLoopT (orig : ID) (ix : Index) (cur : ID) : List Rune → Timed (Index × Out ID)
  | [] => ((ix, .err .emptyRunes), 0)
  | r :: rest =>
    if cur ≠ 0 ∧ (ix.items.get cur).isNone then ((ix, .err (.noParent orig)), 1)
    else match ix.addStep cur r with
      | none => (((ix.getChildrenIDMap cur).1, .panic), 1)
      | some (ix, next) =>
        if rest = [] then ((ix, ix.get next), 1)
        else
          let (res, k) := addLoopT orig ix next rest
          (res, k + 1)

end Index

/-- Loop of `Idx.Find` — pkg/dag/idx.go:88-96, from position `i` on -/
def tagsFindT (name : Str) : Nat → List Tag → Timed (Option UInt8)
  | _, [] => (none, 0)
  | i, t :: tags =>
    if t.name = name then (some (UInt8.ofNat i), 1)
    else
      let (res, k) := tagsFindT name (i + 1) tags
      (res, k + 1)

/-- The name loop of `AddTagSet` — internal/index/node.go:55-60 -/
def findAllT (tags : List Tag) : List Str → Timed (Except Str TagSet)
  | [] => (.ok [], 0)
  | n :: rest => match tagsFindT n 0 tags with
    | (none, k) => (.error n, k + 1)
    | (some id, k) =>
      let (res, k') := findAllT tags rest
      (res.map (id :: ·), k + 1 + k')

/-- The element loop of `EqualTo` — internal/index/tagset_def.go:100-104, internal/index/variant_def.go:90-94 -/
def equalLoopT {α : Type} [DecidableEq α] : List α → List α → Timed Bool
  | x :: xs, y :: ys =>
    if x ≠ y then (false, 1)
    else
      let (res, k) := equalLoopT xs ys
      (res, k + 1)
  | _, _ => (true, 0)

/-- `EqualTo` — internal/index/tagset_def.go:95-107, internal/index/variant_def.go:85-97 -/
def equalToT {α : Type} [DecidableEq α] (a b : List α) : Timed Bool :=
  if a.length ≠ b.length then (false, 0) else equalLoopT a b

/-- The loop of `TagSetTable.Find` — internal/index/tagset_table.go:76-84 — and of `VariantsTable.Find` —
internal/index/variant_table.go:52-60 — from position `i` on: one step for each round, and those of `EqualTo` -/
def findSetT {α : Type} [DecidableEq α] (item : List α) : Nat → List (List α) → Timed (Option Nat)
  | _, [] => (none, 0)
  | i, s :: table =>
    match equalToT s item with
    | (true, k) => (some i, k + 1)
    | (false, k) =>
      let (res, k') := findSetT item (i + 1) table
      (res, k + 1 + k')

/-- `TagSetTable.Index` — internal/index/tagset_table.go:89-107 -/
def TagSetTable.indexT (t : TagSetTable) (item : TagSet) : Timed (Out (TagSetTable × UInt16)) :=
  if item.length = 0 then (.panic, 0)
  else
    let item := sortAsc item
    match findSetT item 0 t with
    | (some i, k) => (.ok (t, UInt16.ofNat i), k)
    | (none, k) => (.ok (t ++ [item], UInt16.ofNat t.length), k)

/-- `TagSetIndex.Index` — internal/index/tagset_index.go:107-124: also one step for each table appended (lines
113-119) -/
def TagSetIndex.indexT (ix : TagSetIndex) (item : TagSet) : Timed (TagSetIndex × TagSetID) :=
  if item.length = 0 then ((ix, 0), 0)
  else
    let col := item.length - 1
    let new := col + 1 - ix.length
    let ix := extendTables ix col
    match TagSetTable.indexT (ix.getD col []) item with
    | (.ok (t, sub), k) => ((ix.set col t, combine16 (UInt16.ofNat col) sub), new + k)
    | (_, k) => ((ix, 0), new + k)

/-- `VariantsTable.Index` — internal/index/variant_table.go:65-83 -/
def VariantsTable.indexT (t : VariantsTable) (item : Coll) : Timed (VariantsTable × UInt16) :=
  if item.length = 0 then ((t, 0), 0)
  else
    let item := sortAsc item
    match findSetT item 0 t with
    | (some i, k) => ((t, UInt16.ofNat i), k)
    | (none, k) => ((t ++ [item], UInt16.ofNat t.length), k)

/-- `VariantsIndex.Index` — internal/index/variant_idx.go:73-92: also one step for each table appended (lines 81-87) -/
def VariantsIndex.indexT (ix : VariantsIndex) (item : Coll) : Timed (VariantsIndex × VariantID) :=
  if item.length = 0 then ((ix, 0), 0)
  else
    let item := sortAsc item
    let n := UInt16.ofNat (item.length - 1)
    let new := n.toNat + 1 - ix.length
    let ix := extendTables ix n.toNat
    let ((t, sub), k) := VariantsTable.indexT (ix.getD n.toNat []) item
    ((ix.set n.toNat t, mkVariantID (UInt16.ofNat (n.toNat + 1)) sub), new + k)

/-- Loop of `TagSetIDCollection.Has` — internal/index/variant_def.go:100-108 -/
def hasT (id : TagSetID) : Coll → Timed Bool
  | [] => (false, 0)
  | x :: c =>
    if x == id then (true, 1)
    else
      let (res, k) := hasT id c
      (res, k + 1)

/-- `TagSetIDCollection.Add` — internal/index/variant_def.go:114-125: the search, and one step for each element copied -/
def Coll.addT (c : Coll) (id : TagSetID) : Timed Coll :=
  match hasT id c with
  | (true, k) => (c, k)
  | (false, k) => (sortAsc (c ++ [id]), k + (c.length + 1))

namespace Index

/-- `Node.AddTagSet` — internal/index/node.go:52-70 -/
def addTagSetT (ix : Index) (id : ID) (names : List Str) : Timed (Index × Out Unit) :=
  match findAllT ix.tags names with
  | (.error n, k) => ((ix, .err (.unknownTag n)), k)
  | (.ok tagSet, k) =>
    match ix.items.get id with
    | none => ((ix, .panic), k)
    | some item =>
      match ix.collectionIdx.get item.variants with
      | .ok coll =>
        let ((tagSets, tsID), k1) := ix.tagSets.indexT tagSet
        let (coll, k2) := Coll.addT coll tsID
        let wordsCount := if item.variants = 0 then ix.wordsCount + 1 else ix.wordsCount
        let ((collectionIdx, vID), k3) := ix.collectionIdx.indexT coll
        (({ ix with tagSets := tagSets, collectionIdx := collectionIdx, wordsCount := wordsCount,
                    items := setVariants ix.items id vID }, .ok ()), k + k1 + k2 + k3)
      | _ => ((ix, .panic), k)

/-- Loop of `Node.TagSets` — internal/index/node.go:37-47: one step for each reading and for each of its tags -/
def tagSetsLoopT (ix : Index) : Coll → Timed (List (List Tag))
  | [] => ([], 0)
  | id :: rest => match ix.tagSets.get id with
    | none => (List.replicate (rest.length + 1) [], 1)
    | some ids =>
      let (res, k) := tagSetsLoopT ix rest
      (ids.map (fun t => (tagsGet ix.tags t).getD zeroTag) :: res, 1 + ids.length + k)

/-- `Node.TagSets` — internal/index/node.go:24-50 -/
def tagSetsOfT (ix : Index) (id : ID) : Timed (Out (List (List Tag))) :=
  match ix.items.get id with
  | none => (.panic, 0)
  | some item => match ix.collectionIdx.get item.variants with
    | .ok coll =>
      let (res, k) := ix.tagSetsLoopT coll
      (.ok res, k)
    | .err e => (.err e, 0)
    | .panic => (.panic, 0)
    | .diverge => (.diverge, 0)

end Index

end Verif
