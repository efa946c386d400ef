import Verif.Model.Threads

/-!
# The methods of the index that make no nodes, access by access

Each method is a program over cells of the shared memory (`Model/Threads.lean`). A slice variable with the elements it
refers to is one cell, and so is a Go map. Slices of slices have a cell for the outer slice, holding its length, and one
for each inner slice. Not cells are the nodes apart from their `Variants` field: no method here changes them.

When the outer slice grows, its elements move to a new array, and a goroutine that works on an element of the old array
loses its change. That goroutine has read the outer slice before, so this is a data race already in the cell of the outer
slice; what follows a data race is the subject of one example only.
-/

namespace Verif

/-- The cells — internal/index/idx.go:21-29, internal/index/item_def.go:16-21 -/
inductive TLoc where
  /-- `index.tags` -/
  | tags
  /-- the field `Variants` of a node -/
  | variants (id : ID)
  /-- `index.tagSets`, the outer slice -/
  | sets
  /-- one table of `index.tagSets` -/
  | setTable (k : Nat)
  /-- `index.collectionIdx`, the outer slice -/
  | colls
  /-- one table of `index.collectionIdx` -/
  | collTable (k : Nat)
  /-- `index.wordsCount` -/
  | count
  /-- `index.childrenMap`, the outer map: which nodes have a map of children -/
  | outer
  /-- the map of children of a node -/
  | kids (p : ID)
  deriving DecidableEq

/-- What the cells hold — internal/index/idx.go:21-29, internal/index/item_def.go:16-21 -/
abbrev TVal : TLoc → Type
  | .tags => List Tag
  | .variants _ => VariantID
  | .sets => Nat
  | .setTable _ => TagSetTable
  | .colls => Nat
  | .collTable _ => VariantsTable
  | .count => Nat
  | .outer => ID → Bool
  | .kids _ => IdMap

/-- The memory of an index. For internal/index/idx.go:21-29. -/
def memOf (ix : Index) : Cells TLoc TVal
  | .tags => ix.tags
  | .variants id => ((ix.items.get id).map (·.variants)).getD 0
  | .sets => ix.tagSets.length
  | .setTable k => ix.tagSets.getD k []
  | .colls => ix.collectionIdx.length
  | .collTable k => ix.collectionIdx.getD k []
  | .count => ix.wordsCount
  | .outer => fun p => (ix.childrenMap p).isSome
  | .kids p => ix.getChildrenMap p

/-- The calls — internal/index/idx.go:259-261, 427-429, 442-451, 465-467, internal/index/node.go:24-70 -/
inductive TCall where
  | tagID (name parent : Str)
  | addTagSet (id : ID) (names : List Str)
  | tagSets (id : ID)
  | wordsCount
  | fetchRunes (rs : List Rune)
  | childrenMap (id : ID)

/-- The answers. For internal/index/node.go:24-70. -/
inductive TAns where
  | tagID (id : UInt8)
  | added (o : Out Unit)
  | readings (o : Out (List (List Tag)))
  | count (n : Nat)
  | node (o : Out ID)
  | kids (m : IdMap)

/-- A program over the cells. For internal/index/node.go:24-70. -/
abbrev TProg (ρ : Type) := Prog TLoc TVal ρ

namespace TProg

/-- `Idx.Index` — pkg/dag/idx.go:100-115: search, length, append -/
def tagID (name parent : Str) : TProg UInt8 :=
  .read .tags fun ts => match tagsFind ts name with
    | some id => .done id
    | none => .read .tags fun ts1 => .read .tags fun ts2 =>
        .write .tags (ts2 ++ [newTag (if parent = [] then emptyTagName else parent) name]) (.done (UInt8.ofNat ts1.length))

/-- The name loop of `AddTagSet` — internal/index/node.go:55-60 -/
def findAll : List Str → TProg (Except Str TagSet)
  | [] => .done (.ok [])
  | n :: rest => .read .tags fun ts => match tagsFind ts n with
    | none => .done (.error n)
    | some id => (findAll rest).bind fun r => .done (r.map (id :: ·))

/-- `VariantsIndex.Get` — internal/index/variant_idx.go:95-106; the outer slice is read by the call itself -/
def collGet (v : VariantID) : TProg (Out Coll) :=
  .read .colls fun n =>
    if v = 0 then .done (.ok [])
    else if (variantTableNum v).toNat < 1 then .done (.ok [])
    else if n ≤ (variantTableNum v).toNat - 1 then .done .panic
    else .read (.collTable ((variantTableNum v).toNat - 1)) fun t => .done (VariantsTable.get t (variantSubID v))

/-- The loop that appends empty tables — internal/index/tagset_index.go:116-118 -/
def extendSets : Nat → TProg Unit
  | 0 => .done ()
  | k + 1 => .read .sets fun n => .write (.setTable n) [] (.write .sets (n + 1) (extendSets k))

/-- `TagSetIndex.Index` with `TagSetTable.Index` — internal/index/tagset_index.go:107-124,
internal/index/tagset_table.go:89-107: the number of tables, more tables, the table; then search, length, append -/
def setIndex (item : TagSet) : TProg (Out TagSetID) :=
  if item.length = 0 then .done (.ok 0)
  else
    let col := item.length - 1
    .read .sets fun n =>
      (if col ≥ n then .read .sets fun n => extendSets (col + 1 - n) else .done () : TProg Unit).bind fun _ =>
      .read .sets fun n =>
        if n ≤ col then .done .panic
        else .read (.setTable col) fun t => match TagSetTable.find t (sortAsc item) with
          | some sub => .done (.ok (combine16 (UInt16.ofNat col) sub))
          | none => .read (.setTable col) fun t1 => .read (.setTable col) fun t2 =>
              .write (.setTable col) (t2 ++ [sortAsc item])
                (.done (.ok (combine16 (UInt16.ofNat col) (UInt16.ofNat t1.length))))

/-- The loop that appends empty tables — internal/index/variant_idx.go:84-86 -/
def extendColls : Nat → TProg Unit
  | 0 => .done ()
  | k + 1 => .read .colls fun n => .write (.collTable n) [] (.write .colls (n + 1) (extendColls k))

/-- `VariantsIndex.Index` with `VariantsTable.Index` — internal/index/variant_idx.go:73-92,
internal/index/variant_table.go:65-83 -/
def collIndex (item : Coll) : TProg (Out VariantID) :=
  if item.length = 0 then .done (.ok 0)
  else
    let item := sortAsc item
    let n16 := UInt16.ofNat (item.length - 1)
    .read .colls fun n =>
      (if n16.toNat ≥ n then .read .colls fun n => extendColls (n16.toNat + 1 - n) else .done () : TProg Unit).bind fun _ =>
      .read .colls fun n =>
        if n ≤ n16.toNat then .done .panic
        else .read (.collTable n16.toNat) fun t => match VariantsTable.find t (sortAsc item) with
          | some sub => .done (.ok (mkVariantID (UInt16.ofNat (n16.toNat + 1)) sub))
          | none => .read (.collTable n16.toNat) fun t1 => .read (.collTable n16.toNat) fun t2 =>
              .write (.collTable n16.toNat) (t2 ++ [sortAsc item])
                (.done (.ok (mkVariantID (UInt16.ofNat (n16.toNat + 1)) (UInt16.ofNat t1.length))))

/-- `Node.AddTagSet` — internal/index/node.go:52-70. `its` are the nodes; a nil item is a panic. -/
def addTagSet (its : Items) (id : ID) (names : List Str) : TProg (Out Unit) :=
  (findAll names).bind fun
    | .error n => .done (.err (.unknownTag n))
    | .ok set =>
      if (its.get id).isNone then .done .panic
      else .read (.variants id) fun v => (collGet v).bind fun
        | .ok c => (setIndex set).bind fun
          | .ok ts => .read (.variants id) fun v =>
              (if v = 0 then .read .count fun n => .write .count (n + 1) (.done ()) else .done () : TProg Unit).bind fun _ =>
              (collIndex (Coll.add c ts)).bind fun
                | .ok v => .write (.variants id) v (.done (.ok ()))
                | _ => .done .panic
          | _ => .done .panic
        | _ => .done .panic

/-- `TagSetIndex.Get` — internal/index/tagset_index.go:159-165, with 140-155 and internal/index/tagset_table.go:110-116 -/
def setGet (id : TagSetID) : TProg (Option TagSet) :=
  .read .sets fun n =>
    if (tagSetTableNumber id).toNat ≥ n then .done none
    else .read (.setTable (tagSetTableNumber id).toNat) fun t => .done (TagSetTable.get t (tagSetSubID id))

/-- The inner loop of `Node.TagSets` — internal/index/node.go:42-46 -/
def tagsOf : TagSet → TProg (List Tag)
  | [] => .done []
  | t :: rest => .read .tags fun ts => (tagsOf rest).bind fun r => .done ((tagsGet ts t).getD Index.zeroTag :: r)

/-- The loop of `Node.TagSets` — internal/index/node.go:37-47 -/
def readingsOf : Coll → TProg (List (List Tag))
  | [] => .done []
  | id :: rest => (setGet id).bind fun
    | none => .done (List.replicate (rest.length + 1) [])
    | some ids => (tagsOf ids).bind fun r => (readingsOf rest).bind fun rs => .done (r :: rs)

/-- `Node.TagSets` — internal/index/node.go:24-50 -/
def tagSets (its : Items) (id : ID) : TProg (Out (List (List Tag))) :=
  if (its.get id).isNone then .done .panic
  else .read (.variants id) fun v => (collGet v).bind fun
    | .ok c => (readingsOf c).bind fun r => .done (.ok r)
    | _ => .done .panic

/-- `GetChildrenIDMap` — internal/index/idx.go:314-321. A nil map reads as empty. -/
def childrenIDMap (p : ID) : TProg IdMap :=
  .read .outer fun o =>
    (if o p then .done ()
      else .read .outer fun o => .write .outer (fun a => if a = p then true else o a) (.done ()) : TProg Unit).bind fun _ =>
      .read .outer fun _ => .read (.kids p) fun m => .done m

/-- `FetchFromItem` — internal/index/idx.go:357-388; `Get` and `Word` read the nodes only -/
def fetch (ix : Index) (p : ID) : List Rune → TProg (Out ID)
  | [] => .done (.err .emptyRunes)
  | r :: rest => (childrenIDMap p).bind fun m => match m r with
    | none => .done ((ix.word p).bind fun w => .err (.notFound w r))
    | some next => if rest = [] then .done (ix.get next) else fetch ix next rest

/-- `GetChildrenMap` — internal/index/idx.go:442-451 -/
def childrenMap (p : ID) : TProg IdMap := .read .outer fun _ => .read (.kids p) fun m => .done m

/-- A call as a program; of `ix` only the nodes are used, without their `Variants`. For internal/index/node.go:24-70. -/
def call (ix : Index) : TCall → TProg TAns
  | .tagID name parent => (tagID name parent).bind fun n => .done (.tagID n)
  | .addTagSet id names => (addTagSet ix.items id names).bind fun o => .done (.added o)
  | .tagSets id => (tagSets ix.items id).bind fun o => .done (.readings o)
  | .wordsCount => .read .count fun n => .done (.count n)
  | .fetchRunes rs => (fetch ix 0 rs).bind fun o => .done (.node o)
  | .childrenMap id => (childrenMap id).bind fun m => .done (.kids m)

end TProg

/-- The same calls as whole steps of the sequential model. For internal/index/node.go:24-70. -/
def Index.does (ix : Index) : TCall → Index × TAns
  | .tagID name parent => ((ix.tagID name parent).1, .tagID (ix.tagID name parent).2)
  | .addTagSet id names => ((ix.addTagSet id names).1, .added (ix.addTagSet id names).2)
  | .tagSets id => (ix, .readings (ix.tagSetsOf id))
  | .wordsCount => (ix, .count ix.wordsCount)
  | .fetchRunes rs => ((ix.fetchRunes rs).1, .node (ix.fetchRunes rs).2)
  | .childrenMap id => (ix, .kids (ix.getChildrenMap id))

end Verif
