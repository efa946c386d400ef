import Verif.Model.TagSets

/-!
# Model of the trie index: `internal/index/items.go`, `idx.go`, `node.go`
-/

namespace Verif

/-- `dag.ID` — pkg/dag/id.go:8 -/
abbrev ID := UInt32

/-- `Item` — internal/index/item_def.go:16-21 -/
structure Item where
  parent : ID
  id : ID
  letter : Rune
  variants : VariantID
  deriving DecidableEq, Repr, Inhabited

/-- The zero value of `Item`. Used at internal/index/items.go:21, 71. -/
def zeroItem : Item := { parent := 0, id := 0, letter := 0, variants := 0 }

/-- `Items` — internal/index/items.go:13-17 (the mutex is left out; see `Model/Concurrent.lean`). -/
structure Items where
  items : List Item
  nextID : ID
  deriving DecidableEq, Repr

namespace Items

/-- `NewItems` — internal/index/items.go:19-25 -/
def new : Items := { items := [zeroItem], nextID := 1 }

/-- `Items.Extend` — internal/index/items.go:70-72 -/
def extend (its : Items) (count : Nat) : Items :=
  { its with items := its.items ++ List.replicate count zeroItem }

/-- The growth step chosen in `Items.NewChild` — internal/index/items.go:80-92. `2 ^ i` in Go is
exclusive or, and so it is here; the loop runs `i` from 13 down to 5. -/
def extendStep (currentLen : Nat) : Nat :=
  match [13, 12, 11, 10, 9, 8, 7, 6, 5].find? (fun i => currentLen > 2 ^^^ i) with
  | some i => 2 ^^^ i
  | none => 2 ^^^ 5

/-- `Items.NewChild` — internal/index/items.go:74-105. `none` is the index-out-of-range panic of
`items.items[nextID]`. `nextID += 1` wraps at 32 bits. -/
def newChild (its : Items) (parent : ID) (letter : Rune) : Option (Items × Item) :=
  let nextID := its.nextID
  let its1 :=
    if its.items.length ≤ nextID.toNat then its.extend (extendStep its.items.length) else its
  if nextID.toNat < its1.items.length then
    let it : Item := { parent := parent, id := nextID, letter := letter, variants := 0 }
    some ({ items := its1.items.set nextID.toNat it, nextID := nextID + 1 }, it)
  else none

/-- `Items.Get` — internal/index/items.go:108-119. A slot beyond the slice would be a panic in Go;
here it reads as nil. `nextID ≤ len(items)` in every reachable state (`Refines`), so the case does
not arise. -/
def get (its : Items) (id : ID) : Option Item :=
  if id.toNat = 0 then none
  else if id.toNat ≥ its.nextID.toNat then none
  else its.items[id.toNat]?

/-- `Items.filter` — internal/index/items.go:121-132 (unused in the code base; note `len(res)+1`) -/
def filter (its : Items) (f : Item → Bool) : Items :=
  let res := zeroItem :: its.items.filter (fun it => f it && it.id != 0)
  { items := res, nextID := UInt32.ofNat (res.length + 1) }

end Items

/-- `dag.IdMap` — pkg/dag/map.go:38: a Go map as a partial function. -/
abbrev IdMap := Rune → Option ID

/-- `Index` — internal/index/idx.go:21-29 (without the mutex). Go maps are partial functions. -/
structure Index where
  tags : List Tag
  tagSets : TagSetIndex
  collectionIdx : VariantsIndex
  items : Items
  childrenMap : ID → Option IdMap
  wordsCount : Nat

namespace Index

/-- `New` — internal/index/idx.go:37-47 -/
def new : Index :=
  { tags := [], tagSets := [], collectionIdx := [], items := Items.new,
    childrenMap := fun _ => none, wordsCount := 0 }

/-- Part of `GetChildrenIDMap`: create the entry if it is missing — internal/index/idx.go:317-319 -/
def ensureChildren (m : ID → Option IdMap) (id : ID) : ID → Option IdMap :=
  match m id with
  | some _ => m
  | none => fun k => if k = id then some (fun _ => none) else m k

/-- `index.childrenMap[parent][letter] = child` — internal/index/idx.go:211, 414. The inner map
always exists at both places (an absent one would be a panic in Go, a no-op here). -/
def setChild (m : ID → Option IdMap) (parent : ID) (letter : Rune) (child : ID) : ID → Option IdMap :=
  match m parent with
  | none => m
  | some im => fun k =>
      if k = parent then some (fun r => if r = letter then some child else im r) else m k

/-- `GetChildrenIDMap` — internal/index/idx.go:314-321: returns the map and may create it. -/
def getChildrenIDMap (ix : Index) (id : ID) : Index × IdMap :=
  let m := ensureChildren ix.childrenMap id
  ({ ix with childrenMap := m }, (m id).getD (fun _ => none))

/-- The text "no item: <id>" of `Node.Word` — internal/index/node.go:81 -/
def noItemText (id : ID) : Str := str ("no item: " ++ toString id.toNat)

/-- `Node.Word` — internal/index/node.go:73-89, with a bound on the recursion depth; running out of
the bound is `diverge`. -/
def wordFuel : Nat → Items → ID → Out Str
  | 0, _, _ => .diverge
  | n + 1, its, id =>
    if id = 0 then .ok []
    else match its.get id with
      | none => .ok (noItemText id)
      | some it =>
        if it.parent ≠ 0 then
          (wordFuel n its it.parent).bind fun pre => .ok (pre ++ encodeRune it.letter)
        else .ok (encodeRune it.letter)

/-- `Node.Word` — internal/index/node.go:73-89. The chain of parents visits at most `nextID - 1`
different items, so a deeper recursion means a cycle (`word_diverge_iff`, adequacy). -/
def word (ix : Index) (id : ID) : Out Str := wordFuel (ix.items.nextID.toNat + 1) ix.items id

/-- `Index.Get` — internal/index/idx.go:280-286; the node is represented by its id. -/
def get (ix : Index) (id : ID) : Out ID :=
  if id.toNat ≥ ix.items.nextID.toNat then .err (.noSuchNode id) else .ok id

/-- Loop of `FetchFromItem` — internal/index/idx.go:357-388 -/
def fetchFromItem (ix : Index) (parent : ID) : List Rune → Index × Out ID
  | [] => (ix, .err .emptyRunes)
  | r :: rest =>
    let (ix, cm) := ix.getChildrenIDMap parent
    match cm r with
    | none => (ix, (ix.word parent).bind fun w => .err (.notFound w r))
    | some next => if rest = [] then (ix, ix.get next) else fetchFromItem ix next rest

/-- Loop of `FetchItemFromParent` — internal/index/idx.go:323-355 -/
def fetchItemFromParent (ix : Index) (parent : ID) : List Rune → Index × Out ID
  | [] => (ix, .err .emptyRunes)
  | r :: rest =>
    let (ix, cm) := ix.getChildrenIDMap parent
    match cm r with
    | none => (ix, (ix.word parent).bind fun w => .err (.notFound w r))
    | some next => if rest = [] then (ix, .ok next) else fetchItemFromParent ix next rest

/-- `FetchRunes` — internal/index/idx.go:259-261 -/
def fetchRunes (ix : Index) (rs : List Rune) : Index × Out ID := ix.fetchFromItem 0 rs

/-- `FetchString` — internal/index/idx.go:265-267 -/
def fetchString (ix : Index) (w : Str) : Index × Out ID := ix.fetchRunes (decodeRunes w)

/-- Lines 409-415 of `AddToNode`: find or create the child — internal/index/idx.go:409-415.
`none` is a panic inside `NewChild`. -/
def addStep (ix : Index) (cur : ID) (r : Rune) : Option (Index × ID) :=
  let (ix, cm) := ix.getChildrenIDMap cur
  match cm r with
  | some next => some (ix, next)
  | none => match ix.items.newChild cur r with
    | none => none
    | some (its, it) =>
      some ({ ix with items := its, childrenMap := setChild ix.childrenMap cur r it.id }, it.id)

/-- Loop of `AddToNode` — internal/index/idx.go:390-424. `orig` is the `parentID` argument (it only
appears in the error). -/
def addLoop (orig : ID) (ix : Index) (cur : ID) : List Rune → Index × Out ID
  | [] => (ix, .err .emptyRunes)
  | r :: rest =>
    if cur ≠ 0 ∧ (ix.items.get cur).isNone then (ix, .err (.noParent orig))
    else match ix.addStep cur r with
      | none => ((ix.getChildrenIDMap cur).1, .panic)
      | some (ix, next) => if rest = [] then (ix, ix.get next) else addLoop orig ix next rest

/-- `AddToNode` — internal/index/idx.go:390-424 -/
def addToNode (ix : Index) (parent : ID) (rs : List Rune) : Index × Out ID :=
  addLoop parent ix parent rs

/-- `AddRunes` — internal/index/idx.go:244-246 -/
def addRunes (ix : Index) (rs : List Rune) : Index × Out ID := ix.addToNode 0 rs

/-- `AddString` — internal/index/idx.go:249-255 -/
def addString (ix : Index) (w : Str) : Index × Out ID :=
  if w.length = 0 then (ix, .err .emptyWord) else ix.addRunes (decodeRunes w)

/-- `NodesCount` — internal/index/idx.go:432-434 (the subtraction is done on `uint32`) -/
def nodesCount (ix : Index) : Nat := (ix.items.nextID - 1).toNat

/-- `GetChildrenMap` — internal/index/idx.go:442-451: nodes are represented by their ids. -/
def getChildrenMap (ix : Index) (id : ID) : Rune → Option ID :=
  (ix.childrenMap id).getD (fun _ => none)

/-- `getChild` — internal/index/idx.go:454-462 (unused): a missing letter yields node 0; `none` is nil. The
emptiness test on the map is not decidable for a partial function, so the caller passes its answer. -/
def getChild (ix : Index) (id : ID) (letter : Rune) (isEmpty : Bool) : Option ID :=
  if isEmpty then none else some (((ix.childrenMap id).getD (fun _ => none) letter).getD 0)

/-- `Children` — internal/index/idx.go:270-272 -/
def children (ix : Index) : Rune → Option ID := ix.getChildrenMap 0

/-- `TagID` — internal/index/idx.go:465-467 -/
def tagID (ix : Index) (name parent : Str) : Index × UInt8 :=
  let (tags, id) := tagsIndex ix.tags name parent
  ({ ix with tags := tags }, id)

/-- `Index.TagSet` — internal/index/idx.go:469-480 -/
def tagSet (ix : Index) : TagSet → Out (List Tag)
  | [] => .ok []
  | id :: rest => match tagsGet ix.tags id with
    | none => .err (.noSuchTag id)
    | some t => (ix.tagSet rest).bind fun ts => .ok (t :: ts)

/-- `Variants` — internal/index/idx.go:577-579 -/
def variants (ix : Index) (id : VariantID) : Out Coll := ix.collectionIdx.get id

/-- The name loop of `AddTagSet` — internal/index/node.go:55-60 -/
def findAll (tags : List Tag) : List Str → Except Str TagSet
  | [] => .ok []
  | n :: rest => match tagsFind tags n with
    | none => .error n
    | some id => (findAll tags rest).map (id :: ·)

/-- Store a new `Variants` value in an item through the pointer — internal/index/node.go:67 -/
def setVariants (its : Items) (id : ID) (v : VariantID) : Items :=
  { its with items := its.items.modify id.toNat fun it => { it with variants := v } }

/-- `Node.AddTagSet` — internal/index/node.go:52-70. A node whose id denotes no item has a nil item:
reading its field panics before anything is changed. If the reading is already present, `Add` returns the stored slice
and `Index` sorts it where it is stored; here a copy is sorted. The difference could only be seen in an index loaded from a
forged file with an unsorted collection (with shared slices: `HIndex.addTagSet`). -/
def addTagSet (ix : Index) (id : ID) (names : List Str) : Index × Out Unit :=
  match findAll ix.tags names with
  | .error n => (ix, .err (.unknownTag n))
  | .ok tagSet =>
    match ix.items.get id with
    | none => (ix, .panic)
    | some item =>
      match ix.collectionIdx.get item.variants with
      | .ok coll =>
        let (tagSets, tsID) := ix.tagSets.index tagSet
        let coll := Coll.add coll tsID
        let wordsCount := if item.variants = 0 then ix.wordsCount + 1 else ix.wordsCount
        let (collectionIdx, vID) := ix.collectionIdx.index coll
        ({ ix with tagSets := tagSets, collectionIdx := collectionIdx, wordsCount := wordsCount,
                   items := setVariants ix.items id vID }, .ok ())
      | _ => (ix, .panic)

/-- The zero `dag.Tag`. Used at pkg/dag/idx.go:119-126. -/
def zeroTag : Tag := { parent := [], name := [] }

/-- The loop of `Node.TagSets` — internal/index/node.go:37-47. A tag set that is not found ends the
loop; the remaining entries of the pre-allocated result stay nil (here `[]`). -/
def tagSetsLoop (ix : Index) : Coll → List (List Tag)
  | [] => []
  | id :: rest => match ix.tagSets.get id with
    | none => List.replicate (rest.length + 1) []
    | some ids => ids.map (fun t => (tagsGet ix.tags t).getD zeroTag) :: tagSetsLoop ix rest

/-- `Node.TagSets` — internal/index/node.go:24-50. A nil item is a nil dereference. -/
def tagSetsOf (ix : Index) (id : ID) : Out (List (List Tag)) :=
  match ix.items.get id with
  | none => .panic
  | some item => (ix.collectionIdx.get item.variants).bind fun coll => .ok (tagSetsLoop ix coll)

/-! ### Optimize -/

/-- First loop of `Optimize`: the items using each collection, in storage order —
internal/index/idx.go:490-501. The Go map is a partial function. -/
def usedCollections (items : List Item) : VariantID → Option (List ID) :=
  items.foldl (fun m it =>
    if it.variants = 0 then m
    else fun v => if v = it.variants then some ((m v).getD [] ++ [it.id]) else m v) (fun _ => none)

/-- Third loop of `Optimize`: rebuild the collection index from the used collections and record the
renumbering — internal/index/idx.go:524-544. `Index` sorts the collection in place, so it is the sorted one that is
compared. (The stored collection of the old index is sorted by this too: no change in a reachable state, where it is
sorted already; otherwise of interest only after a panic.) -/
def optimizeBuild (old : VariantsIndex) (used : VariantID → Option (List ID)) :
    List VariantID → VariantsIndex → List (VariantID × VariantID) →
    Out (VariantsIndex × List (VariantID × VariantID))
  | [], new, acc => .ok (new, acc)
  | id :: rest, new, acc =>
    match used id with
    | none => optimizeBuild old used rest new acc
    | some _ =>
      (old.get id).bind fun c =>
        let (new, nid) := new.index c
        (new.get nid).bind fun c' =>
          if equalTo (sortAsc c) c' then optimizeBuild old used rest new (acc ++ [(id, nid)]) else .panic

/-- `index.items.items[itemID].Variants = new` for all users of one collection —
internal/index/idx.go:554-566; an id outside the storage is a panic (`none`). -/
def replaceIn (v : VariantID) : List ID → List Item → Option (List Item)
  | [], items => some items
  | id :: rest, items =>
    if id.toNat < items.length then
      replaceIn v rest (items.modify id.toNat fun it => { it with variants := v })
    else none

/-- Fourth loop of `Optimize` — internal/index/idx.go:548-567 -/
def replaceAll (used : VariantID → Option (List ID)) :
    List (VariantID × VariantID) → List Item → Option (List Item)
  | [], items => some items
  | (old, new) :: rest, items =>
    match used old with
    | none => none
    | some ids => (replaceIn new ids items).bind (replaceAll used rest)

/-- `Optimize` — internal/index/idx.go:488-574. Logging and the unused sorted list of unused ids
are left out (the debug line at 556-562 reads `collectionIdx.Get` of the old value, which is resolvable
in every reachable state). A panic half-way leaves the receiver as it was in the model (in Go the items updated
so far would stay updated); no reachable state panics. -/
def optimize (ix : Index) : Index × Out Unit :=
  let used := usedCollections ix.items.items
  let known := ix.collectionIdx.knownID
  let unused := known.filter fun id => (used id).isNone
  if unused.length = 0 then (ix, .ok ())
  else match optimizeBuild ix.collectionIdx used known [] [] with
    | .ok (new, repl) => match replaceAll used repl ix.items.items with
      | some items =>
        ({ ix with items := { ix.items with items := items }, collectionIdx := new }, .ok ())
      | none => (ix, .panic)
    | _ => (ix, .panic)

end Index

end Verif
