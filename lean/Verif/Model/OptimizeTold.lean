import Verif.Model.OptimizeLog

/-!
# What `Optimize` logs

The messages in the order in which they are logged, with the values in them. `Optimize` makes its own logger and sets it to
the debug level (internal/index/idx.go:489), so nothing is left out. For the texts see `Model/ImportText.lean`.
-/

namespace Verif

/-- The messages of `Optimize` — internal/index/idx.go:492-573 -/
inductive OptLine where
  /-- "check %d known collections" — internal/index/idx.go:492 -/
  | check (n : Nat)
  /-- "lookup unused collections" — internal/index/idx.go:503 -/
  | lookup
  /-- "eliminate %d unused collections" — internal/index/idx.go:511 -/
  | eliminate (n : Nat)
  /-- "no unused collections" — internal/index/idx.go:513 -/
  | noUnused
  /-- "old subID %X collection %v" — internal/index/idx.go:536 -/
  | oldDiffers (id : VariantID) (c : Coll)
  /-- "new subID %X collection %v" — internal/index/idx.go:537 -/
  | newDiffers (id : VariantID) (c : Coll)
  /-- "IDX? O%#08x N%#08x" — internal/index/idx.go:542 -/
  | pair (old new : VariantID)
  /-- "have %d collectionID to replace in items" — internal/index/idx.go:546 -/
  | toReplace (n : Nat)
  /-- "IDX# I%08d O%#08x OL%v N%#08x NL%v" — internal/index/idx.go:556-562 -/
  | item (id : ID) (old : VariantID) (oldList : Coll) (new : VariantID) (newList : Coll)
  /-- "%d items VariantID updated" — internal/index/idx.go:568 -/
  | updated (n : Nat)
  /-- "reduced collection from %d to %d items" — internal/index/idx.go:569 -/
  | reduced (before after : Nat)
  /-- "has %d possible tag sets" — internal/index/idx.go:573 -/
  | tagSets (n : Nat)
  deriving DecidableEq, Repr

namespace Index

/-- Third loop of `Optimize` with its messages — internal/index/idx.go:524-544; see `optimizeBuild`. -/
def buildTold (old : VariantsIndex) (used : VariantID → Option (List ID)) :
    List VariantID → VariantsIndex → List (VariantID × VariantID) →
    List OptLine × Out (VariantsIndex × List (VariantID × VariantID))
  | [], new, acc => ([], .ok (new, acc))
  | id :: rest, new, acc =>
    match used id with
    | none => buildTold old used rest new acc
    | some _ => match old.get id with
      | .ok c => match (new.index c).1.get (new.index c).2 with
        | .ok c' =>
          if equalTo (sortAsc c) c' then
            let (log, out) := buildTold old used rest (new.index c).1 (acc ++ [(id, (new.index c).2)])
            (.pair id (new.index c).2 :: log, out)
          else ([.oldDiffers id (sortAsc c), .newDiffers (new.index c).2 c'], .panic)
        | _ => ([], .panic)
      | _ => ([], .panic)

/-- The inner loop with its messages and the counter `itemsUpdated` — internal/index/idx.go:554-566: the messages, and if
there was no panic the items and the counter. -/
def replaceInTold (old new : VariantsIndex) (v : VariantID) : List ID → List Item → Nat →
    List OptLine × Option (List Item × Nat)
  | [], items, n => ([], some (items, n))
  | id :: rest, items, n =>
    match items[id.toNat]? with
    | none => ([], none)
    | some it => match old.get it.variants, new.get v with
      | .ok c, .ok c' =>
        let (log, out) := replaceInTold old new v rest (items.modify id.toNat fun it => { it with variants := v }) (n + 1)
        (.item id it.variants c v c' :: log, out)
      | _, _ => ([], none)

/-- Fourth loop of `Optimize` with its messages — internal/index/idx.go:547-567 -/
def replaceAllTold (old new : VariantsIndex) (used : VariantID → Option (List ID)) :
    List (VariantID × VariantID) → List Item → Nat → List OptLine × Option (List Item × Nat)
  | [], items, n => ([], some (items, n))
  | (a, b) :: rest, items, n =>
    match used a with
    | none => ([], none)
    | some ids => match replaceInTold old new b ids items n with
      | (log, none) => (log, none)
      | (log, some (items, n)) =>
        let (log', out) := replaceAllTold old new used rest items n
        (log ++ log', out)

/-- `Optimize` with its messages — internal/index/idx.go:488-574. A panic half-way leaves the receiver as it was in the
model; see `optimizeLog` for what it leaves in Go. -/
def optimizeTold (ix : Index) : List OptLine × (Index × Out Unit) :=
  let known := ix.collectionIdx.knownID
  let used := usedCollections ix.items.items
  let unused := known.filter fun id => (used id).isNone
  let start : List OptLine := [.check known.length, .lookup, .eliminate unused.length]
  if unused.length = 0 then (start ++ [.noUnused], (ix, .ok ()))
  else match buildTold ix.collectionIdx used known [] [] with
    | (log, .ok (new, repl)) =>
      let start := start ++ log ++ [.toReplace repl.length]
      match replaceAllTold ix.collectionIdx new used repl ix.items.items 0 with
      | (log, some (items, n)) =>
        (start ++ log ++
          [.updated n, .reduced ix.collectionIdx.knownID.length new.knownID.length, .tagSets ix.tagSets.tableIDs.length],
          ({ ix with items := { ix.items with items := items }, collectionIdx := new }, .ok ()))
      | (log, none) => (start ++ log, (ix, .panic))
    | (log, _) => (start ++ log, (ix, .panic))

end Index
end Verif
