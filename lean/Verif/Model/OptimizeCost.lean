import Verif.Model.Cost

/-!
# How many steps `Optimize` takes

Counted as in `Model.Cost`. Not counted: logging, `sort.Sort`, of the list of unused collections and inside
`VariantsIndex.Index`, and single accesses to maps and slices.
-/

namespace Verif

/-- `VariantsIndex.KnownID` — internal/index/variant_idx.go:113-127: one step for each table and for each collection -/
def VariantsIndex.knownIDT (ix : VariantsIndex) : Timed (List VariantID) :=
  (ix.knownID, (ix.map fun t => 1 + t.length).sum)

/-- `TagSetIndex.TableIDs` — internal/index/tagset_index.go:127-137: one step for each table and for each set -/
def TagSetIndex.tableIDsT (ix : TagSetIndex) : Timed (List TagSetID) :=
  (ix.tableIDs, (ix.map fun t => 1 + t.length).sum)

namespace Index

/-- Third loop of `Optimize` — internal/index/idx.go:524-544: one step for each round, those of `Index` and those of
`EqualTo` -/
def optimizeBuildT (old : VariantsIndex) (used : VariantID → Option (List ID)) :
    List VariantID → VariantsIndex → List (VariantID × VariantID) →
    Timed (Out (VariantsIndex × List (VariantID × VariantID)))
  | [], new, acc => (.ok (new, acc), 0)
  | id :: rest, new, acc =>
    match used id with
    | none =>
      let (res, k) := optimizeBuildT old used rest new acc
      (res, k + 1)
    | some _ => match old.get id with
      | .ok c =>
        let ((new, nid), k) := new.indexT c
        match new.get nid with
        | .ok c' => match equalToT (sortAsc c) c' with
          | (true, k') =>
            let (res, k'') := optimizeBuildT old used rest new (acc ++ [(id, nid)])
            (res, k + k' + k'' + 1)
          | (false, k') => (.panic, k + k' + 1)
        | .err e => (.err e, k + 1)
        | .panic => (.panic, k + 1)
        | .diverge => (.diverge, k + 1)
      | .err e => (.err e, 1)
      | .panic => (.panic, 1)
      | .diverge => (.diverge, 1)

/-- The inner loop of the fourth loop of `Optimize` — internal/index/idx.go:554-566: one step for each round -/
def replaceInT (v : VariantID) : List ID → List Item → Timed (Option (List Item))
  | [], items => (some items, 0)
  | id :: rest, items =>
    if id.toNat < items.length then
      let (res, k) := replaceInT v rest (items.modify id.toNat fun it => { it with variants := v })
      (res, k + 1)
    else (none, 1)

/-- Fourth loop of `Optimize` — internal/index/idx.go:548-567: one step for each round, and those of the inner loop -/
def replaceAllT (used : VariantID → Option (List ID)) :
    List (VariantID × VariantID) → List Item → Timed (Option (List Item))
  | [], items => (some items, 0)
  | (old, new) :: rest, items =>
    match used old with
    | none => (none, 1)
    | some ids => match replaceInT new ids items with
      | (none, k) => (none, k + 1)
      | (some items, k) =>
        let (res, k') := replaceAllT used rest items
        (res, k + k' + 1)

/-- `Optimize` — internal/index/idx.go:488-574: `KnownID`, one step for each item (lines 493-501), one for each stored
collection (lines 505-509), then, unless nothing is unused, the third and the fourth loop, `KnownID` of the old and of
the new collections (line 569) and `TableIDs` (line 572) -/
def optimizeT (ix : Index) : Timed (Index × Out Unit) :=
  let used := usedCollections ix.items.items
  let (known, k0) := ix.collectionIdx.knownIDT
  let unused := known.filter fun id => (used id).isNone
  let k1 := k0 + ix.items.items.length + known.length
  if unused.length = 0 then ((ix, .ok ()), k1)
  else match optimizeBuildT ix.collectionIdx used known [] [] with
    | (.ok (new, repl), k2) => match replaceAllT used repl ix.items.items with
      | (some items, k3) =>
        (({ ix with items := { ix.items with items := items }, collectionIdx := new }, .ok ()),
          k1 + k2 + k3 + ix.collectionIdx.knownIDT.2 + new.knownIDT.2 + ix.tagSets.tableIDsT.2)
      | (none, k3) => ((ix, .panic), k1 + k2 + k3)
    | (_, k2) => ((ix, .panic), k1 + k2)

end Index

end Verif
