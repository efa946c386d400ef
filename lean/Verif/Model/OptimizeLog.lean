import Verif.Model.Index

/-!
# `Optimize` with its debug messages

`Optimize` sets its logger to the debug level, and the arguments of one debug message are calls that may panic. Here they
are part of the model, and so are the items already changed when a panic happens.
-/

namespace Verif
namespace Index

/-- The inner loop with the debug message — internal/index/idx.go:554-566: the items afterwards, and whether the loop
came to its end. `debug` is the answer of `IsEnabledForLevel`. The message also gets the new collection from the new
index, which has succeeded before (539). -/
def replaceInLog (debug : Bool) (old : VariantsIndex) (v : VariantID) : List ID → List Item → List Item × Bool
  | [], items => (items, true)
  | id :: rest, items =>
    match items[id.toNat]? with
    | none => (items, false)
    | some it =>
      if debug = true ∧ old.get it.variants = .panic then (items, false)
      else replaceInLog debug old v rest (items.modify id.toNat fun it => { it with variants := v })

/-- Fourth loop of `Optimize` — internal/index/idx.go:548-567 -/
def replaceAllLog (debug : Bool) (coll : VariantsIndex) (used : VariantID → Option (List ID)) :
    List (VariantID × VariantID) → List Item → List Item × Bool
  | [], items => (items, true)
  | (old, new) :: rest, items =>
    match used old with
    | none => (items, false)
    | some ids => match replaceInLog debug coll new ids items with
      | (items, true) => replaceAllLog debug coll used rest items
      | (items, false) => (items, false)

/-- `Optimize` — internal/index/idx.go:488-574, with the debug message and what a panic leaves behind. -/
def optimizeLog (debug : Bool) (ix : Index) : Index × Out Unit :=
  let used := usedCollections ix.items.items
  let known := ix.collectionIdx.knownID
  let unused := known.filter fun id => (used id).isNone
  if unused.length = 0 then (ix, .ok ())
  else match optimizeBuild ix.collectionIdx used known [] [] with
    | .ok (new, repl) => match replaceAllLog debug ix.collectionIdx used repl ix.items.items with
      | (items, true) => ({ ix with items := { ix.items with items := items }, collectionIdx := new }, .ok ())
      | (items, false) => ({ ix with items := { ix.items with items := items } }, .panic)
    | _ => (ix, .panic)

end Index
end Verif
