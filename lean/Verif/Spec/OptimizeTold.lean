import Verif.Model.OptimizeTold
import Verif.Spec.OptimizeWhile
import Verif.Spec.Size

/-!
# Specification: what the messages of `Optimize` say

`Variants(id)` of the index gives the list of readings kept under a number; each word with readings has such a number.
-/

namespace Verif

/-- The list kept under a number; nothing if there is none. -/
def VariantsIndex.listAt (c : VariantsIndex) (v : VariantID) : Coll := match c.get v with
  | .ok x => x
  | _ => []

/-- The messages tell what the call did to `ix`, which had `extra` lists that no word needs and became `ix'`, when the
words have readings in `R` and combinations in `S`. -/
inductive TellsOf (ix ix' : Index) (attached : ID → Prop) (R : List (List Str)) (S : List (List (List Str))) :
    Nat → List OptLine → Prop where
  /-- There was nothing to do, and nothing was done. -/
  | idle (same : ix' = ix) : TellsOf ix ix' attached R S 0 [.check S.length, .lookup, .eliminate 0, .noUnused]
  /-- A message for each list that is kept, under its old and its new number; a message for each word, with its old
  number and list and its new number and list. -/
  | done (extra : Nat) (kept : List (VariantID × VariantID)) (words : List ID)
      (some : extra ≠ 0)
      (keptAll : kept.length = S.length)
      (keptOnce : (kept.map (·.1)).Nodup ∧ (kept.map (·.2)).Nodup)
      (keptSame : ∀ p ∈ kept, ∃ c, c ≠ [] ∧ ix.collectionIdx.get p.1 = .ok c ∧ ix'.collectionIdx.get p.2 = .ok c)
      (wordsOnce : words.Nodup)
      (wordsAll : ∀ id, id ∈ words ↔ attached id)
      (wordsKept : ∀ id ∈ words, (ix.numberOf id, ix'.numberOf id) ∈ kept) :
      TellsOf ix ix' attached R S extra
        ([.check (S.length + extra), .lookup, .eliminate extra] ++ (kept.map fun p => .pair p.1 p.2) ++
          [.toReplace S.length] ++
          (words.map fun id => .item id (ix.numberOf id) (ix.collectionIdx.listAt (ix.numberOf id))
            (ix'.numberOf id) (ix'.collectionIdx.listAt (ix'.numberOf id))) ++
          [.updated words.length, .reduced (S.length + extra) S.length, .tagSets R.length])

end Verif
