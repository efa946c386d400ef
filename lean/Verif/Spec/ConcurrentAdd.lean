import Verif.Model.Index

/-! # Specification: words that may be added and looked up at the same time -/

namespace Verif

/-- Thread `t` adds the word `q t`, if `adds t`, else looks it up. Every common beginning of two added words is in the
index already; and where an added word and another word go on from a common beginning (the empty one included), the
index already has some word going on from there. -/
structure Compat (ix : Index) (adds : Nat → Bool) (q : Nat → List Rune) : Prop where
  known : ∀ t u, t ≠ u → adds t = true → adds u = true → ∀ v, v ≠ [] → v <+: q t → v <+: q u →
    ∃ id, (ix.fetchRunes v).2 = .ok id
  goesOn : ∀ t u, t ≠ u → adds t = true → ∀ v a b, v ++ [a] <+: q t → v ++ [b] <+: q u →
    ∃ r id, (ix.fetchRunes (v ++ [r])).2 = .ok id

/-- The words of the threads `ts` added one after the other. -/
def addInOrder (ix : Index) (q : Nat → List Rune) (ts : List Nat) : Index :=
  ts.foldl (fun ix t => (ix.addRunes (q t)).1) ix

end Verif
