import Verif.Model.ConcurrentAdd

/-! # Specification: answers as of a moment of a call -/

namespace Verif

/-- Some moment of the schedule lies after the first step of thread `t` and before its return, and a lookup of `w` made
then at one stroke would answer `o`. -/
def AState.AsOf (s : AState) (sched : List Nat) (t : Nat) (w : List Rune) (o : Out ID) : Prop :=
  ∃ pre post, sched = pre ++ post ∧ t ∈ pre ∧ (∀ x, (s.run pre).pc t ≠ .done x) ∧ ((s.run pre).now.fetchRunes w).2 = o

/-- The calls of the threads `ts` one after the other: `AddRunes`, if `adds t`, else `FetchRunes`. -/
def callInOrder (ix : Index) (adds : Nat → Bool) (q : Nat → List Rune) (ts : List Nat) : Index :=
  ts.foldl (fun ix t => if adds t then (ix.addRunes (q t)).1 else (ix.fetchRunes (q t)).1) ix

end Verif
