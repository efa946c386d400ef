import Verif.Model.Processes

/-! # Words for the properties of several processes with one index file -/

namespace Verif

/-- The first bytes of one file followed by the later bytes of another, perhaps cut off: what is read if one is replaced
by the other under way. -/
def Splice (old new got : Str) : Prop := ∃ j, j ≤ old.length ∧ got <+: old.take j ++ new.drop j

/-- Process `w` saves these bytes, all others load. -/
def OneSaves (jobs : Nat → FileJob) (w : Nat) (new : Str) : Prop :=
  jobs w = .save new ∧ ∀ i, i ≠ w → jobs i = .load

/-- Whoever saves, saves these bytes. -/
def AllSave (jobs : Nat → FileJob) (c : Str) : Prop := ∀ i, jobs i = .load ∨ jobs i = .save c

/-- No call of a process that saves fails (it may die). -/
def SavesWork (jobs : Nat → FileJob) (sched : List FileEv) : Prop :=
  ∀ i, FileEv.fail i ∈ sched → jobs i = .load

end Verif
