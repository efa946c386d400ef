import Verif.Model.ConcurrentAdd

/-! # Specification: nodes forgotten by concurrent calls -/

namespace Verif

/-- `a` is the node `k` or a node on the way from it to the root, by the parents the items name. -/
inductive Above (its : Items) : ID → ID → Prop
  | self (k : ID) : Above its k k
  | up {a k : ID} {it : Item} : its.get k = some it → Above its a it.parent → Above its a k

/-- Some node has the child `k`. -/
def AState.Shows (s : AState) (k : ID) : Prop := ∃ p r, s.now.getChildrenMap p r = some k

/-- The next step of thread `t` makes the index forget the node `k`: either some node has the child `k` and after the
step none has, or the step enters `k` into a map of children that is no longer in use. -/
def AState.Forgets (s : AState) (t : Nat) (k : ID) : Prop :=
  (s.Shows k ∧ ¬(s.step t).Shows k) ∨ ∃ p r rest m, s.pc t = .storing p r rest k m ∧ s.kids.ref p ≠ some m

/-- At some moment of the schedule the index forgets the node `k`. -/
def AState.WasForgotten (s : AState) (sched : List Nat) (k : ID) : Prop :=
  ∃ pre t post, sched = pre ++ t :: post ∧ (s.run pre).Forgets t k

end Verif
