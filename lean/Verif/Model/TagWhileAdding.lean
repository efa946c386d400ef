import Verif.Model.Concurrent

/-!
# `AddTagSet` while other goroutines create nodes

`AddTagSet` takes a pointer to the node's item at its beginning and stores the new collection through it at its end.
`NewChild` may move all items to another place in between. The tables of tag sets and collections are left out here (their
part is in `Model/Tagging.lean`): what collection a call stores is some function of the one it found.
-/

namespace Verif

/-- Where a call of `AddTagSet` is — internal/index/node.go:62-67, internal/index/items.go:108-119 -/
inductive GPC where
  /-- before `items.NextID()` is read in `Get` -/
  | start
  /-- the id was found in use; before `&items.items[intID]` -/
  | checked
  /-- `item` points into backing array `a`; before `item.Variants` is read -/
  | held (a : Nat)
  /-- `item.Variants` was `v`; before `item.Variants` is stored -/
  | found (a : Nat) (v : VariantID)
  /-- returned nil after storing `v` -/
  | done (v : VariantID)
  /-- nil pointer or index out of range -/
  | panicked
  deriving DecidableEq, Repr

/-- Goroutines in `NewChild` and goroutines in `AddTagSet`. For internal/index/items.go:13-17. -/
structure GState where
  n : NState
  pc : Nat → GPC

/-- An entry of a schedule: a step of goroutine `t` in `NewChild` (with the choice of the run-time, see `NState.grow`), or of
goroutine `t` in `AddTagSet`. For internal/index/items.go:74-119. -/
inductive GEv where
  | add (t : Nat) (inPlace : Bool)
  | tag (t : Nat)
  deriving DecidableEq, Repr

namespace GState

/-- The program counter of the tagging goroutine `t` becomes `p`. For internal/index/node.go:62-67. -/
def goto (s : GState) (t : Nat) (p : GPC) : GState := { s with pc := upd s.pc t p }

/-- One step. Tagging goroutine `t` tags node `word t`, and `f t` takes the collection found to the collection stored —
internal/index/node.go:62-67, internal/index/items.go:74-119. Between `found` and the store the call works on the tables; the
second reading of `item.Variants`, for the counter of words, is left out. -/
def step (args : Nat → ID × Rune) (word : Nat → Nat) (f : Nat → VariantID → VariantID) (s : GState) : GEv → GState
  | .add t inPlace => { s with n := s.n.step args t inPlace }
  | .tag t => match s.pc t with
    | .start => if 0 < word t ∧ word t < s.n.next then s.goto t .checked else s.goto t .panicked
    | .checked => if word t < s.n.len then s.goto t (.held s.n.cur) else s.goto t .panicked
    | .held a => s.goto t (.found a (s.n.heap a (word t)).variants)
    | .found a v =>
      { s with n := { s.n with heap := upd s.n.heap a (upd (s.n.heap a) (word t)
          { s.n.heap a (word t) with variants := f t v }) } }.goto t (.done (f t v))
    | .done _ => s
    | .panicked => s

/-- A whole schedule. For internal/index/node.go:62-67. -/
def run (args : Nat → ID × Rune) (word : Nat → Nat) (f : Nat → VariantID → VariantID) (s : GState) (sched : List GEv) : GState :=
  sched.foldl (step args word f) s

/-- Before any of the calls. For internal/index/node.go:62-67. -/
def init (items : Nat → Item) (len next : Nat) : GState := { n := NState.init items len next, pc := fun _ => .start }

end GState

end Verif
