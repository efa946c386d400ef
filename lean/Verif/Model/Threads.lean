import Verif.Model.Concurrent

/-!
# Sequential programs as sequences of memory accesses, and their interleavings

The calls of `Model/Tagging.lean` are written as programs that read and write named cells of the shared memory, one access
after the other. Several such programs run interleaved, without any lock, as goroutines that call methods of one index do.
-/

namespace Verif

/-- A program: it ends with an answer, or reads a cell and goes on with what it read, or writes a cell and goes on. For
internal/index/node.go:24-70. -/
inductive Prog (Loc : Type) (Val : Loc → Type) (ρ : Type) where
  | done (r : ρ)
  | read (l : Loc) (k : Val l → Prog Loc Val ρ)
  | write (l : Loc) (v : Val l) (k : Prog Loc Val ρ)

/-- The shared memory: what every cell holds. For internal/index/idx.go:21-29. -/
abbrev Cells (Loc : Type) (Val : Loc → Type) := (l : Loc) → Val l

/-- The memory with `v` in cell `l`. For internal/index/idx.go:21-29. -/
def Cells.set {Loc : Type} {Val : Loc → Type} [DecidableEq Loc] (m : Cells Loc Val) (l : Loc) (v : Val l) : Cells Loc Val :=
  fun a => if h : l = a then h ▸ v else m a

namespace Prog

variable {Loc : Type} {Val : Loc → Type} {ρ σ : Type}

/-- One program after the other. For internal/index/node.go:24-70. -/
def bind : Prog Loc Val ρ → (ρ → Prog Loc Val σ) → Prog Loc Val σ
  | .done r, f => f r
  | .read l k, f => .read l fun v => (k v).bind f
  | .write l v k, f => .write l v (k.bind f)

variable [DecidableEq Loc]

/-- The program running alone: the memory it leaves and its answer. For internal/index/node.go:24-70. -/
def alone : Prog Loc Val ρ → Cells Loc Val → Cells Loc Val × ρ
  | .done r, m => (m, r)
  | .read l k, m => (k (m l)).alone m
  | .write l v k, m => k.alone (m.set l v)

/-- The accesses of the program running alone: the cell, and whether it is written. For internal/index/node.go:24-70. -/
def accesses : Prog Loc Val ρ → Cells Loc Val → List (Loc × Bool)
  | .done _, _ => []
  | .read l k, m => (l, false) :: (k (m l)).accesses m
  | .write l v k, m => (l, true) :: k.accesses (m.set l v)

end Prog

/-- Goroutines on one memory: what remains of each program, and the accesses so far: goroutine, cell, whether it was
written. For internal/index/node.go:24-70. -/
structure Threads (Loc : Type) (Val : Loc → Type) (ρ : Type) where
  mem : Cells Loc Val
  prog : Nat → Prog Loc Val ρ
  log : List (Nat × Loc × Bool)

namespace Threads

variable {Loc : Type} {Val : Loc → Type} {ρ : Type} [DecidableEq Loc]

/-- Goroutine `t` makes its next access. For internal/index/node.go:24-70. -/
def step (s : Threads Loc Val ρ) (t : Nat) : Threads Loc Val ρ :=
  match s.prog t with
  | .done _ => s
  | .read l k => { mem := s.mem, prog := upd s.prog t (k (s.mem l)), log := s.log ++ [(t, l, false)] }
  | .write l v k => { mem := s.mem.set l v, prog := upd s.prog t k, log := s.log ++ [(t, l, true)] }

/-- A whole schedule. For internal/index/node.go:24-70. -/
def run (s : Threads Loc Val ρ) (sched : List Nat) : Threads Loc Val ρ := sched.foldl step s

/-- Goroutines about to start. For internal/index/node.go:24-70. -/
def start (m : Cells Loc Val) (q : Nat → Prog Loc Val ρ) : Threads Loc Val ρ := { mem := m, prog := q, log := [] }

end Threads

end Verif
