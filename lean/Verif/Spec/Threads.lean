import Verif.Model.Threads

/-! # Specification: data races

After "The Go Memory Model": two accesses of one cell by different goroutines, not ordered by synchronisation, at least one
of them a write. Here nothing synchronises the goroutines. -/

namespace Verif

variable {Loc : Type}

/-- Among the accesses of an execution there is a data race. -/
def DataRace (log : List (Nat × Loc × Bool)) : Prop :=
  ∃ t u l w, t ≠ u ∧ (t, l, true) ∈ log ∧ (u, l, w) ∈ log

/-- A cell that one list of accesses writes and the other uses. -/
def Clash (a b : List (Loc × Bool)) : Prop := ∃ l w, (l, true) ∈ a ∧ (l, w) ∈ b

/-- Every program has come to its end. -/
def Threads.AllDone {Val : Loc → Type} {ρ : Type} (s : Threads Loc Val ρ) : Prop := ∀ t, ∃ r, s.prog t = .done r

end Verif
