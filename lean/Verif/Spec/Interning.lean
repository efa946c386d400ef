import Mathlib.Data.List.Sort

/-!
# Specification: interning of sets

A *log* lists, in order, the sets passed to `Index` together with the ids it returned, from the creation of the
(empty) table on. `Interns` says what a user of the table relies on, at the end of the log.
-/

namespace Verif

variable {α κ : Type}

/-- At most `n` different sets (up to the order of elements) occur in the log. -/
def AtMostDifferent (n : Nat) (log : List (List α × κ)) : Prop :=
  ∃ S : List (List α), S.length ≤ n ∧ ∀ e ∈ log, ∃ s ∈ S, e.1.Perm s

/-- `got id r`: `Get(id)` returns the set `r`; `found r id`: `Find(r)` returns `id`. -/
structure Interns [LE α] (got : κ → List α → Prop) (found : List α → κ → Prop)
    (log : List (List α × κ)) : Prop where
  /-- every id handed out (at any time) denotes the set it was handed out for, sorted -/
  get_index : ∀ s id, (s, id) ∈ log → ∃ r, got id r ∧ r.Perm s ∧ r.Pairwise (· ≤ ·)
  /-- `Find` on the sorted set returns the id of `Index` -/
  find_index : ∀ s id r, (s, id) ∈ log → r.Perm s → r.Pairwise (· ≤ ·) → found r id
  /-- equal sets share the id, different sets have different ids -/
  same_id_iff : ∀ s id s' id', (s, id) ∈ log → (s', id') ∈ log → (id = id' ↔ s.Perm s')
  /-- `Find` finds nothing that was not indexed -/
  find_only : ∀ r id, found r id → ∃ s, (s, id) ∈ log ∧ r.Perm s
  /-- `Get` returns nothing that was not indexed -/
  get_only : ∀ r id, got id r → ∃ s id', (s, id') ∈ log ∧ r.Perm s

end Verif
