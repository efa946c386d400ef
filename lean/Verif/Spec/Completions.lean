import Verif.Spec.Queries
import Verif.Spec.Texts

/-!
# Specification: walking the children of a node, and theirs

The program a user would write to list everything that begins with a word: the node itself, then for every entry of
`GetChildrenMap` — in whatever order the map is visited — the same for the child.
-/

namespace Verif

/-- Do `f` for every entry and put the results together; `none` if one of them has not ended. -/
def gatherAll {α β : Type} (f : α → Option (List β)) : List α → Option (List β)
  | [] => some []
  | a :: l => (f a).bind fun x => (gatherAll f l).map (x ++ ·)

/-- The walk from a node; `none` if it has not ended at that depth of recursion. `order id` is the order in which the
map of the children of `id` is visited. -/
def completions (order : ID → List (Rune × ID)) : Nat → ID → Option (List ID)
  | 0, _ => none
  | depth + 1, id => (gatherAll (fun e => completions order depth e.2) (order id)).map (id :: ·)

/-- `order` visits the maps of children of `ix`. -/
def VisitsChildren (ix : Index) (order : ID → List (Rune × ID)) : Prop :=
  ∀ id, Enumerates (ix.getChildrenMap id) (order id)

/-- The word a walk starts from: the root, or a word that is found. -/
def StartsAt (ix : Index) (w : List Rune) (n : ID) : Prop :=
  (w = [] ∧ n = 0) ∨ (ix.fetchRunes w).2 = .ok n

/-- Dictionary order: `u` comes before `v` if `v` goes on where `u` ends, or the first characters in which they differ
are in that order. -/
def LexBefore (lt : Rune → Rune → Prop) (u v : List Rune) : Prop :=
  (u <+: v ∧ u ≠ v) ∨ ∃ p a b, p ++ [a] <+: u ∧ p ++ [b] <+: v ∧ lt a b

end Verif
