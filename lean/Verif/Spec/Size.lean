import Verif.Spec.Alike

/-!
# Specification: how large the file of a dictionary has to be

`P` lists the different words and beginnings of words, `R` the different readings, `S` the different combinations of
readings that words have. The order of the tags in a
reading and of the readings of a word does not matter.
-/

namespace Verif

/-- A reading as it is kept: an empty one is kept as the first one-tag reading of the dictionary, if there is one
(see C10). -/
def Dict.kept (d : Dict) (names : List Str) : List Str := if names = [] then d.firstSingle.toList else names

/-- The combination of readings the word `w` has. -/
def Dict.combination (d : Dict) (w : List Rune) : List (List Str) := (d.readingsFor w).map d.kept

/-- `P` has each word and each beginning of a word once, `R` each reading of the dictionary once, `S` each combination of
readings, as a list without repetition. -/
structure Inventory (d : Dict) (P : List (List Rune)) (R : List (List Str)) (S : List (List (List Str))) : Prop where
  beginnings : ∀ p, p ∈ P ↔ p ≠ [] ∧ ∃ v ∈ d.words, p <+: v
  beginningsOnce : P.Nodup
  readings : ∀ w, ∀ names ∈ d.readingsFor w, names ≠ [] → ∃ r ∈ R, names.Perm r
  readingsOnly : ∀ r ∈ R, r ≠ [] ∧ ∃ w, ∃ names ∈ d.readingsFor w, names.Perm r
  readingsOnce : R.Pairwise fun a b => ¬ a.Perm b
  combinations : ∀ w, d.readingsFor w ≠ [] → ∃ A ∈ S, SameSets (d.combination w) A
  combinationsOnly : ∀ A ∈ S, ∃ w, d.readingsFor w ≠ [] ∧ SameSets (d.combination w) A
  combinationsOnce : S.Pairwise fun A B => ¬ SameSets A B
  once : ∀ A ∈ S, A.Pairwise fun a b => ¬ a.Perm b

/-- The length of the longest list. -/
def longest {α : Type} : List (List α) → Nat
  | [] => 0
  | a :: L => max a.length (longest L)

/-- Bytes: 38, 8 for each tag, 16 for each word and beginning of a word; 2 for each tag the longest reading has, and for
each reading one more than its tags; 4 for each reading of the word that has most, and for each combination one more than
four times its readings. -/
def spaceFor (tags : Nat) (P : List (List Rune)) (R : List (List Str)) (S : List (List (List Str))) : Nat :=
  38 + 8 * tags + 16 * P.length + 2 * longest R + (R.map fun r => 1 + r.length).sum +
    4 * longest S + (S.map fun A => 1 + 4 * A.length).sum

/-- How many calls attached a reading. -/
def taggings (h : List Op) : Nat := h.countP fun | .addTagSet _ _ => true | _ => false

end Verif
