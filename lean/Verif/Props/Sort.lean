import Verif.Lemmas.Sort

/-! # C89 — sorting a set sorts it, in place, whatever algorithm `sort.Sort` is -/

namespace Verif

/-- What is asked of the algorithm: told the length of a list of numbers, and allowed to compare and to swap positions,
it stops without leaving the list and the numbers are in ascending order. -/
def SortsNumbers (alg : Nat → SortProg) : Prop :=
  ∀ l : List Nat, ∃ r, (alg l.length).run id l = .ok r ∧ r.Pairwise (· ≤ ·)

theorem sorts_keys {α β : Type} [LT β] [DecidableLT β] {alg : Nat → SortProg} (c : SortsNumbers alg) (f : β → Nat)
    (hf : ∀ a b : β, a < b ↔ f a < f b) (key : α → β) (l : List α) :
    ∃ r, (alg l.length).run key l = .ok r ∧ r.Perm l ∧ r.Pairwise fun a b => f (key a) ≤ f (key b) := by
  obtain ⟨q, h1, h2⟩ := c (l.map fun a => f (key a))
  rw [List.length_map, run_map f hf] at h1
  cases hr : (alg l.length).run key l with
  | ok r =>
    rw [hr] at h1
    cases h1
    exact ⟨r, rfl, run_perm key _ hr, List.pairwise_map.1 h2⟩
  | err e => rw [hr] at h1; cases h1
  | panic => rw [hr] at h1; cases h1
  | diverge => rw [hr] at h1; cases h1

/-- **C89**: whatever the algorithm, the sets of the program (of 8, 16 and 32 bit numbers) become the list that is
ascending and has the same elements equally often; lists of children are put in the order of their parents. -/
theorem C89 (alg : Nat → SortProg) (c : SortsNumbers alg) :
    (∀ l : List UInt8, ∃ r, (alg l.length).run id l = .ok r ∧ r.Perm l ∧ r.Pairwise (· ≤ ·) ∧ r = sortAsc l) ∧
    (∀ l : List UInt16, ∃ r, (alg l.length).run id l = .ok r ∧ r.Perm l ∧ r.Pairwise (· ≤ ·) ∧ r = sortAsc l) ∧
    (∀ l : List UInt32, ∃ r, (alg l.length).run id l = .ok r ∧ r.Perm l ∧ r.Pairwise (· ≤ ·) ∧ r = sortAsc l) ∧
    (∀ l : List Child, ∃ r, (alg l.length).run (·.parent) l = .ok r ∧ r.Perm l ∧
      r.Pairwise fun a b => a.parent ≤ b.parent) := by
  refine ⟨fun l => ?_, fun l => ?_, fun l => ?_, fun l => ?_⟩
  · obtain ⟨r, h1, h2, h3⟩ := sorts_keys c UInt8.toNat (fun _ _ => UInt8.lt_iff_toNat_lt) id l
    have h3' : r.Pairwise (· ≤ ·) := h3.imp fun h => UInt8.le_iff_toNat_le.2 h
    exact ⟨r, h1, h2, h3', eq_of_perm_of_sorted h3' (sortAsc_sorted l) (h2.trans (sortAsc_perm l).symm)⟩
  · obtain ⟨r, h1, h2, h3⟩ := sorts_keys c UInt16.toNat (fun _ _ => UInt16.lt_iff_toNat_lt) id l
    have h3' : r.Pairwise (· ≤ ·) := h3.imp fun h => UInt16.le_iff_toNat_le.2 h
    exact ⟨r, h1, h2, h3', eq_of_perm_of_sorted h3' (sortAsc_sorted l) (h2.trans (sortAsc_perm l).symm)⟩
  · obtain ⟨r, h1, h2, h3⟩ := sorts_keys c UInt32.toNat (fun _ _ => UInt32.lt_iff_toNat_lt) id l
    have h3' : r.Pairwise (· ≤ ·) := h3.imp fun h => UInt32.le_iff_toNat_le.2 h
    exact ⟨r, h1, h2, h3', eq_of_perm_of_sorted h3' (sortAsc_sorted l) (h2.trans (sortAsc_perm l).symm)⟩
  · obtain ⟨r, h1, h2, h3⟩ := sorts_keys c UInt32.toNat (fun _ _ => UInt32.lt_iff_toNat_lt) Child.parent l
    exact ⟨r, h1, h2, h3.imp fun h => UInt32.le_iff_toNat_le.2 h⟩

/-- The sorting happens in the memory of the slice: afterwards the slice reads as the ascending list, and every other
cell of memory is as before (other arrays, and what lies in the same array behind the slice). -/
theorem C89_in_place (alg : Nat → SortProg) (c : SortsNumbers alg) :
    (∀ (h : Heap UInt8) (s : Slice), h.Valid s → (alg s.len).runIn s h = .ok (h.sort s)) ∧
    (∀ (h : Heap UInt16) (s : Slice), h.Valid s → (alg s.len).runIn s h = .ok (h.sort s)) ∧
    (∀ (h : Heap UInt32) (s : Slice), h.Valid s → (alg s.len).runIn s h = .ok (h.sort s)) := by
  refine ⟨fun h s v => ?_, fun h s v => ?_, fun h s v => ?_⟩
  · obtain ⟨r, h1, -, -, rfl⟩ := (C89 alg c).1 (h.read s)
    rw [Heap.length_read v] at h1
    rw [runIn_eq _ _ v, h1]; rfl
  · obtain ⟨r, h1, -, -, rfl⟩ := (C89 alg c).2.1 (h.read s)
    rw [Heap.length_read v] at h1
    rw [runIn_eq _ _ v, h1]; rfl
  · obtain ⟨r, h1, -, -, rfl⟩ := (C89 alg c).2.2.1 (h.read s)
    rw [Heap.length_read v] at h1
    rw [runIn_eq _ _ v, h1]; rfl

/-- What "sorted in place" says cell by cell. -/
theorem C89_cells {α : Type} [LE α] [DecidableRel (α := α) (· ≤ ·)] (h : Heap α) (s : Slice) (v : h.Valid s) :
    (h.sort s).read s = sortAsc (h.read s) ∧ (h.sort s).length = h.length ∧
    (∀ a, a ≠ s.arr → (h.sort s).getD a [] = h.getD a []) ∧
    ((h.sort s).getD s.arr []).drop s.len = (h.getD s.arr []).drop s.len ∧
    ((h.sort s).getD s.arr []).length = (h.getD s.arr []).length := by
  have hl : (sortAsc (h.read s)).length = s.len := by rw [length_sortAsc, Heap.length_read v]
  refine ⟨read_write v hl, by simp [Heap.sort, Heap.write], fun a ha => Heap.getD_set_ne (Ne.symm ha), ?_, ?_⟩
  · unfold Heap.sort Heap.write
    rw [Heap.getD_set_self v.1, List.drop_append_of_le_length (by omega), List.drop_of_length_le (by omega), List.nil_append]
  · unfold Heap.sort Heap.write
    rw [Heap.getD_set_self v.1, List.length_append, hl, List.length_drop]
    have := v.2
    omega

/-- Even an algorithm that does not sort loses nothing and adds nothing: swapping only reorders. -/
theorem C89_no_loss {α β : Type} [LT β] [DecidableLT β] (key : α → β) (p : SortProg) (l r : List α)
    (h : p.run key l = .ok r) : r.Perm l := run_perm key p h

/-- The condition on the algorithm can be met: insertion sort, which package `sort` uses for short data, meets it. -/
theorem C89_insertion : SortsNumbers insertionProg := by
  intro l
  cases l with
  | nil => exact ⟨[], rfl, List.Pairwise.nil⟩
  | cons x S =>
    obtain ⟨r, h1, h2⟩ := insertRounds_run S [x] (by simp)
    exact ⟨r, by simpa [insertionProg] using h2, h1⟩

/-- Not every algorithm does. -/
example : ¬ SortsNumbers fun _ => .done := by
  intro h
  obtain ⟨r, h1, h2⟩ := h [2, 1]
  cases h1
  simp at h2

example : (insertionProg 4).run id ([3, 1, 2, 1] : List UInt8) = .ok [1, 1, 2, 3] := by decide

example : (insertionProg 3).runIn ⟨1, 3⟩ ([[9], [3, 1, 2, 0], []] : Heap UInt32) = .ok [[9], [1, 2, 3, 0], []] := by decide

example : (insertionProg 3).run (·.parent) ([⟨7, 0⟩, ⟨2, 1⟩, ⟨7, 2⟩] : List Child) = .ok [⟨2, 1⟩, ⟨7, 0⟩, ⟨7, 2⟩] := by
  decide

end Verif
