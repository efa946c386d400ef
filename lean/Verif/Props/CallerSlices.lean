import Verif.Lemmas.HeapIndex
import Verif.Props.Capacity

/-!
# C52 — set tables and the slices of their callers

Slices are references to arrays (`Model/Heap.lean`); a set table keeps the slice it is given (`hTableIndex`,
`Model/HeapIndex.lean`). `h.write s ys` is a caller assigning to all elements of its slice `s`.
-/

namespace Verif

variable {α : Type}

/-- Writing a whole slice. -/
theorem Heap.read_write {h : Heap α} {s : Slice} (v : h.Valid s) {ys : List α} (hy : ys.length = s.len) :
    (h.write s ys).read s = ys := by
  unfold Heap.write Heap.read
  rw [Heap.getD_set_self v.1, List.take_append_of_le_length (by omega), List.take_of_length_le (by omega)]

theorem Heap.read_write_ne {h : Heap α} {s t : Slice} (ne : t.arr ≠ s.arr) (ys : List α) :
    (h.write s ys).read t = h.read t := by
  unfold Heap.write Heap.read
  rw [Heap.getD_set_ne (Ne.symm ne)]

theorem Heap.valid_write {h : Heap α} {s : Slice} (v : h.Valid s) {ys : List α} (hy : ys.length = s.len) :
    (h.write s ys).Valid s := by
  unfold Heap.write Heap.Valid
  refine ⟨by rw [List.length_set]; exact v.1, ?_⟩
  rw [Heap.getD_set_self v.1, List.length_append]
  omega

variable [LE α] [DecidableRel (α := α) (· ≤ ·)]

theorem Heap.read_sort {h : Heap α} {s : Slice} (v : h.Valid s) : (h.sort s).read s = sortAsc (h.read s) :=
  Heap.read_write v (by rw [length_sortAsc, Heap.length_read v])

variable [DecidableEq α]

/-- C52 fails for every table: a set that is new to the table is stored as the caller's own slice. Whatever the
caller writes into its slice afterwards is what `Get` returns for the id `Index` gave. (Before that, `Get` returns
the sorted set.) -/
theorem not_C52 (h : Heap α) (t : List Slice) (item : Slice) (v : h.Valid item)
    (new : ∀ s ∈ t, (h.sort item).read s ≠ sortAsc (h.read item)) (ys : List α) (hy : ys.length = item.len) :
    let r := hTableIndex h t item
    ∃ s, hTableGet r.2.1 r.2.2 = some s ∧ r.1.read s = sortAsc (h.read item) ∧ (r.1.write item ys).read s = ys := by
  intro r
  have hr := Heap.read_sort v
  have hn : t.findIdx? (fun existed => equalTo ((h.sort item).read existed) ((h.sort item).read item)) = none := by
    rw [List.findIdx?_eq_none_iff]
    intro s hs
    cases e : equalTo ((h.sort item).read s) ((h.sort item).read item) with
    | false => rfl
    | true =>
      rw [equalTo_iff, hr] at e
      exact absurd e (new s hs)
  have er : r = (h.sort item, t ++ [item], t.length) := by
    simp only [r, hTableIndex]
    rw [hn]
  rw [er]
  refine ⟨item, by simp [hTableGet], hr, ?_⟩
  exact Heap.read_write (Heap.valid_write v (by rw [length_sortAsc, Heap.length_read v])) hy

/-- `Index` also reorders the slice of its caller. -/
theorem C52_sorts (h : Heap α) (t : List Slice) (item : Slice) (v : h.Valid item) :
    (hTableIndex h t item).1.read item = sortAsc (h.read item) := by
  have hr := Heap.read_sort v
  rw [(hTableIndex_spec h t item (h.read item) hr).1]
  exact hr

/-- The part of C52 that holds. If the caller's slice shares no array with the sets stored before, no write to it
changes them; and if an equal set is stored, the caller's slice is not kept at all. -/
theorem C52_partial (h : Heap α) (t : List Slice) (item : Slice) (v : h.Valid item)
    (apart : ∀ s ∈ t, s.arr ≠ item.arr) (ys : List α) :
    let r := hTableIndex h t item
    (∀ i s, hTableGet t i = some s → hTableGet r.2.1 i = some s ∧ (r.1.write item ys).read s = h.read s) ∧
    ((∃ s ∈ t, h.read s = sortAsc (h.read item)) →
      r.2.1 = t ∧ ∃ s, hTableGet t r.2.2 = some s ∧ (r.1.write item ys).read s = sortAsc (h.read item)) := by
  intro r
  have hr := Heap.read_sort v
  have hsame : ∀ s ∈ t, (h.sort item).read s = h.read s := fun s hs => Heap.read_write_ne (apart s hs) _
  obtain ⟨e1, e2, e3⟩ := hTableIndex_spec h t item (h.read item) hr
  have hcases : r.2.1 = t ∨ r.2.1 = t ++ [item] := by
    simp only [r, hTableIndex]
    split
    · exact .inl rfl
    · exact .inr rfl
  refine ⟨?_, ?_⟩
  · intro i s hs
    have hm : s ∈ t := List.mem_of_getElem? hs
    refine ⟨?_, ?_⟩
    · rcases hcases with e | e
      · rw [e]; exact hs
      · rw [e]
        unfold hTableGet at hs ⊢
        rw [List.getElem?_append_left (List.getElem?_eq_some_iff.1 hs).1]
        exact hs
    · rw [Heap.read_write_ne (apart s hm), show r.1 = h.sort item from e1]
      exact hsame s hm
  · rintro ⟨s, hs, e⟩
    have hmap : t.map (h.sort item).read = t.map h.read := List.map_congr_left hsame
    rw [hmap] at e2
    have hmem : sortAsc (h.read item) ∈ t.map h.read := List.mem_map.2 ⟨s, hs, e⟩
    have hidem := gTable_idem hmem
    have ht : r.2.1 = t := by
      rcases hcases with e | e
      · exact e
      · exfalso
        have l := congrArg List.length (congrArg Prod.fst e2)
        rw [hidem] at l
        simp only [List.length_map] at l
        rw [show (hTableIndex h t item).2.1 = r.2.1 from rfl, e] at l
        simp at l
    refine ⟨ht, ?_⟩
    have hg := gTable_get (t.map h.read) (h.read item)
    rw [hidem, ← congrArg Prod.snd e2] at hg
    simp only [List.getElem?_map] at hg
    cases e4 : t[r.2.2]? with
    | none => rw [show (hTableIndex h t item).2.2 = r.2.2 from rfl, e4] at hg; cases hg
    | some u =>
      rw [show (hTableIndex h t item).2.2 = r.2.2 from rfl, e4] at hg
      refine ⟨u, e4, ?_⟩
      have hm : u ∈ t := List.mem_of_getElem? e4
      rw [Heap.read_write_ne (apart u hm), show r.1 = h.sort item from e1, hsame u hm]
      exact Option.some.inj hg

/-- C52, exactly: let the caller's slice share no array with the sets stored before. Then what `Get` returns for the id is
safe from every later write of the caller if and only if an equal set was stored before, or the set is empty. -/
theorem C52_exact [Nontrivial α] (h : Heap α) (t : List Slice) (item : Slice) (v : h.Valid item)
    (apart : ∀ s ∈ t, s.arr ≠ item.arr) :
    let r := hTableIndex h t item
    (∀ ys : List α, ys.length = item.len →
      ∃ s, hTableGet r.2.1 r.2.2 = some s ∧ (r.1.write item ys).read s = sortAsc (h.read item)) ↔
    (∃ s ∈ t, h.read s = sortAsc (h.read item)) ∨ item.len = 0 := by
  intro r
  have hsame : ∀ s ∈ t, (h.sort item).read s = h.read s := fun s hs => Heap.read_write_ne (apart s hs) _
  constructor
  · intro hall
    by_contra hn
    rw [not_or] at hn
    obtain ⟨hnew, hlen⟩ := hn
    have new : ∀ s ∈ t, (h.sort item).read s ≠ sortAsc (h.read item) := by
      intro s hs e
      rw [hsame s hs] at e
      exact hnew ⟨s, hs, e⟩
    obtain ⟨x, y, hxy⟩ := exists_pair_ne α
    have key : ∀ ys : List α, ys.length = item.len → ys = sortAsc (h.read item) := by
      intro ys hy
      obtain ⟨s, hs, e⟩ := hall ys hy
      obtain ⟨s', hs', _, e'⟩ := not_C52 h t item v new ys hy
      rw [show s' = s from Option.some.inj (hs'.symm.trans hs)] at e'
      exact e'.symm.trans e
    have e := (key (List.replicate item.len x) (List.length_replicate ..)).trans
      (key (List.replicate item.len y) (List.length_replicate ..)).symm
    rw [List.replicate_inj] at e
    rcases e.2 with e | e
    · exact hlen e
    · exact hxy e
  · rintro (hs | hlen) ys hy
    · obtain ⟨e, s, h1, h2⟩ := (C52_partial h t item v apart ys).2 hs
      exact ⟨s, by rw [e]; exact h1, h2⟩
    · by_cases hs : ∃ s ∈ t, h.read s = sortAsc (h.read item)
      · obtain ⟨e, s, h1, h2⟩ := (C52_partial h t item v apart ys).2 hs
        exact ⟨s, by rw [e]; exact h1, h2⟩
      · have new : ∀ s ∈ t, (h.sort item).read s ≠ sortAsc (h.read item) := by
          intro s hm e
          rw [hsame s hm] at e
          exact hs ⟨s, hm, e⟩
        obtain ⟨s, h1, _, h3⟩ := not_C52 h t item v new ys hy
        refine ⟨s, h1, h3.trans ?_⟩
        have l1 : ys.length = 0 := hy.trans hlen
        have l2 : (sortAsc (h.read item)).length = 0 := by rw [length_sortAsc, Heap.length_read v, hlen]
        rw [List.length_eq_zero_iff.1 l1, List.length_eq_zero_iff.1 l2]

/-- The word index itself is not affected: it hands its tables only slices it has made itself and never writes to
them again. With sets and collections as references, every history of calls leads to the same index as with values.
This is what justifies treating them as values everywhere else. -/
theorem C52_index {h : List Op} {ix : Index} (r : Run h ix) : (HIndex.execAll h).value = ix := (HIndex.run_sim r).2

/-! ## The hypotheses are met -/

/-- A table with the set {1, 2}; the caller passes {5, 3}, gets id 1, and turns the stored set into {9, 9}. -/
example : let h : Heap UInt8 := [[1, 2], [5, 3]]
    let r := hTableIndex h [⟨0, 2⟩] ⟨1, 2⟩
    r = ([[1, 2], [3, 5]], [⟨0, 2⟩, ⟨1, 2⟩], 1) ∧ (r.1.write ⟨1, 2⟩ [9, 9]).read ⟨1, 2⟩ = [9, 9] := by decide

example : ∃ (h : Heap UInt8) (t : List Slice) (item : Slice), h.Valid item ∧
    (∀ s ∈ t, (h.sort item).read s ≠ sortAsc (h.read item)) ∧ t ≠ [] ∧ h.read item = [5, 3] :=
  ⟨[[1, 2], [5, 3]], [⟨0, 2⟩], ⟨1, 2⟩, ⟨by decide, by decide⟩, by decide, by decide, by decide⟩

/-- Both sides of `C52_exact` occur: the set {3, 5} is new to the table, the set {1, 2} is not. -/
example : (∀ s ∈ [(⟨0, 2⟩ : Slice)], s.arr ≠ 1) ∧
    ¬ (∃ s ∈ [(⟨0, 2⟩ : Slice)], Heap.read ([[1, 2], [5, 3]] : Heap UInt8) s = sortAsc [5, 3]) ∧
    (∃ s ∈ [(⟨0, 2⟩ : Slice)], Heap.read ([[1, 2], [2, 1]] : Heap UInt8) s = sortAsc [2, 1]) := by decide

/-- The same table, a caller passing {2, 1}: present, not kept. -/
example : ∃ (h : Heap UInt8) (t : List Slice) (item : Slice), h.Valid item ∧ (∀ s ∈ t, s.arr ≠ item.arr) ∧
    ∃ s ∈ t, h.read s = sortAsc (h.read item) :=
  ⟨[[1, 2], [2, 1]], [⟨0, 2⟩], ⟨1, 2⟩, ⟨by decide, by decide⟩, by decide, ⟨0, 2⟩, by decide, by decide⟩

/-- With references, the sample history shares nothing that matters. -/
example : (HIndex.execAll sampleHistory).value = execAll sampleHistory := C52_index (sample_runs)

end Verif
