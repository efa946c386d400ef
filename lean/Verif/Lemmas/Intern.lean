import Verif.Lemmas.Basic

/-!
# Interning of sets in tables grouped by length, over plain natural number positions

All table types of the repository are instances of this after packing the position into an id.
-/

namespace Verif

set_option linter.unusedSectionVars false

section
variable {α : Type} [DecidableEq α] [LE α] [DecidableRel (α := α) (· ≤ ·)]

/-- Interning into one table. -/
def gTable (t : List (List α)) (x : List α) : List (List α) × Nat :=
  match findSet t (sortAsc x) with
  | some i => (t, i)
  | none => (t ++ [sortAsc x], t.length)

/-- Interning into the table for the length of `x`. -/
def gIndex (c : List (List (List α))) (x : List α) : List (List (List α)) × (Nat × Nat) :=
  let col := x.length - 1
  let c := extendTables c col
  let r := gTable (c.getD col []) x
  (c.set col r.1, (col, r.2))

/-- Lookup by position. -/
def gGet (c : List (List (List α))) (p : Nat × Nat) : Option (List α) := (c.getD p.1 [])[p.2]?

/-- Tables hold sorted sets of the right length, without repetition. -/
def TabInv (n : Nat) (t : List (List α)) : Prop :=
  t.Nodup ∧ ∀ s ∈ t, s.length = n ∧ s.Pairwise (· ≤ ·)

/-- The invariant of a list of tables. -/
def GInv (c : List (List (List α))) : Prop := ∀ i, TabInv (i + 1) (c.getD i [])

theorem GInv_nil : GInv ([] : List (List (List α))) := by
  intro i; simp [TabInv]

theorem gTable_prefix (t : List (List α)) (x : List α) : ∃ e, (gTable t x).1 = t ++ e := by
  unfold gTable; split
  · exact ⟨[], by simp⟩
  · exact ⟨[sortAsc x], rfl⟩

theorem gTable_get (t : List (List α)) (x : List α) :
    (gTable t x).1[(gTable t x).2]? = some (sortAsc x) := by
  unfold gTable; split
  · rename_i h; exact findSet_some h
  · simp

theorem gTable_lt (t : List (List α)) (x : List α) : (gTable t x).2 < (gTable t x).1.length :=
  (List.getElem?_eq_some_iff.1 (gTable_get t x)).1

theorem gTable_length_le (t : List (List α)) (x : List α) :
    (gTable t x).1.length ≤ t.length + 1 := by
  unfold gTable; split <;> simp

theorem gTable_idem {t : List (List α)} {x : List α} (h : sortAsc x ∈ t) : (gTable t x).1 = t := by
  obtain ⟨i, hi⟩ := findSet_of_mem h
  simp [gTable, hi]

theorem gTable_mem {t : List (List α)} {x s : List α} :
    s ∈ (gTable t x).1 ↔ s ∈ t ∨ s = sortAsc x := by
  unfold gTable; split
  · rename_i h
    have := List.mem_of_getElem? (findSet_some h)
    constructor
    · exact Or.inl
    · rintro (h | rfl); exact h; exact this
  · simp

section
variable [Std.Total (α := α) (· ≤ ·)] [IsTrans α (· ≤ ·)]

theorem TabInv_gTable {n : Nat} {t : List (List α)} (h : TabInv n t) {x : List α}
    (hx : x.length = n) : TabInv n (gTable t x).1 := by
  unfold gTable; split
  · exact h
  · rename_i hn
    refine ⟨?_, ?_⟩
    · rw [List.nodup_append]
      refine ⟨h.1, by simp, ?_⟩
      intro a ha b hb
      rw [List.mem_singleton] at hb
      subst hb
      rintro rfl
      exact findSet_none.1 hn ha
    · intro s hs
      rw [List.mem_append, List.mem_singleton] at hs
      rcases hs with hs | rfl
      · exact h.2 s hs
      · exact ⟨by rw [length_sortAsc, hx], sortAsc_sorted x⟩

theorem getD_set {β : Type} (l : List (List β)) (i j : Nat) (x : List β) (h : i < l.length) :
    (l.set i x).getD j [] = if i = j then x else l.getD j [] := by
  simp only [List.getD_eq_getElem?_getD, List.getElem?_set]
  by_cases hij : i = j
  · subst hij; simp [h]
  · simp [hij]

theorem gIndex_getD (c : List (List (List α))) (x : List α) (j : Nat) :
    (gIndex c x).1.getD j [] =
      if x.length - 1 = j then (gTable (c.getD j []) x).1 else c.getD j [] := by
  simp only [gIndex]
  rw [getD_set _ _ _ _ (length_extendTables _ _)]
  by_cases h : x.length - 1 = j
  · subst h; rw [if_pos rfl, if_pos rfl, getD_extendTables]
  · rw [if_neg h, if_neg h, getD_extendTables]

theorem gIndex_snd (c : List (List (List α))) (x : List α) :
    (gIndex c x).2 = (x.length - 1, (gTable (c.getD (x.length - 1) []) x).2) := by
  simp only [gIndex, getD_extendTables]

theorem GInv_gIndex {c : List (List (List α))} (h : GInv c) {x : List α} (hx : x ≠ []) :
    GInv (gIndex c x).1 := by
  intro i
  rw [gIndex_getD]
  split
  · rename_i hi
    apply TabInv_gTable (h i)
    have : x.length ≠ 0 := by simpa using hx
    omega
  · exact h i

theorem gGet_gIndex_self (c : List (List (List α))) (x : List α) :
    gGet (gIndex c x).1 (gIndex c x).2 = some (sortAsc x) := by
  unfold gGet
  rw [gIndex_snd, gIndex_getD]
  simp only [if_true]
  exact gTable_get _ _

theorem gGet_gIndex_mono {c : List (List (List α))} {x s : List α} {p : Nat × Nat}
    (h : gGet c p = some s) : gGet (gIndex c x).1 p = some s := by
  unfold gGet at *
  rw [gIndex_getD]
  split
  · rename_i hi
    obtain ⟨e, he⟩ := gTable_prefix (c.getD p.1 []) x
    rw [he, List.getElem?_append_left (List.getElem?_eq_some_iff.1 h).1, h]
  · exact h

theorem gGet_inj {c : List (List (List α))} (hc : GInv c) {p q : Nat × Nat} {s : List α}
    (hp : gGet c p = some s) (hq : gGet c q = some s) : p = q := by
  unfold gGet at *
  have h1 := ((hc p.1).2 s (List.mem_of_getElem? hp)).1
  have h2 := ((hc q.1).2 s (List.mem_of_getElem? hq)).1
  have h3 : p.1 = q.1 := by omega
  rw [← h3] at hq
  exact Prod.ext h3 (nodup_getElem?_inj (hc p.1).1 hp hq)

theorem gGet_sorted {c : List (List (List α))} (hc : GInv c) {p : Nat × Nat} {s : List α}
    (hp : gGet c p = some s) : s.Pairwise (· ≤ ·) ∧ s.length = p.1 + 1 :=
  ⟨((hc p.1).2 s (List.mem_of_getElem? hp)).2, ((hc p.1).2 s (List.mem_of_getElem? hp)).1⟩

theorem gIndex_fst_length (c : List (List (List α))) (x : List α) :
    (gIndex c x).1.length = max c.length (x.length - 1 + 1) := by
  simp [gIndex, length_extendTables_eq]

/-- A set that is present is found and nothing changes (but for growing to its column, which exists). -/
theorem gIndex_of_present {c : List (List (List α))} (hc : GInv c) {x : List α} (hx : x ≠ [])
    {p : Nat × Nat} (hp : gGet c p = some (sortAsc x)) : gIndex c x = (c, p) := by
  have hl := (gGet_sorted hc hp).2
  rw [length_sortAsc] at hl
  have hx' : x.length ≠ 0 := by simpa using hx
  have hcol : x.length - 1 = p.1 := by omega
  have hlt : p.1 < c.length := by
    by_contra hcon
    unfold gGet at hp
    have hn : c[p.1]? = none := List.getElem?_eq_none (by omega)
    simp [hn] at hp
  have hext : extendTables c p.1 = c := by
    unfold extendTables
    rw [if_neg (by omega)]
  have hmem : sortAsc x ∈ c.getD p.1 [] := List.mem_of_getElem? hp
  have hfst : (gIndex c x).1 = c := by
    simp only [gIndex, hcol, hext]
    rw [gTable_idem hmem]
    rw [List.getD_eq_getElem?_getD, List.getElem?_eq_getElem hlt]
    simp
  have hself := gGet_gIndex_self c x
  rw [hfst] at hself
  exact Prod.ext hfst (gGet_inj hc hself hp)

end
end

end Verif
