import Verif.Lemmas.Intern
import Verif.Lemmas.Pack
import Verif.Model.TagSets

/-! # Helper lemmas: sequences of interning calls over natural number positions -/

namespace Verif

set_option linter.unusedSectionVars false

section
variable {α : Type} [DecidableEq α] [LE α] [DecidableRel (α := α) (· ≤ ·)]

/-- Histories of one table. -/
inductive TRun : List (List α) → List (List α × Nat) → Prop
  | nil : TRun [] []
  | index {t h} (x : List α) : TRun t h → TRun (gTable t x).1 (h ++ [(x, (gTable t x).2)])

/-- Histories of a list of tables. -/
inductive GRun : List (List (List α)) → List (List α × (Nat × Nat)) → Prop
  | nil : GRun [] []
  | index {c h} (x : List α) (hx : x ≠ []) :
      GRun c h → GRun (gIndex c x).1 (h ++ [(x, (gIndex c x).2)])

variable [Std.Total (α := α) (· ≤ ·)] [IsTrans α (· ≤ ·)] [Std.Antisymm (α := α) (· ≤ ·)]

theorem TRun.nodup {t : List (List α)} {h} (r : TRun t h) : t.Nodup := by
  induction r with
  | nil => simp
  | @index t h x _ ih =>
    unfold gTable; split
    · exact ih
    · rename_i hn
      rw [List.nodup_append]
      refine ⟨ih, by simp, ?_⟩
      intro a ha b hb
      rw [List.mem_singleton] at hb
      subst hb
      rintro rfl
      exact findSet_none.1 hn ha

theorem TRun.mem_iff {t : List (List α)} {h} (r : TRun t h) (s : List α) :
    s ∈ t ↔ ∃ e ∈ h, s = sortAsc e.1 := by
  induction r with
  | nil => simp
  | @index t h x _ ih =>
    rw [gTable_mem, ih]
    simp only [List.mem_append, List.mem_singleton]
    constructor
    · rintro (⟨e, he, hs⟩ | rfl)
      · exact ⟨e, Or.inl he, hs⟩
      · exact ⟨_, Or.inr rfl, rfl⟩
    · rintro ⟨e, he | rfl, hs⟩
      · exact Or.inl ⟨e, he, hs⟩
      · exact Or.inr hs

theorem TRun.get {t : List (List α)} {h} (r : TRun t h) :
    ∀ e ∈ h, t[e.2]? = some (sortAsc e.1) := by
  induction r with
  | nil => simp
  | @index t h x _ ih =>
    intro e he
    rw [List.mem_append, List.mem_singleton] at he
    rcases he with he | rfl
    · obtain ⟨ext, hext⟩ := gTable_prefix t x
      have := ih e he
      rw [hext, List.getElem?_append_left (List.getElem?_eq_some_iff.1 this).1, this]
    · exact gTable_get t x

theorem GRun.inv {c : List (List (List α))} {h} (r : GRun c h) : GInv c := by
  induction r with
  | nil => exact GInv_nil
  | index x hx _ ih => exact GInv_gIndex ih hx

theorem GRun.get {c : List (List (List α))} {h} (r : GRun c h) :
    ∀ e ∈ h, gGet c e.2 = some (sortAsc e.1) := by
  induction r with
  | nil => simp
  | @index c h x hx _ ih =>
    intro e he
    rw [List.mem_append, List.mem_singleton] at he
    rcases he with he | rfl
    · exact gGet_gIndex_mono (ih e he)
    · exact gGet_gIndex_self c x

theorem GRun.mem_iff {c : List (List (List α))} {h} (r : GRun c h) (i : Nat) (s : List α) :
    s ∈ c.getD i [] ↔ ∃ e ∈ h, s = sortAsc e.1 ∧ e.1.length = i + 1 := by
  induction r with
  | nil => simp
  | @index c h x hx _ ih =>
    have hx' : x.length ≠ 0 := by simpa using hx
    rw [gIndex_getD]
    simp only [List.mem_append, List.mem_singleton]
    split
    · rename_i hi
      rw [gTable_mem, ih]
      constructor
      · rintro (⟨e, he, hs⟩ | rfl)
        · exact ⟨e, Or.inl he, hs⟩
        · exact ⟨(x, (gIndex c x).2), Or.inr rfl, rfl, by show x.length = i + 1; clear ih; omega⟩
      · rintro ⟨e, he | rfl, hs⟩
        · exact Or.inl ⟨e, he, hs⟩
        · exact Or.inr hs.1
    · rename_i hi
      rw [ih]
      constructor
      · rintro ⟨e, he, hs⟩
        exact ⟨e, Or.inl he, hs⟩
      · rintro ⟨e, he | rfl, hs⟩
        · exact ⟨e, he, hs⟩
        · exfalso; simp at hs; omega

theorem GRun.ne_nil {c : List (List (List α))} {h} (r : GRun c h) : ∀ e ∈ h, e.1 ≠ [] := by
  induction r with
  | nil => simp
  | index x hx _ ih =>
    intro e he
    rw [List.mem_append, List.mem_singleton] at he
    rcases he with he | rfl
    · exact ih e he
    · exact hx

theorem GRun.col {c : List (List (List α))} {h} (r : GRun c h) :
    ∀ e ∈ h, e.1.length = e.2.1 + 1 := by
  intro e he
  have := (gGet_sorted r.inv (r.get e he)).2
  rwa [length_sortAsc] at this

theorem gGet_lt {c : List (List (List α))} {p : Nat × Nat} {s : List α} (h : gGet c p = some s) :
    p.2 < (c.getD p.1 []).length := (List.getElem?_eq_some_iff.1 h).1

theorem gGet_col_lt {c : List (List (List α))} {p : Nat × Nat} {s : List α}
    (h : gGet c p = some s) : p.1 < c.length := by
  by_contra hcon
  unfold gGet at h
  have hn : c[p.1]? = none := List.getElem?_eq_none (by omega)
  simp [hn] at h

theorem gGet_mem {c : List (List (List α))} {p : Nat × Nat} {s : List α} (h : gGet c p = some s) :
    s ∈ c.getD p.1 [] := List.mem_of_getElem? h

/-- A duplicate free list of sorted sets is no longer than any list covering it up to order. -/
theorem length_le_of_cover {t S : List (List α)} (hn : t.Nodup)
    (hs : ∀ s ∈ t, ∃ c, s = sortAsc c ∧ ∃ r ∈ S, c.Perm r) : t.length ≤ S.length := by
  have hsub : t ⊆ S.map sortAsc := by
    intro s h
    obtain ⟨c, rfl, r, hr, hp⟩ := hs s h
    rw [List.mem_map]
    exact ⟨r, hr, (sortAsc_eq_iff_perm.2 hp).symm⟩
  have := (List.subperm_of_subset hn hsub).length_le
  simpa using this

end

end Verif
