import Verif.Lemmas.Runs
import Verif.Spec.SetTableRuns

/-! # Helper lemmas for C27-C29, C31, C33 -/

namespace Verif

set_option linter.unusedSectionVars false

/-! ## Reduction to natural number positions -/

theorem Table8.index_eq (t : List (List UInt8)) {s : List UInt8} (hs : s ≠ []) :
    Table8.index t s = .ok ((gTable t s).1, UInt8.ofNat (gTable t s).2) := by
  have : s.length ≠ 0 := by simpa using hs
  simp only [Table8.index, Table8.find, this, if_false, gTable]
  cases findSet t (sortAsc s) <;> rfl

theorem Table16.index_eq (t : List (List UInt16)) {s : List UInt16} (hs : s ≠ []) :
    Table16.index t s = .ok ((gTable t s).1, UInt16.ofNat (gTable t s).2) := by
  have : s.length ≠ 0 := by simpa using hs
  simp only [Table16.index, Table16.find, this, if_false, gTable]
  cases findSet t (sortAsc s) <;> rfl

theorem getD_of_lt {β : Type} (l : List (List β)) {i : Nat} (h : i < l.length) :
    l[i]? = some (l.getD i []) := by
  simp [h]

theorem Collection8.index_eq (c : List (List (List UInt8))) {s : List UInt8} (hs : s ≠ []) :
    Collection8.index c s = .ok ((gIndex c s).1,
      combine8 (UInt8.ofNat (gIndex c s).2.1) (UInt8.ofNat (gIndex c s).2.2)) := by
  have : s.length ≠ 0 := by simpa using hs
  simp only [Collection8.index, this, if_false]
  rw [getD_of_lt _ (length_extendTables c (s.length - 1))]
  simp only [Table8.index_eq _ hs]
  rfl

theorem Collection16.index_eq (c : List (List (List UInt16))) {s : List UInt16} (hs : s ≠ []) :
    Collection16.index c s = .ok ((gIndex c s).1,
      combine16 (UInt16.ofNat (gIndex c s).2.1) (UInt16.ofNat (gIndex c s).2.2)) := by
  have : s.length ≠ 0 := by simpa using hs
  simp only [Collection16.index, this, if_false]
  rw [getD_of_lt _ (length_extendTables c (s.length - 1))]
  simp only [Table16.index_eq _ hs]
  rfl

theorem Table8.Run.toTRun {t h} (r : Table8.Run t h) :
    (∃ h', TRun t h' ∧ h = h'.map fun e => (e.1, UInt8.ofNat e.2)) := by
  induction r with
  | nil => exact ⟨[], TRun.nil, rfl⟩
  | @index t t' h s id _ he ih =>
    obtain ⟨h', hr, hh⟩ := ih
    have hs : s ≠ [] := by rintro rfl; simp [Table8.index] at he
    rw [Table8.index_eq t hs] at he
    simp only [Out.ok.injEq, Prod.mk.injEq] at he
    obtain ⟨rfl, rfl⟩ := he
    exact ⟨_, TRun.index s hr, by simp [hh]⟩

theorem Table16.Run.toTRun {t h} (r : Table16.Run t h) :
    (∃ h', TRun t h' ∧ h = h'.map fun e => (e.1, UInt16.ofNat e.2)) := by
  induction r with
  | nil => exact ⟨[], TRun.nil, rfl⟩
  | @index t t' h s id _ he ih =>
    obtain ⟨h', hr, hh⟩ := ih
    have hs : s ≠ [] := by rintro rfl; simp [Table16.index] at he
    rw [Table16.index_eq t hs] at he
    simp only [Out.ok.injEq, Prod.mk.injEq] at he
    obtain ⟨rfl, rfl⟩ := he
    exact ⟨_, TRun.index s hr, by simp [hh]⟩

theorem Collection8.Run.toGRun {c h} (r : Collection8.Run c h) :
    ∃ h', GRun c h' ∧ h = h'.map fun e =>
      (e.1, combine8 (UInt8.ofNat e.2.1) (UInt8.ofNat e.2.2)) := by
  induction r with
  | nil => exact ⟨[], GRun.nil, rfl⟩
  | @index t t' h s id _ he ih =>
    obtain ⟨h', hr, hh⟩ := ih
    have hs : s ≠ [] := by rintro rfl; simp [Collection8.index] at he
    rw [Collection8.index_eq t hs] at he
    simp only [Out.ok.injEq, Prod.mk.injEq] at he
    obtain ⟨rfl, rfl⟩ := he
    exact ⟨_, GRun.index s hs hr, by simp [hh]⟩

theorem Collection16.Run.toGRun {c h} (r : Collection16.Run c h) :
    ∃ h', GRun c h' ∧ h = h'.map fun e =>
      (e.1, combine16 (UInt16.ofNat e.2.1) (UInt16.ofNat e.2.2)) := by
  induction r with
  | nil => exact ⟨[], GRun.nil, rfl⟩
  | @index t t' h s id _ he ih =>
    obtain ⟨h', hr, hh⟩ := ih
    have hs : s ≠ [] := by rintro rfl; simp [Collection16.index] at he
    rw [Collection16.index_eq t hs] at he
    simp only [Out.ok.injEq, Prod.mk.injEq] at he
    obtain ⟨rfl, rfl⟩ := he
    exact ⟨_, GRun.index s hs hr, by simp [hh]⟩

section
variable {α κ : Type} [DecidableEq α] [LE α] [DecidableRel (α := α) (· ≤ ·)]
variable [Std.Total (α := α) (· ≤ ·)] [IsTrans α (· ≤ ·)] [Std.Antisymm (α := α) (· ≤ ·)]

theorem TRun.length_le {t : List (List α)} {h' : List (List α × Nat)} (r : TRun t h')
    {pack : Nat → κ} {n : Nat}
    (hn : AtMostDifferent n (h'.map fun e => (e.1, pack e.2))) : t.length ≤ n := by
  obtain ⟨S, hS, hc⟩ := hn
  refine le_trans (length_le_of_cover r.nodup ?_) hS
  intro s hs
  obtain ⟨e, he, rfl⟩ := (r.mem_iff s).1 hs
  exact ⟨e.1, rfl, hc _ (List.mem_map.2 ⟨e, he, rfl⟩)⟩

/-- The interning laws of one table, given that packing is injective on the positions in use. -/
theorem TRun.interns {t : List (List α)} {h' : List (List α × Nat)} (r : TRun t h')
    (pack : Nat → κ) (got : κ → List α → Prop) (found : List α → κ → Prop)
    (hinj : ∀ i j, i < t.length → j < t.length → pack i = pack j → i = j)
    (hgot : ∀ i r, i < t.length → (got (pack i) r ↔ t[i]? = some r))
    (hgot' : ∀ id r, got id r → r ∈ t)
    (hfound : ∀ r id, found r id ↔ ∃ i, findSet t r = some i ∧ id = pack i) :
    Interns got found (h'.map fun e => (e.1, pack e.2)) := by
  have hget := r.get
  have hlt : ∀ e ∈ h', e.2 < t.length := fun e he => (List.getElem?_eq_some_iff.1 (hget e he)).1
  constructor
  · intro s id hm
    obtain ⟨e, he, heq⟩ := List.mem_map.1 hm
    obtain ⟨rfl, rfl⟩ := Prod.mk.inj heq
    exact ⟨sortAsc e.1, (hgot _ _ (hlt e he)).2 (hget e he), sortAsc_perm _, sortAsc_sorted _⟩
  · intro s id q hm hp hsort
    obtain ⟨e, he, heq⟩ := List.mem_map.1 hm
    obtain ⟨rfl, rfl⟩ := Prod.mk.inj heq
    have hq : q = sortAsc e.1 := eq_of_perm_of_sorted hsort (sortAsc_sorted _) (hp.trans (sortAsc_perm _).symm)
    subst hq
    exact (hfound _ _).2 ⟨e.2, findSet_eq_of_nodup r.nodup (hget e he), rfl⟩
  · intro s id s' id' hm hm'
    obtain ⟨e, he, heq⟩ := List.mem_map.1 hm
    obtain ⟨rfl, rfl⟩ := Prod.mk.inj heq
    obtain ⟨e', he', heq'⟩ := List.mem_map.1 hm'
    obtain ⟨rfl, rfl⟩ := Prod.mk.inj heq'
    constructor
    · intro hid
      have := hinj _ _ (hlt e he) (hlt e' he') hid
      have h1 := hget e he
      rw [this, hget e' he'] at h1
      exact (sortAsc_eq_iff_perm.1 (Option.some.inj h1)).symm
    · intro hp
      have h1 := hget e he
      rw [sortAsc_eq_iff_perm.2 hp] at h1
      rw [nodup_getElem?_inj r.nodup h1 (hget e' he')]
  · intro q id hf
    obtain ⟨i, hi, rfl⟩ := (hfound q id).1 hf
    have hmem := findSet_some hi
    obtain ⟨e, he, rfl⟩ := (r.mem_iff q).1 (List.mem_of_getElem? hmem)
    have := nodup_getElem?_inj r.nodup hmem (hget e he)
    subst this
    exact ⟨e.1, List.mem_map.2 ⟨e, he, rfl⟩, sortAsc_perm _⟩
  · intro q id hg
    obtain ⟨e, he, rfl⟩ := (r.mem_iff q).1 (hgot' id q hg)
    exact ⟨e.1, pack e.2, List.mem_map.2 ⟨e, he, rfl⟩, sortAsc_perm _⟩

/-- A position in use. -/
def Used (c : List (List (List α))) (p : Nat × Nat) : Prop := ∃ s, gGet c p = some s

/-- The interning laws of a list of tables, given that packing is injective on the positions in use. -/
theorem GRun.interns {c : List (List (List α))} {h' : List (List α × (Nat × Nat))} (r : GRun c h')
    (pack : Nat × Nat → κ) (got : κ → List α → Prop) (found : List α → κ → Prop)
    (hinj : ∀ p q, Used c p → Used c q → pack p = pack q → p = q)
    (hgot : ∀ p s, Used c p → (got (pack p) s ↔ gGet c p = some s))
    (hgot' : ∀ id s, got id s → ∃ p, gGet c p = some s)
    (hfound : ∀ s id, found s id ↔ ∃ p, gGet c p = some s ∧ id = pack p) :
    Interns got found (h'.map fun e => (e.1, pack e.2)) := by
  have hget := r.get
  have hused : ∀ e ∈ h', Used c e.2 := fun e he => ⟨_, hget e he⟩
  have hlog : ∀ s p, gGet c p = some s → ∃ e ∈ h', e.2 = p ∧ s = sortAsc e.1 := by
    intro s p hp
    obtain ⟨e, he, rfl, _⟩ := (r.mem_iff p.1 s).1 (gGet_mem hp)
    exact ⟨e, he, gGet_inj r.inv (hget e he) hp, rfl⟩
  constructor
  · intro s id hm
    obtain ⟨e, he, heq⟩ := List.mem_map.1 hm
    obtain ⟨rfl, rfl⟩ := Prod.mk.inj heq
    exact ⟨sortAsc e.1, (hgot _ _ (hused e he)).2 (hget e he), sortAsc_perm _, sortAsc_sorted _⟩
  · intro s id q hm hp hsort
    obtain ⟨e, he, heq⟩ := List.mem_map.1 hm
    obtain ⟨rfl, rfl⟩ := Prod.mk.inj heq
    have hq : q = sortAsc e.1 := eq_of_perm_of_sorted hsort (sortAsc_sorted _) (hp.trans (sortAsc_perm _).symm)
    subst hq
    exact (hfound _ _).2 ⟨e.2, hget e he, rfl⟩
  · intro s id s' id' hm hm'
    obtain ⟨e, he, heq⟩ := List.mem_map.1 hm
    obtain ⟨rfl, rfl⟩ := Prod.mk.inj heq
    obtain ⟨e', he', heq'⟩ := List.mem_map.1 hm'
    obtain ⟨rfl, rfl⟩ := Prod.mk.inj heq'
    constructor
    · intro hid
      have := hinj _ _ (hused e he) (hused e' he') hid
      have h1 := hget e he
      rw [this, hget e' he'] at h1
      exact (sortAsc_eq_iff_perm.1 (Option.some.inj h1)).symm
    · intro hp
      have h1 := hget e he
      rw [sortAsc_eq_iff_perm.2 hp] at h1
      rw [gGet_inj r.inv h1 (hget e' he')]
  · intro q id hf
    obtain ⟨p, hp, rfl⟩ := (hfound q id).1 hf
    obtain ⟨e, he, rfl, rfl⟩ := hlog q p hp
    exact ⟨e.1, List.mem_map.2 ⟨e, he, rfl⟩, sortAsc_perm _⟩
  · intro q id hg
    obtain ⟨p, hp⟩ := hgot' id q hg
    obtain ⟨e, he, rfl, rfl⟩ := hlog q p hp
    exact ⟨e.1, pack e.2, List.mem_map.2 ⟨e, he, rfl⟩, sortAsc_perm _⟩

/-- Capacity per column from the log. -/
theorem GRun.col_length_le {c : List (List (List α))} {h' : List (List α × (Nat × Nat))}
    (r : GRun c h') {pack : Nat × Nat → κ} {n i : Nat}
    (hn : AtMostDifferent n
      ((h'.map fun e => (e.1, pack e.2)).filter fun e => e.1.length = i + 1)) :
    (c.getD i []).length ≤ n := by
  obtain ⟨S, hS, hc⟩ := hn
  refine le_trans (length_le_of_cover (r.inv i).1 ?_) hS
  intro s hs
  obtain ⟨e, he, rfl, hl⟩ := (r.mem_iff i s).1 hs
  refine ⟨e.1, rfl, hc (e.1, pack e.2) ?_⟩
  rw [List.mem_filter]
  exact ⟨List.mem_map.2 ⟨e, he, rfl⟩, by simpa using hl⟩

theorem findSet_getD_iff {c : List (List (List α))} (hc : GInv c) {s : List α}
    (i : Nat) : findSet (c.getD (s.length - 1) []) s = some i ↔
      gGet c (s.length - 1, i) = some s := by
  constructor
  · intro h; exact findSet_some h
  · intro h; exact findSet_eq_of_nodup (hc _).1 h

theorem gGet_col_eq {c : List (List (List α))} (hc : GInv c) {p : Nat × Nat} {s : List α}
    (h : gGet c p = some s) : s ≠ [] ∧ p.1 = s.length - 1 := by
  have := (gGet_sorted hc h).2
  refine ⟨?_, by omega⟩
  rintro rfl
  simp at this

end

theorem getElem?_getD_eq {β : Type} (c : List (List β)) (i : Nat) {t : List β}
    (h : c[i]? = some t) : c.getD i [] = t := by simp [h]

end Verif
