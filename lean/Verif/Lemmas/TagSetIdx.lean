import Verif.Lemmas.SetTables
import Verif.Spec.IndexRuns

/-! # Helper lemmas: tag set index and variants index over natural number positions -/

set_option linter.unusedSectionVars false

namespace Verif

/-- Id of a tag set stored at (column, position). -/
def packTS (p : Nat × Nat) : TagSetID := combine16 (UInt16.ofNat p.1) (UInt16.ofNat p.2)
/-- Position denoted by a tag set id. -/
def unpackTS (id : TagSetID) : Nat × Nat := ((upper16 id).toNat, (lower16 id).toNat)

/-- Id of a collection stored at (column, position). -/
def packV (p : Nat × Nat) : VariantID := combine16 (UInt16.ofNat (p.1 + 1)) (UInt16.ofNat p.2)

theorem unpackTS_packTS {p : Nat × Nat} (h1 : p.1 < 65536) (h2 : p.2 < 65536) :
    unpackTS (packTS p) = p := by
  unfold unpackTS packTS
  rw [upper16_combine16, lower16_combine16, toNat_ofNat16 h1, toNat_ofNat16 h2]

theorem packTS_unpackTS (id : TagSetID) : packTS (unpackTS id) = id := by
  unfold unpackTS packTS
  simp only [UInt16.ofNat_toNat, combine16_upper_lower]

theorem unpackTS_lt (id : TagSetID) : (unpackTS id).1 < 65536 ∧ (unpackTS id).2 < 65536 :=
  ⟨(upper16 id).toNat_lt, (lower16 id).toNat_lt⟩

theorem packTS_inj {p q : Nat × Nat} (hp1 : p.1 < 65536) (hp2 : p.2 < 65536) (hq1 : q.1 < 65536)
    (hq2 : q.2 < 65536) (h : packTS p = packTS q) : p = q := by
  obtain ⟨h1, h2⟩ := combine16_ofNat_inj hp1 hp2 hq1 hq2 h
  exact Prod.ext h1 h2

theorem packV_inj {p q : Nat × Nat} (hp1 : p.1 < 65535) (hp2 : p.2 < 65536) (hq1 : q.1 < 65535)
    (hq2 : q.2 < 65536) (h : packV p = packV q) : p = q := by
  obtain ⟨h1, h2⟩ := combine16_ofNat_inj (by omega) hp2 (by omega) hq2 h
  exact Prod.ext (by omega) h2

theorem packV_ne_zero {p : Nat × Nat} (h : p.1 < 65535) : packV p ≠ 0 := by
  intro h0
  have := congrArg UInt32.toNat h0
  unfold packV at this
  rw [toNat_combine16, toNat_ofNat16 (by omega : p.1 + 1 < 65536)] at this
  have h00 : (0 : UInt32).toNat = 0 := rfl
  omega

theorem TagSetIndex.index_eq (ix : TagSetIndex) {s : TagSet} (hs : s ≠ []) :
    TagSetIndex.index ix s = ((gIndex ix s).1, packTS (gIndex ix s).2) := by
  have : s.length ≠ 0 := by simpa using hs
  simp only [TagSetIndex.index, this, if_false, TagSetTable.index, TagSetTable.find, gIndex, gTable,
    packTS]
  cases findSet ((extendTables ix (s.length - 1)).getD (s.length - 1) []) (sortAsc s) <;> rfl

theorem TagSetIndex.get_eq (ix : TagSetIndex) (id : TagSetID) :
    TagSetIndex.get ix id = gGet ix (unpackTS id) := by
  unfold TagSetIndex.get TagSetIndex.getTagSet TagSetIndex.getTable tagSetTableNumber tagSetSubID
    gGet unpackTS
  by_cases h : (upper16 id).toNat < ix.length
  · rw [if_neg (by omega), if_neg (by omega), getD_of_lt _ h]
    simp only [TagSetTable.get]
    split
    · rename_i h'
      exact (List.getElem?_eq_none h').symm
    · rfl
  · rw [if_pos (by omega)]
    have hn : ix[(upper16 id).toNat]? = none := List.getElem?_eq_none (by omega)
    simp [hn]

theorem TagSetIndex.find_eq (ix : TagSetIndex) {s : TagSet} (hs : s ≠ [])
    (hl : s.length ≤ 65536) :
    TagSetIndex.find ix s =
      (findSet (ix.getD (s.length - 1) []) s).map fun i => packTS (s.length - 1, i) := by
  have : s.length ≠ 0 := by simpa using hs
  simp only [TagSetIndex.find, this, if_false, TagSetIndex.getTable,
    toNat_ofNat16 (show s.length - 1 < 65536 by omega)]
  by_cases h : s.length - 1 < ix.length
  · rw [if_neg (by omega), getD_of_lt _ h]
    simp only [TagSetTable.find, mkTagSetID, packTS]
    cases findSet (ix.getD (s.length - 1) []) s <;> rfl
  · rw [if_pos (by omega)]
    have hn : ix[s.length - 1]? = none := List.getElem?_eq_none (by omega)
    simp [hn, findSet]

theorem VariantsIndex.index_eq (ix : VariantsIndex) {s : Coll} (hs : s ≠ [])
    (hl : s.length ≤ 65536) :
    VariantsIndex.index ix s = ((gIndex ix s).1, packV (gIndex ix s).2) := by
  have h0 : s.length ≠ 0 := by simpa using hs
  simp only [VariantsIndex.index, h0, if_false, VariantsTable.index, VariantsTable.find,
    sortAsc_idem, length_sortAsc, toNat_ofNat16 (show s.length - 1 < 65536 by omega), gIndex,
    gTable, packV, mkVariantID]
  cases findSet ((extendTables ix (s.length - 1)).getD (s.length - 1) []) (sortAsc s) <;> rfl

theorem VariantsIndex.get_packV (ix : VariantsIndex) {p : Nat × Nat} {s : Coll}
    (h1 : p.1 < 65535) (h2 : p.2 < 65536) (h : gGet ix p = some s) :
    VariantsIndex.get ix (packV p) = .ok s := by
  have hc := gGet_col_lt h
  unfold VariantsIndex.get
  rw [if_neg (packV_ne_zero h1)]
  simp only [packV, variantTableNum, variantSubID, upper16_combine16, lower16_combine16,
    toNat_ofNat16 (show p.1 + 1 < 65536 by omega)]
  rw [if_neg (by omega)]
  simp only [Nat.add_sub_cancel]
  rw [getD_of_lt _ hc]
  simp only [VariantsTable.get, toNat_ofNat16 h2]
  unfold gGet at h
  rw [h]

/-- What `Get` returns, for every id. -/
theorem VariantsIndex.get_eq_ok_iff (ix : VariantsIndex) (id : VariantID) (s : Coll) :
    VariantsIndex.get ix id = .ok s ↔
      ((upper16 id).toNat = 0 ∧ s = []) ∨
      (1 ≤ (upper16 id).toNat ∧ gGet ix ((upper16 id).toNat - 1, (lower16 id).toNat) = some s) := by
  unfold VariantsIndex.get
  by_cases h0 : id = 0
  · subst h0
    have : (upper16 0).toNat = 0 := rfl
    simp [this]
  · rw [if_neg h0]
    unfold variantTableNum variantSubID
    by_cases h1 : (upper16 id).toNat < 1
    · rw [if_pos h1]
      have : (upper16 id).toNat = 0 := by omega
      simp [this]
    · rw [if_neg h1]
      have h2 : (upper16 id).toNat ≠ 0 := by omega
      have h3 : 1 ≤ (upper16 id).toNat := by omega
      simp only [h2, false_and, false_or, h3, true_and]
      cases hc : ix[(upper16 id).toNat - 1]? with
      | none => simp [gGet, hc]
      | some t =>
        simp only [gGet, getElem?_getD_eq ix _ hc, VariantsTable.get]
        cases t[(lower16 id).toNat]? <;> simp

theorem packV_eq_of_parts (id : VariantID) (h : 1 ≤ (upper16 id).toNat) :
    packV ((upper16 id).toNat - 1, (lower16 id).toNat) = id := by
  have : (upper16 id).toNat - 1 + 1 = (upper16 id).toNat := by omega
  simp only [packV, this, UInt16.ofNat_toNat, combine16_upper_lower]

theorem VariantsIndex.find_eq (ix : VariantsIndex) {s : Coll} (hs : s ≠ [])
    (hl : s.length ≤ 65535) :
    VariantsIndex.find ix s = .ok
      ((findSet (ix.getD (s.length - 1) []) s).map fun i => packV (s.length - 1, i)) := by
  have : s.length ≠ 0 := by simpa using hs
  simp only [VariantsIndex.find, this, if_false,
    toNat_ofNat16 (show s.length - 1 < 65536 by omega)]
  by_cases h : s.length - 1 < ix.length
  · rw [if_neg (by omega), getD_of_lt _ h]
    simp only [VariantsTable.find, mkVariantID, packV]
    cases findSet (ix.getD (s.length - 1) []) s <;> rfl
  · rw [if_pos (by omega)]
    have hn : ix[s.length - 1]? = none := List.getElem?_eq_none (by omega)
    simp [hn, findSet]

theorem mem_zipIdx_getD {β : Type} {l : List (List β)} {t : List β} {i : Nat}
    (h : (t, i) ∈ l.zipIdx) : i < l.length ∧ t = l.getD i [] := by
  have := List.mem_zipIdx h
  obtain ⟨h1, h2, h3⟩ := this
  refine ⟨by omega, ?_⟩
  rw [h3]
  simp only [Nat.sub_zero]
  rw [List.getD_eq_getElem?_getD, List.getElem?_eq_getElem (by omega)]
  rfl

theorem zipIdx_getD_mem {β : Type} {l : List (List β)} {i : Nat} (h : i < l.length) :
    (l.getD i [], i) ∈ l.zipIdx := by
  rw [List.mk_mem_zipIdx_iff_getElem?]
  exact getD_of_lt l h

theorem mem_knownID {ix : VariantsIndex} (hl : ix.length ≤ 65535) {id : VariantID} :
    id ∈ ix.knownID ↔ ∃ p, (∃ s, gGet ix p = some s) ∧ id = packV p := by
  unfold VariantsIndex.knownID
  simp only [List.mem_flatten, List.mem_map]
  constructor
  · rintro ⟨l, ⟨⟨t, i⟩, hti, rfl⟩, hm⟩
    obtain ⟨hi, rfl⟩ := mem_zipIdx_getD hti
    obtain ⟨hm, _⟩ := List.mem_filter.1 hm
    obtain ⟨j, hj, rfl⟩ := List.mem_map.1 hm
    rw [List.mem_range] at hj
    refine ⟨(i, j), ⟨_, List.getElem?_eq_getElem hj⟩, ?_⟩
    simp only [mkVariantID, tableNumberAdd, packV, toNat_ofNat16 (show i < 65536 by omega)]
  · rintro ⟨p, ⟨s, hs⟩, rfl⟩
    have h1 := gGet_col_lt hs
    have h2 := gGet_lt hs
    refine ⟨_, ⟨_, zipIdx_getD_mem h1, rfl⟩, ?_⟩
    rw [List.mem_filter]
    refine ⟨List.mem_map.2 ⟨p.2, List.mem_range.2 h2, ?_⟩, ?_⟩
    · simp only [mkVariantID, tableNumberAdd, packV, toNat_ofNat16 (show p.1 < 65536 by omega)]
    · simpa using packV_ne_zero (by omega)

theorem nodup_knownID {ix : VariantsIndex} (hl : ix.length ≤ 65535)
    (ht : ∀ i, (ix.getD i []).length ≤ 65536) : ix.knownID.Nodup := by
  unfold VariantsIndex.knownID
  rw [List.nodup_flatten]
  constructor
  · intro l hl'
    obtain ⟨⟨t, i⟩, hti, rfl⟩ := List.mem_map.1 hl'
    obtain ⟨hi, rfl⟩ := mem_zipIdx_getD hti
    apply List.Nodup.filter
    rw [List.nodup_map_iff_inj_on List.nodup_range]
    intro a ha b hb hab
    rw [List.mem_range] at ha hb
    have := ht i
    exact (combine16_ofNat_inj
      (by rw [toNat_ofNat16 (show i < 65536 by omega)]; omega) (by omega)
      (by rw [toNat_ofNat16 (show i < 65536 by omega)]; omega) (by omega) hab).2
  · rw [List.pairwise_map]
    rw [List.pairwise_iff_getElem]
    intro i j hi hj hij
    simp only [List.getElem_zipIdx, List.length_zipIdx] at hi hj ⊢
    intro x hx hy
    obtain ⟨a, ha, hxa⟩ := List.mem_map.1 (List.mem_filter.1 hx).1
    obtain ⟨b, hb, hxb⟩ := List.mem_map.1 (List.mem_filter.1 hy).1
    rw [List.mem_range] at ha hb
    have h1 := ht i
    have h2 := ht j
    rw [List.getD_eq_getElem?_getD, List.getElem?_eq_getElem hi] at h1
    rw [List.getD_eq_getElem?_getD, List.getElem?_eq_getElem hj] at h2
    simp only [Option.getD_some] at h1 h2
    rw [← hxb] at hxa
    have hii : (UInt16.ofNat i).toNat = i := toNat_ofNat16 (by omega)
    have hjj : (UInt16.ofNat j).toNat = j := toNat_ofNat16 (by omega)
    simp only [Nat.zero_add, mkVariantID, tableNumberAdd, hii, hjj] at hxa
    have := (combine16_ofNat_inj (by omega) (by omega) (by omega) (by omega) hxa).1
    omega


theorem TagSetIndex.Run.toGRun {c h} (r : TagSetIndex.Run c h) :
    ∃ h', GRun c h' ∧ h = h'.map fun e => (e.1, packTS e.2) := by
  induction r with
  | nil => exact ⟨[], GRun.nil, rfl⟩
  | @index t t' h s id _ hs he ih =>
    obtain ⟨h', hr, hh⟩ := ih
    rw [TagSetIndex.index_eq t hs] at he
    obtain ⟨rfl, rfl⟩ := Prod.mk.inj he
    exact ⟨_, GRun.index s hs hr, by simp [hh]⟩

theorem VariantsIndex.Run.toGRun {c h} (r : VariantsIndex.Run c h)
    (hl : ∀ e ∈ h, e.1.length ≤ 65535) :
    ∃ h', GRun c h' ∧ h = h'.map fun e => (e.1, packV e.2) := by
  induction r with
  | nil => exact ⟨[], GRun.nil, rfl⟩
  | @index t t' h s id _ hs he ih =>
    obtain ⟨h', hr, hh⟩ := ih (fun e he => hl e (List.mem_append_left _ he))
    have := hl (s, id) (by simp)
    rw [VariantsIndex.index_eq t hs (by simp only at this; omega)] at he
    obtain ⟨rfl, rfl⟩ := Prod.mk.inj he
    exact ⟨_, GRun.index s hs hr, by simp [hh]⟩

section
variable {α : Type} [DecidableEq α] [LE α] [DecidableRel (α := α) (· ≤ ·)]
variable [Std.Total (α := α) (· ≤ ·)] [IsTrans α (· ≤ ·)] [Std.Antisymm (α := α) (· ≤ ·)]

theorem mem_flatten_iff_getD {c : List (List (List α))} {s : List α} :
    s ∈ c.flatten ↔ ∃ i, s ∈ c.getD i [] := by
  rw [List.mem_flatten]
  constructor
  · rintro ⟨t, ht, hs⟩
    obtain ⟨i, hi, rfl⟩ := List.getElem_of_mem ht
    refine ⟨i, ?_⟩
    rw [List.getD_eq_getElem?_getD, List.getElem?_eq_getElem hi]
    exact hs
  · rintro ⟨i, hs⟩
    by_cases hi : i < c.length
    · rw [List.getD_eq_getElem?_getD, List.getElem?_eq_getElem hi] at hs
      exact ⟨_, List.getElem_mem hi, hs⟩
    · have hn : c[i]? = none := List.getElem?_eq_none (by omega)
      simp [hn] at hs

theorem nodup_flatten_of_GInv {c : List (List (List α))} (hc : GInv c) : c.flatten.Nodup := by
  rw [List.nodup_flatten]
  constructor
  · intro t ht
    obtain ⟨i, hi, rfl⟩ := List.getElem_of_mem ht
    have := (hc i).1
    rwa [List.getD_eq_getElem?_getD, List.getElem?_eq_getElem hi] at this
  · rw [List.pairwise_iff_getElem]
    intro i j hi hj hij x hx hy
    have h1 := (hc i).2 x (by rw [List.getD_eq_getElem?_getD, List.getElem?_eq_getElem hi]; exact hx)
    have h2 := (hc j).2 x (by rw [List.getD_eq_getElem?_getD, List.getElem?_eq_getElem hj]; exact hy)
    omega

theorem GRun.size_eq {c : List (List (List α))} {h'} (r : GRun c h') (S : List (List α))
    (hd : S.Pairwise fun a b => ¬ a.Perm b)
    (h1 : ∀ e ∈ h', ∃ s ∈ S, e.1.Perm s) (h2 : ∀ s ∈ S, ∃ e ∈ h', e.1.Perm s) :
    (c.map List.length).sum = S.length := by
  rw [← List.length_flatten, ← List.length_map (as := S) sortAsc]
  apply List.Perm.length_eq
  rw [List.perm_ext_iff_of_nodup (nodup_flatten_of_GInv r.inv)]
  · intro s
    rw [mem_flatten_iff_getD, List.mem_map]
    constructor
    · rintro ⟨i, hs⟩
      obtain ⟨e, he, rfl, _⟩ := (r.mem_iff i s).1 hs
      obtain ⟨s, hs, hp⟩ := h1 e he
      exact ⟨s, hs, (sortAsc_eq_iff_perm.2 hp).symm⟩
    · rintro ⟨x, hx, rfl⟩
      obtain ⟨e, he, hp⟩ := h2 x hx
      refine ⟨e.2.1, (r.mem_iff _ _).2 ⟨e, he, (sortAsc_eq_iff_perm.2 hp).symm, r.col e he⟩⟩
  · unfold List.Nodup
    rw [List.pairwise_map]
    exact hd.imp fun hab h => hab (sortAsc_eq_iff_perm.1 h)

end

end Verif
