import Verif.Lemmas.SetTables

/-!
# C27, C28, C29 — set tables and collections of `pkg/storage`
-/

namespace Verif

/-! ## C27 -/

/-- C27 for `Table8`: as long as at most 256 different sets were indexed, the table interns sets. -/
theorem C27_table8 {t h} (r : Table8.Run t h) (hcap : AtMostDifferent 256 h) :
    Interns (fun id s => Table8.get t id = some s) (fun s id => Table8.find t s = some id) h := by
  obtain ⟨h', hr, rfl⟩ := r.toTRun
  have hlen := hr.length_le hcap
  refine hr.interns UInt8.ofNat _ _ ?_ ?_ ?_ ?_
  · intro i j hi hj h
    have := congrArg UInt8.toNat h
    rwa [toNat_ofNat8 (by omega), toNat_ofNat8 (by omega)] at this
  · intro i s hi
    simp only [Table8.get]
    rw [toNat_ofNat8 (by omega), if_neg (by omega)]
  · intro id s hg
    simp only [Table8.get] at hg
    split at hg
    · cases hg
    · exact List.mem_of_getElem? hg
  · intro s id
    simp only [Table8.find, Option.map_eq_some_iff]
    constructor
    · rintro ⟨i, hi, rfl⟩; exact ⟨i, hi, rfl⟩
    · rintro ⟨i, hi, rfl⟩; exact ⟨i, hi, rfl⟩

/-- C27 for `Table16`. -/
theorem C27_table16 {t h} (r : Table16.Run t h) (hcap : AtMostDifferent 65536 h) :
    Interns (fun id s => Table16.get t id = some s) (fun s id => Table16.find t s = some id) h := by
  obtain ⟨h', hr, rfl⟩ := r.toTRun
  have hlen := hr.length_le hcap
  refine hr.interns UInt16.ofNat _ _ ?_ ?_ ?_ ?_
  · intro i j hi hj h
    have := congrArg UInt16.toNat h
    rwa [toNat_ofNat16 (by omega), toNat_ofNat16 (by omega)] at this
  · intro i s hi
    simp only [Table16.get]
    rw [toNat_ofNat16 (by omega), if_neg (by omega)]
  · intro id s hg
    simp only [Table16.get] at hg
    split at hg
    · cases hg
    · exact List.mem_of_getElem? hg
  · intro s id
    simp only [Table16.find, Option.map_eq_some_iff]
    constructor
    · rintro ⟨i, hi, rfl⟩; exact ⟨i, hi, rfl⟩
    · rintro ⟨i, hi, rfl⟩; exact ⟨i, hi, rfl⟩

/-- C27 for `Collection8x8`: sets of at most 256 elements, at most 256 different ones per length. -/
theorem C27_collection8 {c h} (r : Collection8.Run c h)
    (hlen : ∀ e ∈ h, e.1.length ≤ 256)
    (hcap : ∀ n, AtMostDifferent 256 (h.filter fun e => e.1.length = n)) :
    Interns (fun id s => Collection8.get c id = some s)
      (fun s id => Collection8.find c s = .ok (some id)) h := by
  obtain ⟨h', hr, rfl⟩ := r.toGRun
  have hcols : ∀ i, (c.getD i []).length ≤ 256 := fun i => hr.col_length_le
    (pack := fun p => combine8 (UInt8.ofNat p.1) (UInt8.ofNat p.2)) (hcap (i + 1))
  have hused : ∀ p, Used c p → p.1 < 256 ∧ p.2 < 256 := by
    rintro p ⟨s, hp⟩
    obtain ⟨e, he, rfl, hl⟩ := (hr.mem_iff p.1 s).1 (gGet_mem hp)
    have h1 := hlen _ (List.mem_map.2 ⟨e, he, rfl⟩)
    have h2 := gGet_lt hp
    have h3 := hcols p.1
    simp only at h1
    exact ⟨by omega, by omega⟩
  refine hr.interns (fun p => combine8 (UInt8.ofNat p.1) (UInt8.ofNat p.2)) _ _ ?_ ?_ ?_ ?_
  · intro p q hp hq h
    obtain ⟨h1, h2⟩ := combine8_ofNat_inj (hused p hp).1 (hused p hp).2 (hused q hq).1 (hused q hq).2 h
    exact Prod.ext h1 h2
  · intro p s hp
    obtain ⟨s', hp'⟩ := hp
    have hu := hused p ⟨s', hp'⟩
    have h1 := gGet_col_lt hp'
    have h2 := gGet_lt hp'
    simp only [Collection8.get, upper8_combine8, lower8_combine8, toNat_ofNat8 hu.1]
    rw [if_neg (by omega), getD_of_lt c h1]
    simp only [Table8.get, toNat_ofNat8 hu.2]
    rw [if_neg (by omega)]
    rfl
  · intro id s hg
    simp only [Collection8.get] at hg
    split at hg
    · cases hg
    · split at hg
      · cases hg
      · rename_i t ht
        simp only [Table8.get] at hg
        split at hg
        · cases hg
        · refine ⟨((upper8 id).toNat, (lower8 id).toNat), ?_⟩
          simp only [gGet]
          rw [getElem?_getD_eq c _ ht, hg]
  · intro s id
    simp only [Collection8.find]
    by_cases hs : s = []
    · subst hs
      simp only [List.length_nil, if_true]
      constructor
      · intro h; simp at h
      · rintro ⟨p, hp, _⟩
        exact absurd rfl (gGet_col_eq hr.inv hp).1
    · have hs' : s.length ≠ 0 := by simpa using hs
      simp only [hs', if_false]
      cases hc : c[s.length - 1]? with
      | none =>
        constructor
        · intro h; simp at h
        · rintro ⟨p, hp, _⟩
          have h1 := gGet_col_lt hp
          rw [(gGet_col_eq hr.inv hp).2] at h1
          rw [List.getElem?_eq_none_iff] at hc
          omega
      | some t =>
        have ht := getElem?_getD_eq c _ hc
        simp only [Table8.find]
        cases hf : findSet t s with
        | none =>
          simp only [Option.map_none]
          constructor
          · intro h; simp at h
          · rintro ⟨p, hp, _⟩
            have hm := gGet_mem hp
            rw [(gGet_col_eq hr.inv hp).2, ht] at hm
            exact absurd hm (findSet_none.1 hf)
        | some i =>
          simp only [Option.map_some, Out.ok.injEq, Option.some.injEq]
          rw [← ht, findSet_getD_iff hr.inv] at hf
          constructor
          · rintro rfl; exact ⟨_, hf, rfl⟩
          · rintro ⟨p, hp, rfl⟩
            rw [gGet_inj hr.inv hp hf]

/-- C27 for `Collection16`. -/
theorem C27_collection16 {c h} (r : Collection16.Run c h)
    (hlen : ∀ e ∈ h, e.1.length ≤ 65536)
    (hcap : ∀ n, AtMostDifferent 65536 (h.filter fun e => e.1.length = n)) :
    Interns (fun id s => Collection16.get c id = some s)
      (fun s id => Collection16.find c s = .ok (some id)) h := by
  obtain ⟨h', hr, rfl⟩ := r.toGRun
  have hcols : ∀ i, (c.getD i []).length ≤ 65536 := fun i => hr.col_length_le
    (pack := fun p => combine16 (UInt16.ofNat p.1) (UInt16.ofNat p.2)) (hcap (i + 1))
  have hused : ∀ p, Used c p → p.1 < 65536 ∧ p.2 < 65536 := by
    rintro p ⟨s, hp⟩
    obtain ⟨e, he, rfl, hl⟩ := (hr.mem_iff p.1 s).1 (gGet_mem hp)
    have h1 := hlen _ (List.mem_map.2 ⟨e, he, rfl⟩)
    have h2 := gGet_lt hp
    have h3 := hcols p.1
    simp only at h1
    exact ⟨by omega, by omega⟩
  refine hr.interns (fun p => combine16 (UInt16.ofNat p.1) (UInt16.ofNat p.2)) _ _ ?_ ?_ ?_ ?_
  · intro p q hp hq h
    obtain ⟨h1, h2⟩ := combine16_ofNat_inj (hused p hp).1 (hused p hp).2 (hused q hq).1 (hused q hq).2 h
    exact Prod.ext h1 h2
  · intro p s hp
    obtain ⟨s', hp'⟩ := hp
    have hu := hused p ⟨s', hp'⟩
    have h1 := gGet_col_lt hp'
    have h2 := gGet_lt hp'
    simp only [Collection16.get, upper16_combine16, lower16_combine16, toNat_ofNat16 hu.1]
    rw [if_neg (by omega), getD_of_lt c h1]
    simp only [Table16.get, toNat_ofNat16 hu.2]
    rw [if_neg (by omega)]
    rfl
  · intro id s hg
    simp only [Collection16.get] at hg
    split at hg
    · cases hg
    · split at hg
      · cases hg
      · rename_i t ht
        simp only [Table16.get] at hg
        split at hg
        · cases hg
        · refine ⟨((upper16 id).toNat, (lower16 id).toNat), ?_⟩
          simp only [gGet]
          rw [getElem?_getD_eq c _ ht, hg]
  · intro s id
    simp only [Collection16.find]
    by_cases hs : s = []
    · subst hs
      simp only [List.length_nil, if_true]
      constructor
      · intro h; simp at h
      · rintro ⟨p, hp, _⟩
        exact absurd rfl (gGet_col_eq hr.inv hp).1
    · have hs' : s.length ≠ 0 := by simpa using hs
      simp only [hs', if_false]
      cases hc : c[s.length - 1]? with
      | none =>
        constructor
        · intro h; simp at h
        · rintro ⟨p, hp, _⟩
          have h1 := gGet_col_lt hp
          rw [(gGet_col_eq hr.inv hp).2] at h1
          rw [List.getElem?_eq_none_iff] at hc
          omega
      | some t =>
        have ht := getElem?_getD_eq c _ hc
        simp only [Table16.find]
        cases hf : findSet t s with
        | none =>
          simp only [Option.map_none]
          constructor
          · intro h; simp at h
          · rintro ⟨p, hp, _⟩
            have hm := gGet_mem hp
            rw [(gGet_col_eq hr.inv hp).2, ht] at hm
            exact absurd hm (findSet_none.1 hf)
        | some i =>
          simp only [Option.map_some, Out.ok.injEq, Option.some.injEq]
          rw [← ht, findSet_getD_iff hr.inv] at hf
          constructor
          · rintro rfl; exact ⟨_, hf, rfl⟩
          · rintro ⟨p, hp, rfl⟩
            rw [gGet_inj hr.inv hp hf]

/-- C27: `Index` succeeds on every non-empty set and panics on the empty one, in every state. -/
theorem C27_index_total :
    (∀ (t : List (List UInt8)) s, Table8.index t s = .panic ↔ s = []) ∧
    (∀ (t : List (List UInt16)) s, Table16.index t s = .panic ↔ s = []) ∧
    (∀ (c : List (List (List UInt8))) s, Collection8.index c s = .panic ↔ s = []) ∧
    (∀ (c : List (List (List UInt16))) s, Collection16.index c s = .panic ↔ s = []) := by
  refine ⟨fun t s => ⟨fun h => ?_, ?_⟩, fun t s => ⟨fun h => ?_, ?_⟩, fun t s => ⟨fun h => ?_, ?_⟩,
    fun t s => ⟨fun h => ?_, ?_⟩⟩
  · by_contra hs; rw [Table8.index_eq t hs] at h; cases h
  · rintro rfl; rfl
  · by_contra hs; rw [Table16.index_eq t hs] at h; cases h
  · rintro rfl; rfl
  · by_contra hs; rw [Collection8.index_eq t hs] at h; cases h
  · rintro rfl; rfl
  · by_contra hs; rw [Collection16.index_eq t hs] at h; cases h
  · rintro rfl; rfl

/-- Non-vacuity of C27: three calls on a `Collection8x8`, two of them with the same set. -/
example : ∃ c, Collection8.Run c [([3, 1], 0x0100), ([2], 0x0000), ([1, 3], 0x0100)] ∧
    (∀ e ∈ ([([3, 1], 0x0100), ([2], 0x0000), ([1, 3], 0x0100)] : List (List UInt8 × UInt16)),
      e.1.length ≤ 256) ∧
    (∀ n, AtMostDifferent 256
      (([([3, 1], 0x0100), ([2], 0x0000), ([1, 3], 0x0100)] : List (List UInt8 × UInt16)).filter
        fun e => e.1.length = n)) := by
  refine ⟨[[[2]], [[1, 3]]], ?_, by decide, fun n => ⟨[[3, 1], [2]], by decide, ?_⟩⟩
  · exact .index (h := [_, _]) (.index (h := [_]) (.index (h := []) .nil (by decide : Collection8.index [] [3, 1] = .ok ([[], [[1, 3]]], 0x0100)))
      (by decide : Collection8.index [[], [[1, 3]]] [2] = .ok ([[[2]], [[1, 3]]], 0x0000))) (by decide)
  · intro e he
    have he := (List.mem_filter.1 he).1
    simp only [List.mem_cons, List.not_mem_nil, or_false] at he
    rcases he with rfl | rfl | rfl
    · exact ⟨[3, 1], by simp, List.Perm.refl _⟩
    · exact ⟨[2], by simp, List.Perm.refl _⟩
    · exact ⟨[3, 1], by simp, List.Perm.swap _ _ _⟩

/-! ## C28 — beyond capacity -/

/-- C28 is false of the code, for every full `Table8`: the next new set gets id 0, which keeps
denoting the first set. -/
theorem not_C28_table8 (t : List (List UInt8)) (hfull : t.length = 256) (s : List UInt8)
    (hs : s ≠ []) (hnew : sortAsc s ∉ t) :
    ∃ t' s0, Table8.index t s = .ok (t', 0) ∧ Table8.get t 0 = some s0 ∧
      Table8.get t' 0 = some s0 ∧ s0 ≠ sortAsc s := by
  have hf := findSet_none.2 hnew
  have h0 : t[0]? = some (t[0]'(by omega)) := List.getElem?_eq_getElem (by omega)
  refine ⟨t ++ [sortAsc s], t[0]'(by omega), ?_, ?_, ?_, ?_⟩
  · rw [Table8.index_eq t hs]
    simp only [gTable, hf, hfull]
    rfl
  · simp only [Table8.get]
    have : (0 : UInt8).toNat = 0 := rfl
    rw [this, if_neg (by omega), h0]
  · simp only [Table8.get]
    have : (0 : UInt8).toNat = 0 := rfl
    rw [this, if_neg (by simp), List.getElem?_append_left (by omega), h0]
  · intro h
    exact hnew (h ▸ List.getElem_mem _)

/-- C28 is false of the code, for every full `Table16`. -/
theorem not_C28_table16 (t : List (List UInt16)) (hfull : t.length = 65536) (s : List UInt16)
    (hs : s ≠ []) (hnew : sortAsc s ∉ t) :
    ∃ t' s0, Table16.index t s = .ok (t', 0) ∧ Table16.get t 0 = some s0 ∧
      Table16.get t' 0 = some s0 ∧ s0 ≠ sortAsc s := by
  have hf := findSet_none.2 hnew
  have h0 : t[0]? = some (t[0]'(by omega)) := List.getElem?_eq_getElem (by omega)
  refine ⟨t ++ [sortAsc s], t[0]'(by omega), ?_, ?_, ?_, ?_⟩
  · rw [Table16.index_eq t hs]
    simp only [gTable, hf, hfull]
    rfl
  · simp only [Table16.get]
    have : (0 : UInt16).toNat = 0 := rfl
    rw [this, if_neg (by omega), h0]
  · simp only [Table16.get]
    have : (0 : UInt16).toNat = 0 := rfl
    rw [this, if_neg (by simp), List.getElem?_append_left (by omega), h0]
  · intro h
    exact hnew (h ▸ List.getElem_mem _)

/-- A full table exists and a new set exists for it: the singletons, and a two element set. -/
example : ((List.range 256).map fun n => [UInt8.ofNat n]).length = 256 ∧
    sortAsc ([0, 1] : List UInt8) ∉ (List.range 256).map fun n => [UInt8.ofNat n] := by
  refine ⟨by simp, ?_⟩
  intro h
  obtain ⟨n, _, hn⟩ := List.mem_map.1 h
  have := congrArg List.length hn
  rw [length_sortAsc] at this
  simp at this

/-- The part of C28 that holds: a full table still answers sets it already knows (no new id). -/
theorem C28_partial (t : List (List UInt8)) (t16 : List (List UInt16)) :
    (∀ s, sortAsc s ∈ t → s ≠ [] → ∃ id, Table8.index t s = .ok (t, id)) ∧
    (∀ s, sortAsc s ∈ t16 → s ≠ [] → ∃ id, Table16.index t16 s = .ok (t16, id)) := by
  constructor
  · intro s hm hs
    rw [Table8.index_eq t hs, gTable_idem hm]
    exact ⟨_, rfl⟩
  · intro s hm hs
    rw [Table16.index_eq t16 hs, gTable_idem hm]
    exact ⟨_, rfl⟩

/-! ## C29 — `Find` on a collection -/

/-- C29 is false of the code: `Find` panics exactly for sets longer than every set indexed so far
(more precisely: longer than the number of columns). -/
theorem not_C29 :
    (∀ (c : List (List (List UInt8))) s, Collection8.find c s = .panic ↔ c.length < s.length) ∧
    (∀ (c : List (List (List UInt16))) s, Collection16.find c s = .panic ↔ c.length < s.length) := by
  constructor
  · intro c s
    unfold Collection8.find
    split
    · rename_i h; simp [h]
    · split
      · rename_i h; rw [List.getElem?_eq_none_iff] at h; simp; omega
      · rename_i h
        obtain ⟨h, _⟩ := List.getElem?_eq_some_iff.1 h
        split <;> simp <;> omega
  · intro c s
    unfold Collection16.find
    split
    · rename_i h; simp [h]
    · split
      · rename_i h; rw [List.getElem?_eq_none_iff] at h; simp; omega
      · rename_i h
        obtain ⟨h, _⟩ := List.getElem?_eq_some_iff.1 h
        split <;> simp <;> omega

/-- Concrete instance: looking up any one-element set in a new collection crashes. -/
example : Collection8.find [] [1] = .panic ∧ Collection16.find [] [1] = .panic := by decide

/-- The part of C29 that holds: for sets not longer than the longest indexed set, `Find` reports a
set that was never indexed as not found. -/
theorem C29_partial {c h} (r : Collection8.Run c h) (s : List UInt8)
    (hlen : ∃ e ∈ h, s.length ≤ e.1.length) (hnew : ∀ e ∈ h, ¬ s.Perm e.1) :
    Collection8.find c s = .ok none := by
  obtain ⟨h', hr, rfl⟩ := r.toGRun
  obtain ⟨_, hmap, hl⟩ := hlen
  obtain ⟨e, he, rfl⟩ := List.mem_map.1 hmap
  have hcol := gGet_col_lt (hr.get e he)
  have hcl := hr.col e he
  simp only at hl
  unfold Collection8.find
  split
  · rfl
  · rename_i h0
    rw [getD_of_lt c (by omega)]
    simp only [Table8.find]
    cases hf : findSet (c.getD (s.length - 1) []) s with
    | none => rfl
    | some i =>
      exfalso
      obtain ⟨e', he', hs, _⟩ := (hr.mem_iff _ s).1 (List.mem_of_getElem? (findSet_some hf))
      exact hnew _ (List.mem_map.2 ⟨e', he', rfl⟩) (hs ▸ sortAsc_perm _)

end Verif
