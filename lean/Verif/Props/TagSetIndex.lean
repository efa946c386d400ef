import Verif.Lemmas.TagSetIdx

/-!
# C31, C32 — the tag set index
-/

namespace Verif

/-- C31: as long as sets have at most 65536 elements and at most 65536 different sets of each length
were indexed, the tag set index interns sets. -/
theorem C31_interns {c h} (r : TagSetIndex.Run c h)
    (hlen : ∀ e ∈ h, e.1.length ≤ 65536)
    (hcap : ∀ n, AtMostDifferent 65536 (h.filter fun e => e.1.length = n)) :
    Interns (fun id s => TagSetIndex.get c id = some s)
      (fun s id => TagSetIndex.find c s = some id) h := by
  obtain ⟨h', hr, rfl⟩ := r.toGRun
  have hcols : ∀ i, (c.getD i []).length ≤ 65536 := fun i =>
    hr.col_length_le (pack := packTS) (hcap (i + 1))
  have hused : ∀ p, Used c p → p.1 < 65536 ∧ p.2 < 65536 := by
    rintro p ⟨s, hp⟩
    obtain ⟨e, he, rfl, hl⟩ := (hr.mem_iff p.1 s).1 (gGet_mem hp)
    have h1 := hlen _ (List.mem_map.2 ⟨e, he, rfl⟩)
    have h2 := gGet_lt hp
    have h3 := hcols p.1
    simp only at h1
    exact ⟨by omega, by omega⟩
  refine hr.interns packTS _ _ ?_ ?_ ?_ ?_
  · intro p q hp hq h
    exact packTS_inj (hused p hp).1 (hused p hp).2 (hused q hq).1 (hused q hq).2 h
  · intro p s hp
    rw [TagSetIndex.get_eq, unpackTS_packTS (hused p hp).1 (hused p hp).2]
  · intro id s hg
    rw [TagSetIndex.get_eq] at hg
    exact ⟨_, hg⟩
  · intro s id
    by_cases hs : s = []
    · subst hs
      constructor
      · intro h; simp [TagSetIndex.find] at h
      · rintro ⟨p, hp, _⟩
        exact absurd rfl (gGet_col_eq hr.inv hp).1
    · by_cases hl : s.length ≤ 65536
      · rw [TagSetIndex.find_eq c hs hl, Option.map_eq_some_iff]
        constructor
        · rintro ⟨i, hi, rfl⟩
          exact ⟨_, (findSet_getD_iff hr.inv i).1 hi, rfl⟩
        · rintro ⟨p, hp, rfl⟩
          have := (gGet_col_eq hr.inv hp).2
          refine ⟨p.2, (findSet_getD_iff hr.inv p.2).2 ?_, ?_⟩
          · rw [← this]; exact hp
          · rw [← this]
      · -- longer sets were never indexed; their truncated column holds sets of another length
        constructor
        · intro h
          exfalso
          have hs' : s.length ≠ 0 := by simpa using hs
          simp only [TagSetIndex.find, hs', if_false, TagSetIndex.getTable] at h
          have hnlt := (UInt16.ofNat (s.length - 1)).toNat_lt
          split at h
          · cases h
          · rename_i t ht
            split at ht
            · cases ht
            · split at h
              · cases h
              · rename_i i hi
                unfold TagSetTable.find at hi
                obtain ⟨k, hk, _⟩ := Option.map_eq_some_iff.1 hi
                have hm := List.mem_of_getElem? (findSet_some hk)
                rw [← getElem?_getD_eq c _ ht] at hm
                have := ((hr.inv _).2 s hm).1
                omega
        · rintro ⟨p, hp, _⟩
          exfalso
          have h1 := (gGet_sorted hr.inv hp).2
          have h2 := (hused p ⟨s, hp⟩).1
          omega

/-- C31: `Size()` is the number of different sets indexed (up to order), at any capacity. -/
theorem C31_size {c h} (r : TagSetIndex.Run c h) (S : List TagSet)
    (hd : S.Pairwise fun a b => ¬ a.Perm b)
    (h1 : ∀ e ∈ h, ∃ s ∈ S, e.1.Perm s) (h2 : ∀ s ∈ S, ∃ e ∈ h, e.1.Perm s) :
    TagSetIndex.size c = S.length := by
  obtain ⟨h', hr, rfl⟩ := r.toGRun
  apply hr.size_eq S hd
  · intro e he
    exact h1 _ (List.mem_map.2 ⟨e, he, rfl⟩)
  · intro s hs
    obtain ⟨e, he, hp⟩ := h2 s hs
    obtain ⟨e', he', rfl⟩ := List.mem_map.1 he
    exact ⟨e', he', hp⟩

/-- C31: `Index` of the empty set registers nothing and returns 0; `Find` never finds it. -/
theorem C31_empty (c : TagSetIndex) : TagSetIndex.index c [] = (c, 0) ∧ TagSetIndex.find c [] = none :=
  ⟨rfl, rfl⟩

/-- Non-vacuity of C31: three calls, two of them with the same set. -/
example : TagSetIndex.Run [[[2]], [[1, 3]]] [([3, 1], 0x10000), ([2], 0), ([1, 3], 0x10000)] ∧
    (∀ e ∈ ([([3, 1], 0x10000), ([2], 0), ([1, 3], 0x10000)] : List (TagSet × TagSetID)),
      e.1.length ≤ 65536) ∧
    (∀ n, AtMostDifferent 65536
      (([([3, 1], 0x10000), ([2], 0), ([1, 3], 0x10000)] : List (TagSet × TagSetID)).filter
        fun e => e.1.length = n)) := by
  refine ⟨?_, by decide, fun n => ⟨[[3, 1], [2]], by decide, ?_⟩⟩
  · exact .index (h := [_, _]) (.index (h := [_]) (.index (h := []) .nil (by decide)
      (by decide : TagSetIndex.index [] [3, 1] = ([[], [[1, 3]]], 0x10000))) (by decide)
      (by decide : TagSetIndex.index [[], [[1, 3]]] [2] = ([[[2]], [[1, 3]]], 0))) (by decide) (by decide)
  · intro e he
    have he := (List.mem_filter.1 he).1
    simp only [List.mem_cons, List.not_mem_nil, or_false] at he
    rcases he with rfl | rfl | rfl
    · exact ⟨[3, 1], by simp, List.Perm.refl _⟩
    · exact ⟨[2], by simp, List.Perm.refl _⟩
    · exact ⟨[3, 1], by simp, List.Perm.swap _ _ _⟩

/-! ## C32 -/

/-- C32 is false of the code: after indexing one set, the only listed id does not resolve, and the id of
the indexed set is not listed. -/
theorem not_C32 : ∃ c s id, TagSetIndex.index [] s = (c, id) ∧ TagSetIndex.get c id = some s ∧
    id ∉ TagSetIndex.tableIDs c ∧
    ∃ listed ∈ TagSetIndex.tableIDs c, TagSetIndex.get c listed = none :=
  ⟨[[[7]]], [7], 0, by decide, by decide, by decide, 0x10000, by decide, by decide⟩

/-- What `TableIDs()` does list (below 65536 columns, 65536 sets per column): exactly the resolvable
ids with one added to the upper half. -/
theorem C32_partial (c : TagSetIndex) (hl : c.length < 65536)
    (ht : ∀ i, (c.getD i []).length ≤ 65536) (id : TagSetID) :
    id ∈ TagSetIndex.tableIDs c ↔
      ∃ id' s, TagSetIndex.get c id' = some s ∧ id.toNat = id'.toNat + 65536 := by
  unfold TagSetIndex.tableIDs
  simp only [List.mem_flatten, List.mem_map]
  constructor
  · rintro ⟨l, ⟨⟨t, i⟩, hti, rfl⟩, hm⟩
    obtain ⟨hi, rfl⟩ := mem_zipIdx_getD hti
    obtain ⟨j, hj, rfl⟩ := List.mem_map.1 hm
    rw [List.mem_range] at hj
    simp only at hj
    have hj' := ht i
    have hg : gGet c (i, j) = some ((c.getD i [])[j]'hj) := List.getElem?_eq_getElem hj
    refine ⟨packTS (i, j), (c.getD i [])[j]'hj, ?_, ?_⟩
    · rw [TagSetIndex.get_eq, unpackTS_packTS (by simp; omega) (by simp; omega), hg]
    · simp only [mkTagSetID, tableNumberAdd, packTS, toNat_combine16,
        toNat_ofNat16 (show i < 65536 by omega), toNat_ofNat16 (show i + 1 < 65536 by omega),
        toNat_ofNat16 (show j < 65536 by omega)]
      omega
  · rintro ⟨id', s, hs, hid⟩
    rw [TagSetIndex.get_eq] at hs
    have h1 := gGet_col_lt hs
    have h2 := gGet_lt hs
    have hb := unpackTS_lt id'
    refine ⟨_, ⟨_, zipIdx_getD_mem h1, rfl⟩, ?_⟩
    refine List.mem_map.2 ⟨(unpackTS id').2, List.mem_range.2 h2, ?_⟩
    rw [← UInt32.toNat_inj]
    have := congrArg UInt32.toNat (packTS_unpackTS id')
    simp only [packTS, toNat_combine16, toNat_ofNat16 hb.1, toNat_ofNat16 hb.2] at this
    simp only [mkTagSetID, tableNumberAdd, toNat_combine16, toNat_ofNat16 hb.1, toNat_ofNat16 hb.2,
      toNat_ofNat16 (show (unpackTS id').1 + 1 < 65536 by omega)]
    rw [hid, ← this]
    generalize (unpackTS id').1 = x
    generalize (unpackTS id').2 = y
    clear hs h1 h2 hb this hid ht hl
    omega

/-- C32: either half of the property holds only of an index without sets: as soon as one is stored, some listed id does not
resolve and some stored set is not listed. -/
theorem C32_exact (c : TagSetIndex) (hl : c.length < 65536) (ht : ∀ i, (c.getD i []).length ≤ 65536) :
    ((∀ id ∈ TagSetIndex.tableIDs c, (TagSetIndex.get c id).isSome) ↔ ∀ id, TagSetIndex.get c id = none) ∧
    ((∀ id, (TagSetIndex.get c id).isSome → id ∈ TagSetIndex.tableIDs c) ↔ ∀ id, TagSetIndex.get c id = none) := by
  have small : ∀ {id s}, TagSetIndex.get c id = some s → id.toNat + 65536 < 4294967296 := by
    intro id s hs
    rw [TagSetIndex.get_eq] at hs
    have h1 := gGet_col_lt hs
    have e : (unpackTS id).1 = id.toNat / 65536 := toNat_upper16 id
    rw [e] at h1
    omega
  refine ⟨⟨?_, ?_⟩, ⟨?_, ?_⟩⟩
  · intro h id
    by_contra hne
    have : ∀ (k : Nat) (id : TagSetID), 4294967296 - id.toNat = k → TagSetIndex.get c id = none := by
      intro k
      induction k using Nat.strongRecOn with
      | _ k ih =>
        intro id hk
        by_contra hne
        obtain ⟨s, hs⟩ := Option.ne_none_iff_exists'.1 hne
        have hb := small hs
        have e : (UInt32.ofNat (id.toNat + 65536)).toNat = id.toNat + 65536 := by
          rw [UInt32.toNat_ofNat', Nat.mod_eq_of_lt hb]
        have hm := h _ ((C32_partial c hl ht _).2 ⟨id, s, hs, e⟩)
        rw [ih _ (by rw [e]; omega) _ rfl] at hm
        cases hm
    exact hne (this _ id rfl)
  · intro h id hid
    obtain ⟨id', s, hs, -⟩ := (C32_partial c hl ht id).1 hid
    rw [h] at hs
    cases hs
  · intro h id
    have : ∀ (k : Nat) (id : TagSetID), id.toNat = k → TagSetIndex.get c id = none := by
      intro k
      induction k using Nat.strongRecOn with
      | _ k ih =>
        intro id hk
        by_contra hne
        obtain ⟨id', s, hs, he⟩ := (C32_partial c hl ht id).1 (h id (Option.isSome_iff_ne_none.2 hne))
        rw [ih _ (by omega) id' rfl] at hs
        cases hs
    exact this _ id rfl
  · intro h id hid
    rw [h] at hid
    cases hid

example : ¬ ∀ id, TagSetIndex.get (TagSetIndex.index [] [3, 7]).1 id = none := by
  intro h
  exact absurd (h (TagSetIndex.index [] [3, 7]).2) (by decide)


example : ([[[7]], [[1, 2], [3, 4]]] : TagSetIndex).length < 65536 ∧
    TagSetIndex.tableIDs [[[7]], [[1, 2], [3, 4]]] = [0x10000, 0x20000, 0x20001] := by decide

end Verif
