import Verif.Lemmas.TagSetIdx

/-!
# C33 — the variants index (collections of tag sets)
-/

namespace Verif

/-- Capacity of the variants index: collections of at most 65535 readings, at most 65536 different
collections of each size. -/
def VariantsIndex.Fits (h : List (Coll × VariantID)) : Prop :=
  (∀ e ∈ h, e.1.length ≤ 65535) ∧ ∀ n, AtMostDifferent 65536 (h.filter fun e => e.1.length = n)

theorem VariantsIndex.Fits.used {c : VariantsIndex} {h' : List (Coll × (Nat × Nat))}
    (hr : GRun c h') (hf : VariantsIndex.Fits (h'.map fun e => (e.1, packV e.2))) :
    ∀ p, Used c p → p.1 < 65535 ∧ p.2 < 65536 := by
  have hcols : ∀ i, (c.getD i []).length ≤ 65536 := fun i =>
    hr.col_length_le (pack := packV) (hf.2 (i + 1))
  rintro p ⟨s, hp⟩
  obtain ⟨e, he, rfl, hl⟩ := (hr.mem_iff p.1 s).1 (gGet_mem hp)
  have h1 := hf.1 _ (List.mem_map.2 ⟨e, he, rfl⟩)
  have h2 := gGet_lt hp
  have h3 := hcols p.1
  simp only at h1
  exact ⟨by omega, by omega⟩

/-- C33: within capacity the variants index interns collections. An id "denotes" a collection if it is
not 0 and its table number is not 0 (those mean "no readings", see `C33_zero`). -/
theorem C33_interns {c h} (r : VariantsIndex.Run c h) (hf : VariantsIndex.Fits h) :
    Interns (fun id s => 1 ≤ (variantTableNum id).toNat ∧ VariantsIndex.get c id = .ok s)
      (fun s id => s ≠ [] ∧ VariantsIndex.find c s = .ok (some id)) h := by
  obtain ⟨h', hr, rfl⟩ := r.toGRun hf.1
  have hused := VariantsIndex.Fits.used hr hf
  refine hr.interns packV _ _ ?_ ?_ ?_ ?_
  · intro p q hp hq h
    exact packV_inj (hused p hp).1 (hused p hp).2 (hused q hq).1 (hused q hq).2 h
  · intro p s hp
    have hu := hused p hp
    obtain ⟨s', hs'⟩ := hp
    constructor
    · rintro ⟨_, h⟩
      rw [VariantsIndex.get_packV c hu.1 hu.2 hs'] at h
      rw [hs']
      exact congrArg some (Out.ok.inj h)
    · intro h
      refine ⟨?_, VariantsIndex.get_packV c hu.1 hu.2 h⟩
      simp only [packV, variantTableNum, upper16_combine16,
        toNat_ofNat16 (show p.1 + 1 < 65536 by omega)]
      omega
  · rintro id s ⟨h1, hg⟩
    rw [VariantsIndex.get_eq_ok_iff] at hg
    rcases hg with ⟨h0, _⟩ | ⟨_, hg⟩
    · unfold variantTableNum at h1; omega
    · exact ⟨_, hg⟩
  · intro s id
    constructor
    · rintro ⟨hs, h⟩
      by_cases hl : s.length ≤ 65535
      · rw [VariantsIndex.find_eq c hs hl] at h
        obtain ⟨i, hi, rfl⟩ := Option.map_eq_some_iff.1 (Out.ok.inj h)
        exact ⟨_, (findSet_getD_iff hr.inv i).1 hi, rfl⟩
      · exfalso
        have hs' : s.length ≠ 0 := by simpa using hs
        simp only [VariantsIndex.find, hs', if_false] at h
        split at h
        · simp at h
        · split at h
          · simp at h
          · rename_i t ht
            split at h
            · simp at h
            · rename_i i hi
              unfold VariantsTable.find at hi
              obtain ⟨k, hk, _⟩ := Option.map_eq_some_iff.1 hi
              have hm := findSet_some hk
              rw [← getElem?_getD_eq c _ ht] at hm
              have h1 := ((hr.inv _).2 s (List.mem_of_getElem? hm)).1
              have h2 : (UInt16.ofNat (s.length - 1)).toNat < 65535 := (hused (_, k) ⟨s, hm⟩).1
              omega
    · rintro ⟨p, hp, rfl⟩
      obtain ⟨h1, h2⟩ := gGet_col_eq hr.inv hp
      have h3 := (gGet_sorted hr.inv hp).2
      have h4 := (hused p ⟨s, hp⟩).1
      refine ⟨h1, ?_⟩
      rw [VariantsIndex.find_eq c h1 (by omega)]
      have := (findSet_getD_iff hr.inv p.2).2 (by rw [← h2]; exact hp)
      rw [this, ← h2]
      rfl

/-- C33: id 0 is never handed out to a non-empty collection and always denotes the empty one. -/
theorem C33_zero {c h} (r : VariantsIndex.Run c h) (hf : VariantsIndex.Fits h) :
    (∀ e ∈ h, e.2 ≠ 0) ∧ VariantsIndex.get c 0 = .ok [] ∧
    VariantsIndex.index c [] = (c, 0) ∧ VariantsIndex.find c [] = .ok (some 0) := by
  obtain ⟨h', hr, rfl⟩ := r.toGRun hf.1
  refine ⟨?_, rfl, rfl, rfl⟩
  intro e he
  obtain ⟨e', he', rfl⟩ := List.mem_map.1 he
  exact packV_ne_zero (VariantsIndex.Fits.used hr hf _ ⟨_, hr.get e' he'⟩).1

/-- C33: `KnownID()` lists exactly the ids handed out, each once. -/
theorem C33_knownID {c h} (r : VariantsIndex.Run c h) (hf : VariantsIndex.Fits h) :
    c.knownID.Nodup ∧ ∀ id, id ∈ c.knownID ↔ ∃ s, (s, id) ∈ h := by
  obtain ⟨h', hr, rfl⟩ := r.toGRun hf.1
  have hused := VariantsIndex.Fits.used hr hf
  have hlen : c.length ≤ 65535 := by
    have hl : ∀ e ∈ h', e.1.length ≤ 65535 := fun e he => hf.1 _ (List.mem_map.2 ⟨e, he, rfl⟩)
    clear hf hused r
    induction hr with
    | nil => simp
    | @index c h x hx _ ih =>
      rw [gIndex_fst_length]
      have := ih (fun e he => hl e (List.mem_append_left _ he))
      have := hl (x, (gIndex c x).2) (by simp)
      simp only at this
      omega
  have hcols : ∀ i, (c.getD i []).length ≤ 65536 := fun i =>
    hr.col_length_le (pack := packV) (hf.2 (i + 1))
  refine ⟨nodup_knownID hlen hcols, fun id => ?_⟩
  rw [mem_knownID hlen]
  constructor
  · rintro ⟨p, ⟨s, hs⟩, rfl⟩
    obtain ⟨e, he, hse, _⟩ := (hr.mem_iff p.1 s).1 (gGet_mem hs)
    rw [hse] at hs
    have := gGet_inj hr.inv (hr.get e he) hs
    exact ⟨e.1, List.mem_map.2 ⟨e, he, by rw [this]⟩⟩
  · rintro ⟨s, hs⟩
    obtain ⟨e, he, heq⟩ := List.mem_map.1 hs
    obtain ⟨rfl, rfl⟩ := Prod.mk.inj heq
    exact ⟨e.2, ⟨_, hr.get e he⟩, rfl⟩

/-- C33: `Table` and the `Get` of the table together are `Get`. -/
theorem C33_table (c : VariantsIndex) (id : VariantID) (h : 1 ≤ (variantTableNum id).toNat) :
    c.get id = (c.table (variantTableNum id)).bind fun t => VariantsTable.get t (variantSubID id) := by
  have h0 : id ≠ 0 := by rintro rfl; revert h; decide
  have e : (variantTableNum id - 1).toNat = (variantTableNum id).toNat - 1 := by
    rw [UInt16.toNat_sub_of_le _ _ (by rw [UInt16.le_iff_toNat_le]; simpa using h)]
    rfl
  unfold VariantsIndex.get VariantsIndex.table
  rw [if_neg h0, if_neg (by omega), e]
  cases c[(variantTableNum id).toNat - 1]? <;> rfl

/-- C33: `Following` lists, in ascending order, exactly the larger positions of the table. -/
theorem C33_following (t : VariantsTable) (ht : t.length ≤ 65536) (id : UInt16) :
    (t.following id).Pairwise (· < ·) ∧ ∀ i, i ∈ t.following id ↔ id < i ∧ ∃ s, t.get i = .ok s := by
  unfold VariantsTable.following
  constructor
  · rw [List.pairwise_map]
    have hp : (List.range' (id.toNat + 1) (t.length - (id.toNat + 1))).Pairwise
        fun a b => a < b ∧ b < 65536 := by
      have h1 := List.pairwise_lt_range' (s := id.toNat + 1) (n := t.length - (id.toNat + 1)) (step := 1) (by decide)
      refine h1.imp_of_mem fun {a b} _ hb hlt => ⟨hlt, ?_⟩
      have := List.mem_range'_1.1 hb
      omega
    refine hp.imp fun {a b} h => ?_
    rw [UInt16.lt_iff_toNat_lt, toNat_ofNat16 (by omega), toNat_ofNat16 h.2]
    exact h.1
  · intro i
    have hi := i.toNat_lt
    rw [List.mem_map]
    unfold VariantsTable.get
    constructor
    · rintro ⟨k, hk, rfl⟩
      have := List.mem_range'_1.1 hk
      rw [UInt16.lt_iff_toNat_lt, toNat_ofNat16 (by omega), List.getElem?_eq_getElem (show k < t.length by omega)]
      exact ⟨by omega, _, rfl⟩
    · rintro ⟨h1, s, h2⟩
      rw [UInt16.lt_iff_toNat_lt] at h1
      have h3 : i.toNat < t.length := by
        by_contra hn
        rw [List.getElem?_eq_none (by omega)] at h2
        cases h2
      exact ⟨i.toNat, List.mem_range'_1.2 ⟨by omega, by omega⟩, by simp⟩

example : VariantsTable.following [[1], [2], [5], [7]] 1 = [2, 3] ∧
    VariantsIndex.table [[[5]], [[1, 3]]] 2 = .ok [[1, 3]] := by decide

/-- Non-vacuity of C33. -/
example : VariantsIndex.Run [[[5]], [[1, 3]]] [([3, 1], 0x20000), ([5], 0x10000), ([1, 3], 0x20000)] ∧
    VariantsIndex.Fits [([3, 1], 0x20000), ([5], 0x10000), ([1, 3], 0x20000)] := by
  refine ⟨?_, by decide, fun n => ⟨[[3, 1], [5]], by decide, ?_⟩⟩
  · exact .index (h := [_, _]) (.index (h := [_]) (.index (h := []) .nil (by decide)
      (by decide : VariantsIndex.index [] [3, 1] = ([[], [[1, 3]]], 0x20000))) (by decide)
      (by decide : VariantsIndex.index [[], [[1, 3]]] [5] = ([[[5]], [[1, 3]]], 0x10000))) (by decide) (by decide)
  · intro e he
    have he := (List.mem_filter.1 he).1
    simp only [List.mem_cons, List.not_mem_nil, or_false] at he
    rcases he with rfl | rfl | rfl
    · exact ⟨[3, 1], by simp, List.Perm.refl _⟩
    · exact ⟨[5], by simp, List.Perm.refl _⟩
    · exact ⟨[3, 1], by simp, List.Perm.swap _ _ _⟩

end Verif
