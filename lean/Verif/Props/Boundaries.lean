import Verif.Props.Tagging
import Verif.Props.SetTables

/-!
# Where the limits are

For properties that hold only up to a limit: what exactly happens on either side of it.
-/

namespace Verif

/-! ## C16 -/

/-- C16, exactly: the name has a position in the list of registered names (that of its first registration, or the next one); the
id is that position modulo 256; and it denotes the name exactly if the position is below 256. -/
theorem C16_exact (ix : Index) (name parent : Str) :
    ∃ i t, (ix.tagID name parent).1.tags[i]? = some t ∧ t.name = name ∧ (∀ j u, j < i → ix.tags[j]? = some u → u.name ≠ name) ∧
      (ix.tagID name parent).2.toNat = i % 256 ∧
      ((∃ u, tagsGet (ix.tagID name parent).1.tags (ix.tagID name parent).2 = some u ∧ u.name = name) ↔ i < 256) := by
  have main : ∃ i t, (ix.tagID name parent).1.tags[i]? = some t ∧ t.name = name ∧
      (∀ j u, j < i → (ix.tagID name parent).1.tags[j]? = some u → u.name ≠ name) ∧
      (∀ j u, j < i → ix.tags[j]? = some u → u.name ≠ name) ∧ (ix.tagID name parent).2.toNat = i % 256 := by
    cases hf : ix.tags.findIdx? fun t => t.name = name with
    | some i =>
      have e : ix.tagID name parent = (ix, UInt8.ofNat i) := by
        unfold Index.tagID tagsIndex tagsFind; rw [hf]; rfl
      rw [e]
      obtain ⟨hi, h1, h2⟩ := List.findIdx?_eq_some_iff_getElem.1 hf
      have hlt : ∀ j u, j < i → ix.tags[j]? = some u → u.name ≠ name := by
        intro j u hj hu
        obtain ⟨hj', rfl⟩ := List.getElem?_eq_some_iff.1 hu
        simpa using h2 j hj
      exact ⟨i, ix.tags[i], List.getElem?_eq_getElem hi, by simpa using h1, hlt, hlt, UInt8.toNat_ofNat'⟩
    | none =>
      have e : ∃ t, t.name = name ∧ ix.tagID name parent = ({ ix with tags := ix.tags ++ [t] }, UInt8.ofNat ix.tags.length) := by
        unfold Index.tagID tagsIndex tagsFind; rw [hf]; exact ⟨_, rfl, rfl⟩
      obtain ⟨t, ht, e⟩ := e
      rw [e]
      have hlt : ∀ j u, j < ix.tags.length → ix.tags[j]? = some u → u.name ≠ name := by
        intro j u _ hu
        have := List.findIdx?_eq_none_iff.1 hf u (List.mem_of_getElem? hu)
        simpa using this
      refine ⟨ix.tags.length, t, by simp, ht, ?_, hlt, UInt8.toNat_ofNat'⟩
      intro j u hj hu
      rw [List.getElem?_append_left hj] at hu
      exact hlt j u hj hu
  obtain ⟨i, t, h1, h2, h3, h4, h5⟩ := main
  refine ⟨i, t, h1, h2, h4, h5, ?_⟩
  rw [tagsGet_eq, h5]
  constructor
  · rintro ⟨u, hu, hn⟩
    by_contra hc
    exact h3 (i % 256) u (by omega) hu hn
  · intro hi
    rw [Nat.mod_eq_of_lt hi]
    exact ⟨t, h1, h2⟩

/-! ## C28 -/

/-- C28, exactly, for `Table8`: a new set is appended in sorted order; its id is the number of sets before it modulo 256; and the
id denotes the set exactly if there were fewer than 256. The sets before keep what their ids denote. -/
theorem C28_exact8 (t : List (List UInt8)) (s : List UInt8) (hs : s ≠ []) (hnew : sortAsc s ∉ t) :
    ∃ id, Table8.index t s = .ok (t ++ [sortAsc s], id) ∧ id.toNat = t.length % 256 ∧
      (Table8.get (t ++ [sortAsc s]) id = some (sortAsc s) ↔ t.length < 256) ∧
      ∀ i r, Table8.get t i = some r → Table8.get (t ++ [sortAsc s]) i = some r := by
  have hf := findSet_none.2 hnew
  refine ⟨UInt8.ofNat t.length, ?_, UInt8.toNat_ofNat', ?_, ?_⟩
  · rw [Table8.index_eq t hs]; simp only [gTable, hf]
  · unfold Table8.get
    have e : (UInt8.ofNat t.length).toNat = t.length % 256 := UInt8.toNat_ofNat'
    rw [e, if_neg (by simp; have := Nat.mod_le t.length 256; omega)]
    constructor
    · intro h
      by_contra hc
      rw [List.getElem?_append_left (by omega)] at h
      exact hnew (List.mem_of_getElem? h)
    · intro h
      rw [Nat.mod_eq_of_lt h]; simp
  · intro i r h
    unfold Table8.get at h ⊢
    split at h
    · cases h
    · rename_i hi
      rw [if_neg (by simp; omega), List.getElem?_append_left (by omega), h]

/-- C28, exactly, for `Table16`. -/
theorem C28_exact16 (t : List (List UInt16)) (s : List UInt16) (hs : s ≠ []) (hnew : sortAsc s ∉ t) :
    ∃ id, Table16.index t s = .ok (t ++ [sortAsc s], id) ∧ id.toNat = t.length % 65536 ∧
      (Table16.get (t ++ [sortAsc s]) id = some (sortAsc s) ↔ t.length < 65536) ∧
      ∀ i r, Table16.get t i = some r → Table16.get (t ++ [sortAsc s]) i = some r := by
  have hf := findSet_none.2 hnew
  refine ⟨UInt16.ofNat t.length, ?_, UInt16.toNat_ofNat', ?_, ?_⟩
  · rw [Table16.index_eq t hs]; simp only [gTable, hf]
  · unfold Table16.get
    have e : (UInt16.ofNat t.length).toNat = t.length % 65536 := UInt16.toNat_ofNat'
    rw [e, if_neg (by simp; have := Nat.mod_le t.length 65536; omega)]
    constructor
    · intro h
      by_contra hc
      rw [List.getElem?_append_left (by omega)] at h
      exact hnew (List.mem_of_getElem? h)
    · intro h
      rw [Nat.mod_eq_of_lt h]; simp
  · intro i r h
    unfold Table16.get at h ⊢
    split at h
    · cases h
    · rename_i hi
      rw [if_neg (by simp; omega), List.getElem?_append_left (by omega), h]

/-! ## C29 -/

section
variable {α : Type} [DecidableEq α] [LE α] [DecidableRel (α := α) (· ≤ ·)]

/-- There are as many tables as the longest set has elements. -/
theorem GRun.columns {c : List (List (List α))} {h} (r : GRun c h) (n : Nat) : c.length ≤ n ↔ ∀ e ∈ h, e.1.length ≤ n := by
  induction r with
  | nil => simp
  | @index c h x hx _ ih =>
    have hx' : 0 < x.length := List.length_pos_iff.2 hx
    have e : (gIndex c x).1.length = max c.length x.length := by
      simp only [gIndex, List.length_set, length_extendTables_eq]
      omega
    rw [e]
    simp only [List.mem_append, List.mem_singleton]
    constructor
    · rintro hm e (he | rfl)
      · exact (ih.1 (by omega)) e he
      · simp only; omega
    · intro hm
      have h1 := ih.2 fun e he => hm e (.inl he)
      have h2 := hm _ (.inr rfl)
      simp only at h2
      omega
end

/-- C29, exactly: `Find` panics if the set is longer than every set indexed so far, answers with the set's id if it is one of
the sets indexed and written in ascending order, and "not found" in every other case. -/
theorem C29_exact8 {c h} (r : Collection8.Run c h) (s : List UInt8) :
    (Collection8.find c s = .panic ↔ s ≠ [] ∧ ∀ e ∈ h, e.1.length < s.length) ∧
    ((∃ id, Collection8.find c s = .ok (some id)) ↔ s = sortAsc s ∧ ∃ e ∈ h, s.Perm e.1) ∧
    (Collection8.find c s = .ok none ↔ (s = [] ∨ ∃ e ∈ h, s.length ≤ e.1.length) ∧ ¬ (s = sortAsc s ∧ ∃ e ∈ h, s.Perm e.1)) := by
  obtain ⟨h', hr, rfl⟩ := r.toGRun
  have hcols : c.length < s.length ↔ s ≠ [] ∧ ∀ e ∈ h', e.1.length < s.length := by
    by_cases h0 : s = []
    · simp [h0]
    · have hp : 0 < s.length := List.length_pos_iff.2 h0
      have := hr.columns (s.length - 1)
      constructor
      · intro hc
        exact ⟨h0, fun e he => by have := this.1 (by omega) e he; omega⟩
      · rintro ⟨-, h2⟩
        have := this.2 fun e he => by have := h2 e he; omega
        omega
  have hsome : (∃ id, Collection8.find c s = .ok (some id)) ↔ s = sortAsc s ∧ ∃ e ∈ h', s.Perm e.1 := by
    by_cases h0 : s = []
    · subst h0
      simp only [Collection8.find, List.length_nil, if_true]
      constructor
      · rintro ⟨_, h⟩; simp at h
      · rintro ⟨-, e, he, hp⟩
        exact absurd (List.nil_perm.1 hp) (hr.ne_nil e he)
    · have h0' : s.length ≠ 0 := by simpa using h0
      unfold Collection8.find
      rw [if_neg h0']
      have hmem : s ∈ c.getD (s.length - 1) [] ↔ s = sortAsc s ∧ ∃ e ∈ h', s.Perm e.1 := by
        rw [hr.mem_iff]
        constructor
        · rintro ⟨e, he, hs, -⟩
          have hp : s.Perm e.1 := by rw [hs]; exact sortAsc_perm _
          exact ⟨hs.trans (sortAsc_eq_iff_perm.2 hp).symm, e, he, hp⟩
        · rintro ⟨hs, e, he, hp⟩
          exact ⟨e, he, by rw [hs]; exact sortAsc_eq_iff_perm.2 hp, by rw [← hp.length_eq]; omega⟩
      rw [← hmem]
      cases hc : c[s.length - 1]? with
      | none =>
        simp only
        have hd : c.getD (s.length - 1) [] = [] := by simp [hc]
        rw [hd]; simp
      | some t =>
        have hd : c.getD (s.length - 1) [] = t := by simp [hc]
        rw [hd]
        simp only [Table8.find]
        cases hf : findSet t s with
        | none =>
          have := findSet_none.1 hf
          simp [this]
        | some i =>
          have := List.mem_of_getElem? (findSet_some hf)
          simp [this]
  have hpanic : Collection8.find c s = .panic ↔ s ≠ [] ∧ ∀ e ∈ h', e.1.length < s.length := by
    rw [not_C29.1 c s, hcols]
  have htotal : Collection8.find c s = .panic ∨ Collection8.find c s = .ok none ∨ ∃ id, Collection8.find c s = .ok (some id) := by
    unfold Collection8.find
    (repeat' split) <;> simp
  simp only [List.mem_map, forall_exists_index, and_imp, forall_apply_eq_imp_iff₂, exists_exists_and_eq_and]
  refine ⟨hpanic, hsome, ?_⟩
  constructor
  · intro hn
    refine ⟨?_, ?_⟩
    · by_contra hc
      have : Collection8.find c s = .panic := hpanic.2 (by
        push Not at hc; exact hc)
      rw [hn] at this; cases this
    · intro hc
      obtain ⟨id, hid⟩ := hsome.2 hc
      rw [hn] at hid; simp at hid
  · rintro ⟨h1, h2⟩
    rcases htotal with h | h | h
    · obtain ⟨h3, h4⟩ := hpanic.1 h
      rcases h1 with h1 | ⟨e, he, h1⟩
      · exact absurd h1 h3
      · have := h4 e he; omega
    · exact h
    · exact absurd (hsome.1 h) h2

/-- The same for `Collection16x16`. -/
theorem C29_exact16 {c h} (r : Collection16.Run c h) (s : List UInt16) :
    (Collection16.find c s = .panic ↔ s ≠ [] ∧ ∀ e ∈ h, e.1.length < s.length) ∧
    ((∃ id, Collection16.find c s = .ok (some id)) ↔ s = sortAsc s ∧ ∃ e ∈ h, s.Perm e.1) ∧
    (Collection16.find c s = .ok none ↔ (s = [] ∨ ∃ e ∈ h, s.length ≤ e.1.length) ∧ ¬ (s = sortAsc s ∧ ∃ e ∈ h, s.Perm e.1)) := by
  obtain ⟨h', hr, rfl⟩ := r.toGRun
  have hcols : c.length < s.length ↔ s ≠ [] ∧ ∀ e ∈ h', e.1.length < s.length := by
    by_cases h0 : s = []
    · simp [h0]
    · have hp : 0 < s.length := List.length_pos_iff.2 h0
      have := hr.columns (s.length - 1)
      constructor
      · intro hc
        exact ⟨h0, fun e he => by have := this.1 (by omega) e he; omega⟩
      · rintro ⟨-, h2⟩
        have := this.2 fun e he => by have := h2 e he; omega
        omega
  have hsome : (∃ id, Collection16.find c s = .ok (some id)) ↔ s = sortAsc s ∧ ∃ e ∈ h', s.Perm e.1 := by
    by_cases h0 : s = []
    · subst h0
      simp only [Collection16.find, List.length_nil, if_true]
      constructor
      · rintro ⟨_, h⟩; simp at h
      · rintro ⟨-, e, he, hp⟩
        exact absurd (List.nil_perm.1 hp) (hr.ne_nil e he)
    · have h0' : s.length ≠ 0 := by simpa using h0
      unfold Collection16.find
      rw [if_neg h0']
      have hmem : s ∈ c.getD (s.length - 1) [] ↔ s = sortAsc s ∧ ∃ e ∈ h', s.Perm e.1 := by
        rw [hr.mem_iff]
        constructor
        · rintro ⟨e, he, hs, -⟩
          have hp : s.Perm e.1 := by rw [hs]; exact sortAsc_perm _
          exact ⟨hs.trans (sortAsc_eq_iff_perm.2 hp).symm, e, he, hp⟩
        · rintro ⟨hs, e, he, hp⟩
          exact ⟨e, he, by rw [hs]; exact sortAsc_eq_iff_perm.2 hp, by rw [← hp.length_eq]; omega⟩
      rw [← hmem]
      cases hc : c[s.length - 1]? with
      | none =>
        simp only
        have hd : c.getD (s.length - 1) [] = [] := by simp [hc]
        rw [hd]; simp
      | some t =>
        have hd : c.getD (s.length - 1) [] = t := by simp [hc]
        rw [hd]
        simp only [Table16.find]
        cases hf : findSet t s with
        | none =>
          have := findSet_none.1 hf
          simp [this]
        | some i =>
          have := List.mem_of_getElem? (findSet_some hf)
          simp [this]
  have hpanic : Collection16.find c s = .panic ↔ s ≠ [] ∧ ∀ e ∈ h', e.1.length < s.length := by
    rw [not_C29.2 c s, hcols]
  have htotal : Collection16.find c s = .panic ∨ Collection16.find c s = .ok none ∨ ∃ id, Collection16.find c s = .ok (some id) := by
    unfold Collection16.find
    (repeat' split) <;> simp
  simp only [List.mem_map, forall_exists_index, and_imp, forall_apply_eq_imp_iff₂, exists_exists_and_eq_and]
  refine ⟨hpanic, hsome, ?_⟩
  constructor
  · intro hn
    refine ⟨?_, ?_⟩
    · by_contra hc
      have : Collection16.find c s = .panic := hpanic.2 (by
        push Not at hc; exact hc)
      rw [hn] at this; cases this
    · intro hc
      obtain ⟨id, hid⟩ := hsome.2 hc
      rw [hn] at hid; simp at hid
  · rintro ⟨h1, h2⟩
    rcases htotal with h | h | h
    · obtain ⟨h3, h4⟩ := hpanic.1 h
      rcases h1 with h1 | ⟨e, he, h1⟩
      · exact absurd h1 h3
      · have := h4 e he; omega
    · exact h
    · exact absurd (hsome.1 h) h2

/-- The three cases on a collection with two sets. -/
example : ∃ c, Collection8.Run c [([3, 1], 0x0100)] ∧ Collection8.find c [1, 2, 3] = .panic ∧
    Collection8.find c [3, 1] = .ok none ∧ Collection8.find c [1, 3] = .ok (some 0x0100) :=
  ⟨[[], [[1, 3]]], .index (h := []) .nil (by decide), by decide, by decide, by decide⟩

/-- The sides of the limits: the second name in an index, and a list of 256 names (compare `not_C16_reachable`). -/
example : ((Index.new.tagID (str "NOUN") []).1.tagID (str "VERB") []).2 = 1 := by decide

end Verif
