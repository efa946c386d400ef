import Verif.Lemmas.Inspect
import Verif.Spec.ReadingOrder

/-! # Helper lemmas: sets are stored in the order of their first use -/

namespace Verif

/-- These names are this set of tags. -/
def NamesSet (tags : List Tag) (names : List Str) (s : TagSet) : Prop :=
  ∃ ids, Index.findAll tags names = .ok ids ∧ sortAsc ids = s

theorem NamesSet.unique {tags : List Tag} {names : List Str} {s s' : TagSet} (h : NamesSet tags names s)
    (h' : NamesSet tags names s') : s = s' := by
  obtain ⟨a, h1, rfl⟩ := h
  obtain ⟨b, h2, rfl⟩ := h'
  rw [h1] at h2
  injection h2 with h2
  rw [h2]

/-- The call that attached this set first has this number. -/
def UsedAt (d : Dict) (s : TagSet) (m : Nat) : Prop :=
  (∃ e, d.readings[m]? = some e ∧ NamesSet d.tags e.2 s) ∧
  ∀ j e, j < m → d.readings[j]? = some e → ¬ NamesSet d.tags e.2 s

theorem UsedAt.unique {d : Dict} {s : TagSet} {m m' : Nat} (h : UsedAt d s m) (h' : UsedAt d s m') : m = m' := by
  obtain ⟨⟨e, h1, h2⟩, h3⟩ := h
  obtain ⟨⟨e', h1', h2'⟩, h3'⟩ := h'
  rcases Nat.lt_trichotomy m m' with hm | hm | hm
  · exact absurd h2 (h3' _ _ hm h1)
  · exact hm
  · exact absurd h2' (h3 _ _ hm h1')

theorem usedAt_exists {d : Dict} {s : TagSet} {e : Nat × List Str} (he : e ∈ d.readings) (h : NamesSet d.tags e.2 s) :
    ∃ m, UsedAt d s m ∧ m < d.readings.length := by
  classical
  have hex : ∃ m : Nat, ∃ e : Nat × List Str, d.readings[m]? = some e ∧ NamesSet d.tags e.2 s := by
    obtain ⟨m, hm⟩ := List.getElem?_of_mem he
    exact ⟨m, e, hm, h⟩
  refine ⟨Nat.find hex, ⟨Nat.find_spec hex, fun j e hj hg hn => Nat.find_min hex hj ⟨e, hg, hn⟩⟩, ?_⟩
  obtain ⟨e, hg, -⟩ := Nat.find_spec hex
  exact (List.getElem?_eq_some_iff.1 hg).1

/-- Sets of equal size are stored in the order of their first use. -/
theorem Run.setOrder {h : List Op} {ix : Index} (r : Run h ix) (i k k' : Nat) (s s' : TagSet) (m m' : Nat)
    (hs : gGet ix.tagSets (i, k) = some s) (hs' : gGet ix.tagSets (i, k') = some s') (hk : k < k')
    (hm : UsedAt (dictOf h) s m) (hm' : UsedAt (dictOf h) s' m') : m < m' := by
  induction r generalizing k k' s s' m m' with
  | nil => simp [Index.new, gGet] at hs
  | @step h ix op r ha hf ih =>
    have r' : Run (h ++ [op]) (op.exec ix) := Run.step op r ha hf
    have hkeep : ∀ e ∈ (dictOf h).readings, ∀ s, NamesSet (dictOf h).tags e.2 s ↔ NamesSet (dictOf (h ++ [op])).tags e.2 s := by
      intro e he s
      obtain ⟨_, _, _, ids, hids, _⟩ := r.tag.readings e.1 e.2 he
      have hids' := findAll_keep (tags' := (dictOf (h ++ [op])).tags) (fun n id hn => r'.find_mono n id hn) hids
      constructor
      · intro h1; rw [h1.unique ⟨ids, hids, rfl⟩]; exact ⟨ids, hids', rfl⟩
      · intro h1; rw [h1.unique ⟨ids, hids', rfl⟩]; exact ⟨ids, hids, rfl⟩
    obtain ⟨tl, htl, hone⟩ : ∃ tl, (dictOf (h ++ [op])).readings = (dictOf h).readings ++ tl ∧ tl.length ≤ 1 := by
      rw [dictOf_append]
      rcases Op.spec_readings (dictOf h) op with e | ⟨id, names, -, e⟩
      · exact ⟨[], by rw [e, List.append_nil], by simp⟩
      · exact ⟨[_], e, by simp⟩
    have hup : ∀ s m, UsedAt (dictOf h) s m → UsedAt (dictOf (h ++ [op])) s m := by
      rintro s m ⟨⟨e, h1, h2⟩, h3⟩
      have hlt := (List.getElem?_eq_some_iff.1 h1).1
      refine ⟨⟨e, ?_, (hkeep e (List.mem_of_getElem? h1) s).1 h2⟩, ?_⟩
      · rw [htl, List.getElem?_append_left hlt]; exact h1
      · intro j e' hj hg hn
        rw [htl, List.getElem?_append_left (by omega)] at hg
        exact h3 j e' hj hg ((hkeep e' (List.mem_of_getElem? hg) s).2 hn)
    have hmono := exec_tagSets_mono r.refines.1 r.caps op ha
    -- a stored set was there before, or is first used by this call
    have hnew : ∀ p s m, gGet (op.exec ix).tagSets p = some s → UsedAt (dictOf (h ++ [op])) s m →
        (gGet ix.tagSets p = some s ∧ UsedAt (dictOf h) s m ∧ m < (dictOf h).readings.length) ∨
        (gGet ix.tagSets p = none ∧ m = (dictOf h).readings.length) := by
      intro p s m hp hu
      cases hg : gGet ix.tagSets p with
      | some s1 =>
        have := hmono p s1 hg
        rw [hp] at this
        cases this
        obtain ⟨k0, names, ids, he, -, h1, h2⟩ := r.logged p s hg
        obtain ⟨m1, hm1, hl⟩ := usedAt_exists he ⟨ids, h1, h2.symm⟩
        have := (hup s m1 hm1).unique hu
        subst this
        exact .inl ⟨rfl, hm1, hl⟩
      | none =>
        refine .inr ⟨rfl, ?_⟩
        obtain ⟨⟨e, h1, h2⟩, h3⟩ := hu
        have hlt := (List.getElem?_eq_some_iff.1 h1).1
        rw [htl, List.length_append] at hlt
        by_contra hne
        have hlt' : m < (dictOf h).readings.length := by omega
        rw [htl, List.getElem?_append_left hlt'] at h1
        have hmem := List.mem_of_getElem? h1
        obtain ⟨ids, hids, hsort⟩ := (hkeep e hmem s).2 h2
        obtain ⟨_, _, id, ids', hids', hor⟩ := r.tag.readings e.1 e.2 hmem
        rw [hids] at hids'
        injection hids' with hids'
        subst hids'
        have hlen := (gGet_sorted r'.tag.sets hp).2
        rcases hor with ⟨h0, _⟩ | ⟨_, q, hq, _⟩
        · subst h0
          rw [← hsort] at hlen
          simp at hlen
        · rw [hsort] at hq
          have := gGet_inj r'.tag.sets hp (hmono q s hq)
          subst this
          rw [hq] at hg; cases hg
    rcases hnew _ _ _ hs' hm' with ⟨g', u', l'⟩ | ⟨g', l'⟩
    · rcases hnew _ _ _ hs hm with ⟨g, u, l⟩ | ⟨g, l⟩
      · exact ih k k' s s' m m' g g' hk u u'
      · exfalso
        unfold gGet at g g'
        have := (List.getElem?_eq_some_iff.1 g').1
        rw [List.getElem?_eq_none_iff] at g
        simp only at g this
        omega
    · rcases hnew _ _ _ hs hm with ⟨g, u, l⟩ | ⟨g, l⟩
      · omega
      · exfalso
        obtain ⟨⟨e, h1, h2⟩, -⟩ := hm
        obtain ⟨⟨e', h1', h2'⟩, -⟩ := hm'
        rw [l] at h1
        rw [l', h1] at h1'
        cases h1'
        have := h2.unique h2'
        subst this
        have := gGet_inj r'.tag.sets hs hs'
        simp only [Prod.mk.injEq, true_and] at this
        omega

theorem packTS_le {p q : Nat × Nat} (hp1 : p.1 < 65536) (hp2 : p.2 < 65536) (hq1 : q.1 < 65536) (hq2 : q.2 < 65536)
    (h : packTS p ≤ packTS q) (hne : p ≠ q) : p.1 < q.1 ∨ p.1 = q.1 ∧ p.2 < q.2 := by
  have h' : (packTS p).toNat ≤ (packTS q).toNat := h
  unfold packTS at h'
  rw [toNat_combine16, toNat_combine16, toNat_ofNat16 hp1, toNat_ofNat16 hp2, toNat_ofNat16 hq1, toNat_ofNat16 hq2] at h'
  by_cases e : p.1 = q.1
  · have : p.2 ≠ q.2 := fun e' => hne (Prod.ext e e')
    omega
  · omega

/-- The number of the first use, in terms of names. -/
theorem UsedAt.firstUse {h : List Op} {ix : Index} (r : Run h ix) {s : TagSet} {m : Nat} (hu : UsedAt (dictOf h) s m)
    {names : List Str} (hn : NamesSet (dictOf h).tags names s) : (dictOf h).firstUse names = m := by
  have key : ∀ e ∈ (dictOf h).readings, NamesSet (dictOf h).tags e.2 s ↔ e.2.Perm names := by
    intro e he
    obtain ⟨_, _, _, ids', hids', _⟩ := r.tag.readings e.1 e.2 he
    obtain ⟨ids, hids, hs⟩ := hn
    rw [← findAll_perm r.tag.names r.refines.2.tags hids' hids, ← sortAsc_eq_iff_perm, hs]
    constructor
    · intro h1; exact (h1.unique ⟨ids', hids', rfl⟩).symm
    · intro h1; exact ⟨ids', hids', h1⟩
  obtain ⟨⟨e, h1, h2⟩, h3⟩ := hu
  have hlt := (List.getElem?_eq_some_iff.1 h1)
  unfold Dict.firstUse
  rw [List.findIdx_eq hlt.1]
  refine ⟨?_, ?_⟩
  · rw [hlt.2]; simpa using (key e (List.mem_of_getElem? h1)).1 h2
  · intro j hj
    have hjl : j < (dictOf h).readings.length := by have := hlt.1; omega
    have := h3 j _ hj (List.getElem?_eq_getElem hjl)
    rw [key _ (List.getElem_mem hjl)] at this
    simpa using this

theorem idxOf_tagOf {tags : List Tag} (hn : (tags.map (·.name)).Nodup) {i : UInt8} (hi : i.toNat < tags.length) :
    tags.idxOf (tagOf tags i) = i.toNat := by
  unfold tagOf
  rw [tagsGet_eq, List.getElem?_eq_getElem hi, Option.getD_some]
  exact List.Nodup.idxOf_getElem (hn.of_map _) _ hi

/-- What is shown for a collection is arranged. -/
theorem arranged_coll {h : List Op} {ix : Index} (r : Run h ix) {c : Coll} (hs : c.Pairwise (· ≤ ·)) (hn : c.Nodup)
    (hm : ∀ i ∈ c, ∃ names, names ≠ [] ∧ (∃ e ∈ (dictOf h).readings, e.2 = names) ∧
      TSId (dictOf h).tags ix.tagSets names i) : Arranged (dictOf h) (ix.tagSetsLoop c) := by
  have hl := r.refines.2.tags
  have hget : ∀ i ∈ c, ∃ names ids p m, NamesSet (dictOf h).tags names (sortAsc ids) ∧
      Index.findAll (dictOf h).tags names = .ok ids ∧ gGet ix.tagSets p = some (sortAsc ids) ∧ i = packTS p ∧
      entryOf ix i = (sortAsc ids).map (tagOf (dictOf h).tags) ∧ UsedAt (dictOf h) (sortAsc ids) m ∧
      NamesSet (dictOf h).tags (tagNames (entryOf ix i)) (sortAsc ids) := by
    intro i hi
    obtain ⟨names, hne, ⟨e, he, hen⟩, hts⟩ := hm i hi
    obtain ⟨ids, p, h1, h2, h3, h4⟩ := hts.get r.caps hne
    obtain ⟨m, hu, -⟩ := usedAt_exists he (s := sortAsc ids) (by rw [hen]; exact ⟨ids, h1, rfl⟩)
    have hent : entryOf ix i = (sortAsc ids).map (tagOf (dictOf h).tags) := by
      unfold entryOf; rw [h4, r.tag.tags]; rfl
    refine ⟨names, ids, p, m, ⟨ids, h1, rfl⟩, h1, h2, h3, hent, hu, ?_⟩
    have hp := (entryOf_names r.refines.1 r.caps hl hne hts).1
    obtain ⟨ids', h1'⟩ : ∃ ids', Index.findAll (dictOf h).tags (tagNames (entryOf ix i)) = .ok ids' := by
      refine all_hasTag_iff.1 ?_
      have hall := all_hasTag_iff (d := dictOf h).2 ⟨ids, h1⟩
      rw [List.all_eq_true] at hall ⊢
      intro x hx
      exact hall x (hp.mem_iff.1 hx)
    exact ⟨ids', h1', sortAsc_eq_iff_perm.2 ((findAll_perm r.tag.names hl h1' h1).2 hp)⟩
  have hmap : ix.tagSetsLoop c = c.map (entryOf ix) := tagSetsLoop_map fun i hi => by
    obtain ⟨names, hne, -, hts⟩ := hm i hi
    obtain ⟨_, _, _, _, _, hg⟩ := hts.get r.caps hne
    rw [hg]; rfl
  rw [hmap]
  constructor
  · rw [List.pairwise_map]
    refine List.Pairwise.imp_of_mem ?_ (hs.and hn)
    rintro i j hi hj ⟨hle, hne⟩
    obtain ⟨_, ids, p, m, -, -, hp, rfl, he, hu, hn1⟩ := hget i hi
    obtain ⟨_, ids', q, m', -, -, hq, rfl, he', hu', hn1'⟩ := hget j hj
    have lp := (gGet_sorted r.tag.sets hp).2
    have lq := (gGet_sorted r.tag.sets hq).2
    have le : (entryOf ix (packTS p)).length = p.1 + 1 := by rw [he, List.length_map, lp]
    have le' : (entryOf ix (packTS q)).length = q.1 + 1 := by rw [he', List.length_map, lq]
    rw [le, le', hu.firstUse r hn1, hu'.firstUse r hn1']
    rcases packTS_le (r.caps.set hp).1 (r.caps.set hp).2 (r.caps.set hq).1 (r.caps.set hq).2 hle
      (fun e => hne (by rw [e])) with h1 | ⟨h1, h2⟩
    · left; omega
    · right
      refine ⟨by omega, ?_⟩
      obtain ⟨p1, p2⟩ := p
      obtain ⟨q1, q2⟩ := q
      simp only at h1 h2
      subst h1
      exact r.setOrder p1 p2 q2 _ _ m m' hp hq h2 hu hu'
  · intro t ht
    obtain ⟨i, hi, rfl⟩ := List.mem_map.1 ht
    obtain ⟨_, ids, p, m, -, hfa, hp, -, he, -, -⟩ := hget i hi
    rw [he, List.pairwise_map]
    refine List.Pairwise.imp_of_mem ?_ (gGet_sorted r.tag.sets hp).1
    intro a b ha hb hab
    rw [idxOf_tagOf r.tag.names (findAll_lt r.tag.names hl hfa a (mem_sortAsc.1 ha)),
      idxOf_tagOf r.tag.names (findAll_lt r.tag.names hl hfa b (mem_sortAsc.1 hb))]
    exact hab

end Verif
