import Verif.Lemmas.Capacity
import Verif.Lemmas.Readings
import Verif.Spec.Room

/-! # Histories within capacity are runs -/

namespace Verif

/-- Pigeonhole: a duplicate free list that is covered injectively is no longer than the cover. -/
theorem length_le_of_inj_cover {α β : Type} (R : α → β → Prop) (t : List α) (L : List β) (hn : t.Nodup)
    (hex : ∀ a ∈ t, ∃ b ∈ L, R a b) (hinj : ∀ a ∈ t, ∀ a' ∈ t, ∀ b, R a b → R a' b → a = a') :
    t.length ≤ L.length := by
  induction t generalizing L with
  | nil => exact Nat.zero_le _
  | cons a t ih =>
    obtain ⟨b, hb, hR⟩ := hex a (List.mem_cons_self ..)
    obtain ⟨l1, l2, rfl⟩ := List.append_of_mem hb
    rw [List.nodup_cons] at hn
    have := ih (l1 ++ l2) hn.2 (fun a' ha' => by
      obtain ⟨b', hb', hR'⟩ := hex a' (List.mem_cons_of_mem _ ha')
      refine ⟨b', ?_, hR'⟩
      rw [List.mem_append, List.mem_cons] at hb'
      rw [List.mem_append]
      rcases hb' with hb' | rfl | hb'
      · exact .inl hb'
      · have := hinj a (List.mem_cons_self ..) a' (List.mem_cons_of_mem _ ha') b' hR hR'
        subst this
        exact absurd ha' hn.1
      · exact .inr hb')
      (fun x hx y hy => hinj x (List.mem_cons_of_mem _ hx) y (List.mem_cons_of_mem _ hy))
    simp only [List.length_append, List.length_cons] at this ⊢
    omega

/-! ## The specification along a history -/

theorem dictOf_readings_prefix (h h' : List Op) : (dictOf h).readings <+: (dictOf (h ++ h')).readings := by
  induction h' using list_reverse_induction with
  | nil => rw [List.append_nil]; exact List.prefix_refl _
  | snoc l op ih =>
    rw [← List.append_assoc, dictOf_append]
    rcases Op.spec_readings (dictOf (h ++ l)) op with e | ⟨id, names, rfl, e⟩
    · rw [e]; exact ih
    · rw [e]; exact ih.trans (List.prefix_append _ _)

theorem Op.spec_tags_length (d : Dict) (op : Op) : d.tags.length ≤ (op.spec d).tags.length := by
  have hins : ∀ p rs, (d.insert p rs).tags = d.tags := by
    intro p rs; unfold Dict.insert; split
    · rfl
    · split <;> rfl
  cases op with
  | addRunes rs => simp [Op.spec, hins]
  | addString w => simp [Op.spec, hins]
  | addToNode id rs => simp [Op.spec, hins]
  | tagID name parent => simp only [Op.spec]; split <;> simp
  | addTagSet id names => simp only [Op.spec]; split <;> simp
  | reload => simp [Op.spec]
  | _ => exact Nat.le_refl _

theorem attached_mono {d d' : Dict} (h : d.readings <+: d'.readings) (k : Nat) : d.attached k <+: d'.attached k := by
  obtain ⟨e, he⟩ := h
  unfold Dict.attached
  rw [← he, List.filter_append, List.map_append]
  exact List.prefix_append _ _

theorem Room.init {h : List Op} {op : Op} (r : Room (h ++ [op])) : Room h := by
  have hr := dictOf_readings_prefix h [op]
  constructor
  · exact Nat.lt_of_le_of_lt (dictOf_nodes_prefix h [op]).length_le r.nodes
  · have := r.tags
    rw [dictOf_append] at this
    exact (Op.spec_tags_length _ op).trans this
  · exact fun o ho => r.plain o (List.mem_append_left _ ho)
  · obtain ⟨L, h1, h2⟩ := r.readings
    exact ⟨L, h1, fun e he => h2 e (hr.subset he)⟩
  · intro k
    obtain ⟨L, h1, h2⟩ := r.perWord k
    exact ⟨L, h1, fun n hn => h2 n ((attached_mono hr k).subset hn)⟩
  · obtain ⟨L, h1, h2⟩ := r.sets
    exact ⟨L, h1, fun q hq => h2 q (hq.trans (List.prefix_append _ _))⟩

/-! ## Where the entries of the tables come from -/

/-- Every entry of the tables comes from the history. -/
structure Orig (ix : Index) (h : List Op) : Prop where
  savable : ∀ t ∈ (dictOf h).tags, Savable t
  setTables : ix.tagSets.length ≤ 255
  sets : ∀ p s, gGet ix.tagSets p = some s → ∃ e ∈ (dictOf h).readings, ∃ ids,
    Index.findAll (dictOf h).tags e.2 = .ok ids ∧ s = sortAsc ids
  collTables : ix.collectionIdx.length ≤ 255
  colls : ∀ p c, gGet ix.collectionIdx p = some c → ∃ q, q <+: h ∧ ∃ k, (dictOf q).attached k ≠ [] ∧
    ∀ i, i ∈ c ↔ ∃ names ∈ (dictOf q).attached k, TSId (dictOf h).tags ix.tagSets names i

theorem Orig.new : Orig Index.new [] := by
  constructor
  · simp [dictOf, Dict.empty]
  · simp [Index.new]
  · intro p s h; simp [Index.new, gGet] at h
  · simp [Index.new]
  · intro p s h; simp [Index.new, gGet] at h

theorem TSId.perm {tags : List Tag} (hn : (tags.map (·.name)).Nodup) (hl : tags.length ≤ 256) {sets : TagSetIndex}
    {a b : List Str} (hp : a.Perm b) {i : TagSetID} (h : TSId tags sets a i) : TSId tags sets b i := by
  obtain ⟨ids, h1, h2⟩ := h
  have hall : b.all (Dict.hasTag { Dict.empty with tags := tags }) = true := by
    have := (all_hasTag_iff (d := { Dict.empty with tags := tags })).2 ⟨ids, h1⟩
    rw [List.all_eq_true] at this ⊢
    exact fun x hx => this x (hp.mem_iff.2 hx)
  obtain ⟨ids', h1'⟩ := all_hasTag_iff.1 hall
  have hpi : ids.Perm ids' := (findAll_perm hn hl h1 h1').2 hp
  refine ⟨ids', h1', ?_⟩
  rcases h2 with ⟨rfl, hi⟩ | ⟨h0, p, hg, hi⟩
  · exact .inl ⟨List.nil_perm.1 hpi, hi⟩
  · refine .inr ⟨?_, p, ?_, hi⟩
    · rintro rfl; exact h0 (List.perm_nil.1 hpi)
    · rw [hg, sortAsc_eq_iff_perm.2 hpi]

/-- The sizes that follow. -/
theorem Orig.set_le {ix : Index} {h : List Op} (o : Orig ix h) (r : Refines ix (dictOf h)) (hl : (dictOf h).tags.length ≤ 256)
    {L : List (List Str)} (hL : ∀ e ∈ (dictOf h).readings, ∃ l ∈ L, l.Perm e.2) :
    ∀ t ∈ ix.tagSets, t.length ≤ L.length := by
  intro t ht
  obtain ⟨i, hi, rfl⟩ := List.getElem_of_mem ht
  have ei : ix.tagSets.getD i [] = ix.tagSets[i] := by
    rw [List.getD_eq_getElem?_getD, List.getElem?_eq_getElem hi]; rfl
  refine length_le_of_inj_cover (fun s l => ∃ e ∈ (dictOf h).readings, l.Perm e.2 ∧ ∃ ids,
    Index.findAll (dictOf h).tags e.2 = .ok ids ∧ s = sortAsc ids) _ L ?_ ?_ ?_
  · have := (r.tag.sets i).1
    rwa [ei] at this
  · intro s hs
    obtain ⟨j, hj⟩ := List.getElem?_of_mem hs
    obtain ⟨e, he, ids, h1, h2⟩ := o.sets (i, j) s (by unfold gGet; rw [ei]; exact hj)
    obtain ⟨l, hl, hp⟩ := hL e he
    exact ⟨l, hl, e, he, hp, ids, h1, h2⟩
  · rintro s _ s' _ l ⟨e, _, hp, ids, h1, rfl⟩ ⟨e', _, hp', ids', h1', rfl⟩
    exact sortAsc_eq_iff_perm.2 ((findAll_perm r.tag.names hl h1 h1').2 (hp.symm.trans hp'))

theorem coll_length_le {ix : Index} {d : Dict} (r : Refines ix d) (hl : d.tags.length ≤ 256) {c : Coll} (hc : c.Nodup)
    {A : List (List Str)} (hm : ∀ i, i ∈ c ↔ ∃ names ∈ A, TSId d.tags ix.tagSets names i)
    {L : List (List Str)} (hL : ∀ names ∈ A, ∃ l ∈ L, l.Perm names) : c.length ≤ L.length := by
  refine length_le_of_inj_cover (fun i l => ∃ names, l.Perm names ∧ TSId d.tags ix.tagSets names i) _ L hc ?_ ?_
  · intro i hi
    obtain ⟨names, hn, ht⟩ := (hm i).1 hi
    obtain ⟨l, hl, hp⟩ := hL names hn
    exact ⟨l, hl, names, hp, ht⟩
  · rintro i _ i' _ l ⟨n, hp, ht⟩ ⟨n', hp', ht'⟩
    exact (ht.perm r.tag.names hl (hp.symm.trans hp')).unique r.tag.sets ht'

theorem Orig.coll_le {ix : Index} {h : List Op} (o : Orig ix h) (r : Refines ix (dictOf h))
    (hl : (dictOf h).tags.length ≤ 256) {L : List (List (List Str))}
    (hL : ∀ q, q <+: h → ∀ k, (dictOf q).attached k ≠ [] → ∃ A ∈ L, SameSets A ((dictOf q).attached k)) :
    ∀ t ∈ ix.collectionIdx, t.length ≤ L.length := by
  intro t ht
  obtain ⟨i, hi, rfl⟩ := List.getElem_of_mem ht
  have ei : ix.collectionIdx.getD i [] = ix.collectionIdx[i] := by
    rw [List.getD_eq_getElem?_getD, List.getElem?_eq_getElem hi]; rfl
  have hg : ∀ c ∈ ix.collectionIdx[i], ∃ j, gGet ix.collectionIdx (i, j) = some c := by
    intro c hc
    obtain ⟨j, hj⟩ := List.getElem?_of_mem hc
    exact ⟨j, by unfold gGet; rw [ei]; exact hj⟩
  refine length_le_of_inj_cover (fun c A => ∃ B : List (List Str), SameSets A B ∧
    ∀ i, i ∈ c ↔ ∃ names ∈ B, TSId (dictOf h).tags ix.tagSets names i) _ L ?_ ?_ ?_
  · have := (r.tag.colls i).1
    rwa [ei] at this
  · intro c hc
    obtain ⟨j, hj⟩ := hg c hc
    obtain ⟨q, hq, k, hne, hm⟩ := o.colls (i, j) c hj
    obtain ⟨A, hA, hs⟩ := hL q hq k hne
    exact ⟨A, hA, _, hs, hm⟩
  · rintro c hc c' hc' A ⟨B, hs, hm⟩ ⟨B', hs', hm'⟩
    obtain ⟨j, hj⟩ := hg c hc
    obtain ⟨j', hj'⟩ := hg c' hc'
    refine eq_of_sorted_nodup (gGet_sorted r.tag.colls hj).1 (gGet_sorted r.tag.colls hj').1
      (r.tag.collNodup _ _ hj) (r.tag.collNodup _ _ hj') fun x => ?_
    rw [hm, hm']
    constructor
    · rintro ⟨n, hn, ht⟩
      obtain ⟨a, ha, hp⟩ := hs.2 n hn
      obtain ⟨n', hn', hp'⟩ := hs'.1 a ha
      exact ⟨n', hn', ht.perm r.tag.names hl (hp.symm.trans hp')⟩
    · rintro ⟨n, hn, ht⟩
      obtain ⟨a, ha, hp⟩ := hs'.2 n hn
      obtain ⟨n', hn', hp'⟩ := hs.1 a ha
      exact ⟨n', hn', ht.perm r.tag.names hl (hp.symm.trans hp')⟩

theorem Orig.fits {ix : Index} {h : List Op} (o : Orig ix h) (r : Refines ix (dictOf h)) (m : Room h) :
    Fits ix (dictOf h) := by
  have h1 := m.tags
  obtain ⟨L, l1, l2⟩ := m.readings
  obtain ⟨K, k1, k2⟩ := m.sets
  have e1 := o.setTables
  have e2 := o.collTables
  refine ⟨m.nodes, by omega, by omega, ?_, by omega, ?_⟩
  · intro t ht
    have := o.set_le r (by omega) l2 t ht
    omega
  · intro t ht
    have := o.coll_le r (by omega) k2 t ht
    omega

theorem Orig.allowed {ix : Index} {h : List Op} (o : Orig ix h) (r : Refines ix (dictOf h)) (m : Room h) (op : Op) :
    op.Allowed ix (dictOf h) := by
  have f := o.fits r m
  have h1 := m.tags
  have e1 := o.setTables
  have e2 := o.collTables
  cases op with
  | reload =>
    refine ⟨⟨?_, ?_, ?_, ?_, ?_, ?_, ?_, ?_⟩, o.savable⟩
    · rw [r.tag.tags]; omega
    · omega
    · obtain ⟨L, l1, l2⟩ := m.readings
      intro t ht
      have := o.set_le r (by omega) l2 t ht
      omega
    · intro t ht x hx
      obtain ⟨i, hi, rfl⟩ := List.getElem_of_mem ht
      have := r.tag.sets i
      rw [List.getD_eq_getElem?_getD, List.getElem?_eq_getElem hi] at this
      have := (this.2 x (by simpa using hx)).1
      omega
    · omega
    · intro t ht
      have := f.colls t ht
      omega
    · intro t ht x hx
      obtain ⟨i, hi, rfl⟩ := List.getElem_of_mem ht
      have := r.tag.colls i
      rw [List.getD_eq_getElem?_getD, List.getElem?_eq_getElem hi] at this
      have := (this.2 x (by simpa using hx)).1
      omega
    · rw [r.trie.next]; exact r.trie.cap
  | _ => trivial

/-! ## One more call -/

/-- A call that leaves the tables alone. -/
theorem Orig.keep {ix ix' : Index} {h : List Op} {op : Op} (o : Orig ix h) (r : Refines ix (dictOf h))
    (hs : ix'.tagSets = ix.tagSets) (hc : ix'.collectionIdx = ix.collectionIdx)
    (ht : ∀ e ∈ (dictOf h).readings, ∀ ids, Index.findAll (dictOf h).tags e.2 = .ok ids →
      Index.findAll (dictOf (h ++ [op])).tags e.2 = .ok ids)
    (hv : ∀ t ∈ (dictOf (h ++ [op])).tags, Savable t) : Orig ix' (h ++ [op]) := by
  have hp := dictOf_readings_prefix h [op]
  have hiff : ∀ e ∈ (dictOf h).readings, ∀ i, TSId (dictOf h).tags ix.tagSets e.2 i ↔
      TSId (dictOf (h ++ [op])).tags ix.tagSets e.2 i := by
    intro e he i
    constructor
    · rintro ⟨ids, h1, h2⟩
      exact ⟨ids, ht e he ids h1, h2⟩
    · intro hi
      obtain ⟨_, _, j, ids, h1, h2⟩ := r.tag.readings e.1 e.2 he
      have : TSId (dictOf (h ++ [op])).tags ix.tagSets e.2 j := ⟨ids, ht e he ids h1, h2⟩
      rw [hi.unique r.tag.sets this]
      exact ⟨ids, h1, h2⟩
  refine ⟨hv, by rw [hs]; exact o.setTables, ?_, by rw [hc]; exact o.collTables, ?_⟩
  · intro p s hg
    rw [hs] at hg
    obtain ⟨e, he, ids, h1, h2⟩ := o.sets p s hg
    exact ⟨e, hp.subset he, ids, ht e he ids h1, h2⟩
  · intro p c hg
    rw [hc] at hg
    obtain ⟨q, hq, k, hne, hm⟩ := o.colls p c hg
    refine ⟨q, hq.trans (List.prefix_append _ _), k, hne, fun i => ?_⟩
    rw [hm, hs]
    obtain ⟨t, rfl⟩ := hq
    constructor
    · rintro ⟨n, hn, hi⟩
      exact ⟨n, hn, (hiff (k, n) ((dictOf_readings_prefix q t).subset (mem_attached.1 hn)) i).1 hi⟩
    · rintro ⟨n, hn, hi⟩
      exact ⟨n, hn, (hiff (k, n) ((dictOf_readings_prefix q t).subset (mem_attached.1 hn)) i).2 hi⟩

/-- A successful `AddTagSet`. -/
theorem Orig.addTagSet {ix : Index} {h : List Op} (o : Orig ix h) (r : Refines ix (dictOf h)) (m : Room h) (id : ID)
    (names : List Str) (m' : Room (h ++ [.addTagSet id names])) (h0 : 0 < id.toNat)
    (h1 : id.toNat < (dictOf h).nodes.length) {ids : TagSet} (hids : Index.findAll (dictOf h).tags names = .ok ids)
    (hall : names.all (dictOf h).hasTag = true) : Orig (ix.addTagSet id names).1 (h ++ [.addTagSet id names]) := by
  have hf := o.fits r m
  have hcaps := hf.caps
  have hdict : dictOf (h ++ [.addTagSet id names]) =
      { dictOf h with readings := (dictOf h).readings ++ [(id.toNat, names)] } := by
    rw [dictOf_append]; simp only [Op.spec]; rw [if_pos ⟨hall, h0, h1⟩]
  obtain ⟨it, w, hg, hit, _⟩ := r.trie.items_get h0 h1
  obtain ⟨coll, hcoll, hmem⟩ := r.tag.vars id.toNat it h1 hit
  have hcn : coll.Nodup := by
    rcases hcoll with ⟨_, rfl⟩ | ⟨p, hp, _⟩
    · exact List.nodup_nil
    · exact r.tag.collNodup p coll hp
  have hclen : coll.length ≤ 255 := by
    rcases hcoll with ⟨_, rfl⟩ | ⟨p, hp, _⟩
    · simp
    · have := (gGet_sorted r.tag.colls hp).2
      have := gGet_col_lt hp
      have := o.collTables
      omega
  have hget := hcoll.get hcaps
  have hplain : names.length ≤ 255 := m'.plain (.addTagSet id names) (by simp)
  have hset : ∃ sets' tsid, ix.tagSets.index ids = (sets', tsid) ∧ GInv sets' ∧ sets'.length ≤ 255 ∧
      (∀ p s, gGet sets' p = some s → (∃ p, gGet ix.tagSets p = some s) ∨ s = sortAsc ids) ∧
      TSId (dictOf h).tags sets' names tsid ∧
      (∀ n x, TSId (dictOf h).tags ix.tagSets n x → TSId (dictOf h).tags sets' n x) := by
    by_cases hne : ids = []
    · subst hne
      exact ⟨ix.tagSets, 0, rfl, r.tag.sets, o.setTables, fun p s hs => .inl ⟨p, hs⟩,
        ⟨[], hids, .inl ⟨rfl, rfl⟩⟩, fun _ _ h => h⟩
    · refine ⟨_, _, TagSetIndex.index_eq _ hne, GInv_gIndex r.tag.sets hne, ?_, ?_, ?_, ?_⟩
      · rw [gIndex_fst_length]
        have := findAll_length hids
        have := o.setTables
        have := List.length_pos_iff.2 hne
        omega
      · intro p s hs
        have hm := gGet_mem hs
        rw [gIndex_getD] at hm
        split at hm
        · rw [gTable_mem] at hm
          rcases hm with hm | rfl
          · obtain ⟨j, hj⟩ := List.getElem?_of_mem hm
            exact .inl ⟨(p.1, j), hj⟩
          · exact .inr rfl
        · obtain ⟨j, hj⟩ := List.getElem?_of_mem hm
          exact .inl ⟨(p.1, j), hj⟩
      · exact ⟨ids, hids, .inr ⟨hne, _, gGet_gIndex_self _ _, rfl⟩⟩
      · exact fun _ _ h => h.mono_sets ids
  obtain ⟨sets', tsid, hidx, hsInv, hslen, hsets, hts, hmono⟩ := hset
  have hadd := Coll.add_ne_nil coll tsid
  have hvidx := VariantsIndex.index_eq ix.collectionIdx hadd
    (by have := Coll.length_add coll tsid; omega)
  have hattn : (dictOf (h ++ [.addTagSet id names])).attached id.toNat = (dictOf h).attached id.toNat ++ [names] := by
    rw [hdict]; unfold Dict.attached; simp
  have hnew : ∀ i, i ∈ Coll.add coll tsid ↔
      ∃ n ∈ (dictOf (h ++ [.addTagSet id names])).attached id.toNat, TSId (dictOf h).tags sets' n i := by
    intro i
    rw [Coll.mem_add, hmem, hattn]
    constructor
    · rintro (⟨n, hn, hx⟩ | rfl)
      · exact ⟨n, List.mem_append_left _ (mem_attached.2 hn), hmono _ _ hx⟩
      · exact ⟨names, by simp, hts⟩
    · rintro ⟨n, hn, hx⟩
      rcases List.mem_append.1 hn with hn | hn
      · left
        obtain ⟨_, _, x', hx'⟩ := r.tag.readings _ _ (mem_attached.1 hn)
        exact ⟨n, mem_attached.1 hn, by rw [hx.unique hsInv (hmono _ _ hx')]; exact hx'⟩
      · right
        rw [List.mem_singleton.1 hn] at hx
        exact hx.unique hsInv hts
  have htags : (dictOf (h ++ [.addTagSet id names])).tags = (dictOf h).tags := by rw [hdict]
  have hexec : (ix.addTagSet id names).1.tagSets = sets' ∧
      (ix.addTagSet id names).1.collectionIdx = (gIndex ix.collectionIdx (Coll.add coll tsid)).1 := by
    unfold Index.addTagSet
    rw [r.tag.tags, hids]
    simp only
    rw [hg]
    simp only
    rw [hget]
    simp only [hidx, hvidx]
    trivial
  have r' : Refines (ix.addTagSet id names).1 (dictOf (h ++ [.addTagSet id names])) := by
    have := r.tag.addTagSet_ok r.trie hcaps hf.tags id names h0 h1 hids
    rw [hdict]
    exact ⟨this.2.2, this.2.1⟩
  have hpre := dictOf_readings_prefix h [.addTagSet id names]
  refine ⟨?_, by rw [hexec.1]; exact hslen, ?_, ?_, ?_⟩
  · rw [htags]; exact o.savable
  · intro p s hs
    rw [hexec.1] at hs
    rw [htags]
    rcases hsets p s hs with ⟨p', hp'⟩ | rfl
    · obtain ⟨e, he, x⟩ := o.sets p' s hp'
      exact ⟨e, hpre.subset he, x⟩
    · exact ⟨(id.toNat, names), by rw [hdict]; simp, ids, hids, rfl⟩
  · rw [hexec.2, gIndex_fst_length]
    obtain ⟨L, l1, l2⟩ := m'.perWord id.toNat
    have := coll_length_le r' (by rw [htags]; exact hf.tags) (Coll.nodup_add hcn tsid) (A :=
      (dictOf (h ++ [.addTagSet id names])).attached id.toNat)
      (by rw [htags, hexec.1]; exact hnew) l2
    have := o.collTables
    have := List.length_pos_iff.2 hadd
    omega
  · intro p c hc
    rw [hexec.2] at hc
    rw [htags, hexec.1]
    have hm := gGet_mem hc
    rw [gIndex_getD] at hm
    have hold : ∀ p c, gGet ix.collectionIdx p = some c → ∃ q, q <+: h ++ [.addTagSet id names] ∧ ∃ k,
        (dictOf q).attached k ≠ [] ∧ ∀ i, i ∈ c ↔ ∃ names ∈ (dictOf q).attached k, TSId (dictOf h).tags sets' names i := by
      intro p c hc
      obtain ⟨q, hq, k, hne, hm⟩ := o.colls p c hc
      refine ⟨q, hq.trans (List.prefix_append _ _), k, hne, fun i => ?_⟩
      rw [hm]
      obtain ⟨t, rfl⟩ := hq
      constructor
      · rintro ⟨n, hn, hi⟩
        exact ⟨n, hn, hmono _ _ hi⟩
      · rintro ⟨n, hn, hi⟩
        obtain ⟨_, _, x', hx'⟩ := r.tag.readings _ _ ((dictOf_readings_prefix q t).subset (mem_attached.1 hn))
        exact ⟨n, hn, by rw [hi.unique hsInv (hmono _ _ hx')]; exact hx'⟩
    split at hm
    · rw [gTable_mem] at hm
      rcases hm with hm | rfl
      · obtain ⟨j, hj⟩ := List.getElem?_of_mem hm
        exact hold (p.1, j) c hj
      · refine ⟨_, List.prefix_refl _, id.toNat, by rw [hattn]; simp, fun i => ?_⟩
        rw [mem_sortAsc]
        exact hnew i
    · obtain ⟨j, hj⟩ := List.getElem?_of_mem hm
      exact hold (p.1, j) c hj

theorem addLoop_colls (rs : List Rune) (o : ID) (ix : Index) (p : ID) :
    (ix.addLoop o p rs).1.collectionIdx = ix.collectionIdx := by
  have step : ∀ (ix : Index) p r ix' c, ix.addStep p r = some (ix', c) → ix'.collectionIdx = ix.collectionIdx := by
    intro ix p r ix' c e
    unfold Index.addStep at e
    simp only at e
    split at e
    · obtain ⟨rfl, _⟩ := Prod.mk.inj (Option.some.inj e); rfl
    · split at e
      · cases e
      · obtain ⟨rfl, _⟩ := Prod.mk.inj (Option.some.inj e); rfl
  induction rs generalizing ix p with
  | nil => rfl
  | cons a rest ih =>
    unfold Index.addLoop
    split
    · rfl
    · split
      · rfl
      · rename_i ix1 next he
        have h1 := step _ _ _ _ _ he
        split
        · exact h1
        · exact (ih ix1 next).trans h1

/-- Any call. -/
theorem Orig.step {ix : Index} {h : List Op} (o : Orig ix h) (r : Refines ix (dictOf h)) (m : Room h) (op : Op)
    (m' : Room (h ++ [op])) : Orig (op.exec ix) (h ++ [op]) := by
  have same : ∀ ix' : Index, ix'.tagSets = ix.tagSets → ix'.collectionIdx = ix.collectionIdx →
      (op.spec (dictOf h)).tags = (dictOf h).tags → Orig ix' (h ++ [op]) := by
    intro ix' a b c
    refine o.keep r a b ?_ ?_
    · rw [dictOf_append, c]; exact fun _ _ _ h => h
    · rw [dictOf_append, c]; exact o.savable
  have ins : ∀ p rs, ((dictOf h).insert p rs).tags = (dictOf h).tags := by
    intro p rs; unfold Dict.insert; split
    · rfl
    · split <;> rfl
  have hcaps := (o.fits r m).caps
  cases op with
  | addRunes rs => exact same _ (addLoop_tables _ _ _ _) (addLoop_colls _ _ _ _) (ins _ _)
  | addString w =>
    refine same _ ?_ ?_ (ins _ _)
    · simp only [Op.exec, Index.addString]
      split
      · rfl
      · exact addLoop_tables _ _ _ _
    · simp only [Op.exec, Index.addString]
      split
      · rfl
      · exact addLoop_colls _ _ _ _
  | addToNode id rs => exact same _ (addLoop_tables _ _ _ _) (addLoop_colls _ _ _ _) (ins _ _)
  | fetchFromItem id rs => exact same _ (fetchFromItem_obs ix id rs).tagSets (fetchFromItem_obs ix id rs).collectionIdx rfl
  | fetchItemFromParent id rs =>
    exact same _ (fetchItemFromParent_obs ix id rs).tagSets (fetchItemFromParent_obs ix id rs).collectionIdx rfl
  | fetchRunes rs => exact same _ (fetchFromItem_obs ix 0 rs).tagSets (fetchFromItem_obs ix 0 rs).collectionIdx rfl
  | fetchString w => exact same _ (fetchFromItem_obs ix 0 _).tagSets (fetchFromItem_obs ix 0 _).collectionIdx rfl
  | tagID name parent =>
    have hp := m'.plain (.tagID name parent) (by simp)
    by_cases hh : (dictOf h).hasTag name = true
    · exact same _ rfl rfl (by simp only [Op.spec]; rw [if_pos hh])
    · have ht : (dictOf (h ++ [.tagID name parent])).tags = (dictOf h).tags ++ [newTag parent name] := by
        rw [dictOf_append]; simp only [Op.spec]; rw [if_neg hh]
      refine o.keep r rfl rfl ?_ ?_
      · intro e _ ids hf
        rw [ht]
        exact findAll_append _ hf
      · rw [ht]
        intro t htm
        rcases List.mem_append.1 htm with htm | htm
        · exact o.savable t htm
        · rw [List.mem_singleton.1 htm]
          obtain ⟨p1, p2, p3⟩ := hp
          refine ⟨p1, p2, ?_⟩
          simp only [newTag]
          split
          · right; rfl
          · rename_i hne
            exact p3.imp_left fun h0 => absurd h0 hne
  | addTagSet id names =>
    by_cases hn : names.all (dictOf h).hasTag = true ∧ 0 < id.toNat ∧ id.toNat < (dictOf h).nodes.length
    · obtain ⟨ids, hids⟩ := all_hasTag_iff.1 hn.1
      exact o.addTagSet r m id names m' hn.2.1 hn.2.2 hids hn.1
    · simp only [Op.exec]
      rw [r.tag.addTagSet_err r.trie id names hn]
      exact same _ rfl rfl (by simp only [Op.spec]; rw [if_neg hn])
  | optimize =>
    obtain ⟨_, t1, t2, hcaps', hused, hsets, ⟨hlen, _⟩, _⟩ := optimize_spec r.trie r.tag hcaps
    have hd : dictOf (h ++ [.optimize]) = dictOf h := by rw [dictOf_append]; rfl
    have k := same { ix with } rfl rfl rfl
    refine ⟨k.savable, ?_, ?_, ?_, ?_⟩
    · show ix.optimize.1.tagSets.length ≤ 255
      rw [hsets]; exact k.setTables
    · show ∀ p s, gGet ix.optimize.1.tagSets p = some s → _
      rw [hsets]; exact k.sets
    · exact hlen.trans k.collTables
    · intro p c hc
      have hc : gGet ix.optimize.1.collectionIdx p = some c := hc
      show ∃ q, q <+: _ ∧ ∃ k, _ ∧ ∀ i, i ∈ c ↔ ∃ names ∈ _, TSId _ ix.optimize.1.tagSets names i
      have hk : packV p ∈ ix.optimize.1.collectionIdx.knownID := (mem_knownID hcaps'.collTables).2 ⟨p, ⟨_, hc⟩, rfl⟩
      obtain ⟨it, hit, hv⟩ := hused _ hk
      obtain ⟨j, hj, hje⟩ := List.getElem_of_mem hit
      have hj' : ix.optimize.1.items.items[j]? = some it := by rw [List.getElem?_eq_getElem hj, hje]
      have hne : packV p ≠ 0 := packV_ne_zero (hcaps'.coll hc).1
      have hjl : j < (dictOf h).nodes.length := by
        by_contra hcon
        exact hne (by rw [← hv]; exact t2.slack j it (by omega) hj')
      obtain ⟨coll, h1, h2⟩ := t2.vars j it hjl hj'
      have hcc : CollOf ix.optimize.1.collectionIdx it.variants c := .inr ⟨p, hc, hv⟩
      obtain rfl := hcc.unique hcaps' h1
      have hcne := (gGet_col_eq t2.colls hc).1
      refine ⟨_, List.prefix_refl _, j, ?_, fun i => ?_⟩
      · rw [hd]
        intro h0
        obtain ⟨x, hx⟩ := List.exists_mem_of_ne_nil _ hcne
        obtain ⟨n, hn, _⟩ := (h2 x).1 hx
        rw [← mem_attached, h0] at hn
        cases hn
      · rw [h2, hd]
        constructor
        · rintro ⟨n, hn, hi⟩; exact ⟨n, mem_attached.2 hn, hi⟩
        · rintro ⟨n, hn, hi⟩; exact ⟨n, mem_attached.1 hn, hi⟩
  | reload =>
    rw [(reload_eq r.tag (o.allowed r m .reload)).2.2]
    refine o.keep r (rebuildFold_other _ _).2.1 (rebuildFold_other _ _).2.2.1 ?_ ?_
    · intro e _ ids hf
      rw [dictOf_append]
      simp only [Op.spec]
      rw [findAll_congr (tags := (dictOf h).tags)]
      · exact hf
      · rw [List.map_map]
        exact List.map_congr_left fun t ht => storedTag_name (o.savable t ht)
    · rw [dictOf_append]
      intro t ht
      simp only [Op.spec] at ht
      obtain ⟨t', ht', rfl⟩ := List.mem_map.1 ht
      exact savable_stored (o.savable t' ht')

theorem run_of_room (h : List Op) (m : Room h) : Run h (execAll h) ∧ Orig (execAll h) h := by
  induction h using list_reverse_induction with
  | nil => exact ⟨.nil, Orig.new⟩
  | snoc h op ih =>
    have m0 := m.init
    obtain ⟨r, o⟩ := ih m0
    have e : execAll (h ++ [op]) = op.exec (execAll h) := by unfold execAll; rw [List.foldl_append]; rfl
    rw [e]
    have ha := o.allowed r.refines.1 m0 op
    have o' := o.step r.refines.1 m0 op m
    have hn := m.nodes
    rw [dictOf_append] at hn
    have r' := r.refines.1.step r.caps r.refines.2.tags op ha hn
    rw [← dictOf_append] at r'
    exact ⟨Run.step op r ha (o'.fits r' m), o'⟩

end Verif
