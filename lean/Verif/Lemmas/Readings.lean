import Verif.Lemmas.Answers
import Verif.Spec.Readings

/-! # Helper lemmas: `TagSets`, and answers as a function of the dictionary -/

namespace Verif

theorem mem_attached {d : Dict} {k : Nat} {names : List Str} :
    names ∈ d.attached k ↔ (k, names) ∈ d.readings := by
  unfold Dict.attached
  simp only [List.mem_map, List.mem_filter, decide_eq_true_eq]
  constructor
  · rintro ⟨⟨k', n⟩, ⟨h, rfl⟩, rfl⟩; exact h
  · intro h; exact ⟨_, ⟨h, rfl⟩, rfl⟩

/-- The collection of a node, as a sorted list without repetition. -/
theorem tagSetsOf_eq {ix : Index} {d : Dict} (r : Refines ix d) (hc : Caps ix) {id : ID}
    (h0 : 0 < id.toNat) (h1 : id.toNat < d.nodes.length) :
    ∃ c : Coll, c.Pairwise (· ≤ ·) ∧ c.Nodup ∧
      (∀ i, i ∈ c ↔ ∃ names ∈ d.attached id.toNat, TSId d.tags ix.tagSets names i) ∧
      ix.tagSetsOf id = .ok (ix.tagSetsLoop c) := by
  obtain ⟨it, w, hg, hit, _⟩ := r.trie.items_get h0 h1
  obtain ⟨c, hcoll, hm⟩ := r.tag.vars id.toNat it h1 hit
  refine ⟨c, ?_, ?_, ?_, ?_⟩
  · rcases hcoll with ⟨_, rfl⟩ | ⟨p, hp, _⟩
    · exact List.Pairwise.nil
    · exact (gGet_sorted r.tag.colls hp).1
  · rcases hcoll with ⟨_, rfl⟩ | ⟨p, hp, _⟩
    · exact List.nodup_nil
    · exact r.tag.collNodup p c hp
  · intro i
    rw [hm i]
    simp only [mem_attached]
  · unfold Index.tagSetsOf
    rw [hg]
    simp only
    rw [hcoll.get hc]
    rfl

theorem tagSetsOf_none {ix : Index} {d : Dict} (r : Refines ix d) {id : ID}
    (h : ¬ (0 < id.toNat ∧ id.toNat < d.nodes.length)) : ix.tagSetsOf id = .panic := by
  unfold Index.tagSetsOf
  rw [r.trie.items_get_none h]

/-- What one entry of `TagSets` shows. -/
def entryOf (ix : Index) (i : TagSetID) : List Tag := ((ix.tagSets.get i).getD []).map (tagOf ix.tags)

theorem tagSetsLoop_map {ix : Index} {c : Coll} (h : ∀ i ∈ c, (ix.tagSets.get i).isSome = true) :
    ix.tagSetsLoop c = c.map (entryOf ix) := by
  induction c with
  | nil => rfl
  | cons i c ih =>
    unfold Index.tagSetsLoop
    have hi := h i (by simp)
    cases hg : ix.tagSets.get i with
    | none => rw [hg] at hi; cases hi
    | some s =>
      simp only
      rw [ih fun j hj => h j (by simp [hj])]
      simp only [List.map_cons, entryOf, hg, Option.getD_some]
      rfl

theorem TSId.get {ix : Index} (hc : Caps ix) {tags : List Tag} {names : List Str} {i : TagSetID}
    (hne : names ≠ []) (h : TSId tags ix.tagSets names i) :
    ∃ ids p, Index.findAll tags names = .ok ids ∧ gGet ix.tagSets p = some (sortAsc ids) ∧ i = packTS p ∧
      ix.tagSets.get i = some (sortAsc ids) := by
  obtain ⟨ids, h1, h2⟩ := h
  have hl := findAll_length h1
  rcases h2 with ⟨rfl, _⟩ | ⟨_, p, hp, rfl⟩
  · exact absurd (List.length_eq_zero_iff.1 hl.symm) hne
  · refine ⟨ids, p, h1, hp, rfl, ?_⟩
    rw [TagSetIndex.get_eq, unpackTS_packTS (hc.set hp).1 (hc.set hp).2]
    exact hp

theorem entryOf_names {ix : Index} {d : Dict} (r : Refines ix d) (hc : Caps ix) (hl : d.tags.length ≤ 256)
    {names : List Str} {i : TagSetID} (hne : names ≠ []) (h : TSId d.tags ix.tagSets names i) :
    (tagNames (entryOf ix i)).Perm names ∧ ∀ x ∈ entryOf ix i, x ∈ d.tags := by
  obtain ⟨ids, p, h1, hp, rfl, hg⟩ := h.get hc hne
  unfold entryOf tagNames
  rw [hg, r.tag.tags]
  simp only [Option.getD_some, List.map_map]
  constructor
  · have := findAll_names r.tag.names hl h1
    rw [← this]
    exact (sortAsc_perm ids).map _
  · intro x hx
    obtain ⟨t, ht, rfl⟩ := List.mem_map.1 hx
    have hlt := findAll_lt r.tag.names hl h1 t (mem_sortAsc.1 ht)
    unfold tagOf
    rw [tagsGet_eq, List.getElem?_eq_getElem hlt]
    exact List.getElem_mem hlt

/-- The list shown for a collection that stands for the readings `A`. -/
theorem exactReadings_coll {ix : Index} {d : Dict} (r : Refines ix d) (hc : Caps ix) (hl : d.tags.length ≤ 256)
    {c : Coll} (hn : c.Nodup) {A : List (List Str)} (hne : [] ∉ A)
    (hex : ∀ names ∈ A, ∃ i, TSId d.tags ix.tagSets names i)
    (hm : ∀ i, i ∈ c ↔ ∃ names ∈ A, TSId d.tags ix.tagSets names i) :
    ExactReadings d.tags A (ix.tagSetsLoop c) := by
  have hnames : ∀ names ∈ A, names ≠ [] := by
    rintro names hn rfl; exact hne hn
  rw [tagSetsLoop_map]
  · constructor
    · intro names hna
      obtain ⟨i, hi⟩ := hex names hna
      exact ⟨entryOf ix i, List.mem_map.2 ⟨i, (hm i).2 ⟨names, hna, hi⟩, rfl⟩,
        (entryOf_names r hc hl (hnames names hna) hi).1⟩
    · intro t ht
      obtain ⟨i, hi, rfl⟩ := List.mem_map.1 ht
      obtain ⟨names, hna, hts⟩ := (hm i).1 hi
      exact ⟨names, hna, (entryOf_names r hc hl (hnames names hna) hts).1⟩
    · rw [List.pairwise_map]
      refine List.Pairwise.imp_of_mem ?_ hn
      intro i j hi hj hij hperm
      obtain ⟨n1, hn1, ht1⟩ := (hm i).1 hi
      obtain ⟨n2, hn2, ht2⟩ := (hm j).1 hj
      have p1 := (entryOf_names r hc hl (hnames n1 hn1) ht1).1
      have p2 := (entryOf_names r hc hl (hnames n2 hn2) ht2).1
      have hp : n1.Perm n2 := p1.symm.trans (hperm.trans p2)
      obtain ⟨ids1, q1, e1, g1, rfl, _⟩ := ht1.get hc (hnames n1 hn1)
      obtain ⟨ids2, q2, e2, g2, rfl, _⟩ := ht2.get hc (hnames n2 hn2)
      have := (findAll_perm r.tag.names hl e1 e2).2 hp
      rw [sortAsc_eq_iff_perm.2 this] at g1
      exact hij (by rw [gGet_inj r.tag.sets g1 g2])
    · intro t ht
      obtain ⟨i, hi, rfl⟩ := List.mem_map.1 ht
      obtain ⟨names, hna, hts⟩ := (hm i).1 hi
      exact (entryOf_names r hc hl (hnames names hna) hts).2
  · intro i hi
    obtain ⟨names, hna, hts⟩ := (hm i).1 hi
    obtain ⟨_, _, _, _, _, hg⟩ := hts.get hc (hnames names hna)
    rw [hg]; rfl

theorem exactReadings_of {ix : Index} {d : Dict} (r : Refines ix d) (hc : Caps ix) (hl : d.tags.length ≤ 256)
    {id : ID} (h0 : 0 < id.toNat) (h1 : id.toNat < d.nodes.length) (hne : [] ∉ d.attached id.toNat) :
    ∃ L, ix.tagSetsOf id = .ok L ∧ ExactReadings d.tags (d.attached id.toNat) L := by
  obtain ⟨c, _, hn, hm, he⟩ := tagSetsOf_eq r hc h0 h1
  exact ⟨_, he, exactReadings_coll r hc hl hn hne
    (fun names hna => (r.tag.readings _ names (mem_attached.1 hna)).2.2) hm⟩

/-! ## Two indexes with the same dictionary -/

theorem eq_of_sorted_nodup {a b : Coll} (ha : a.Pairwise (· ≤ ·)) (hb : b.Pairwise (· ≤ ·)) (na : a.Nodup)
    (nb : b.Nodup) (h : ∀ i, i ∈ a ↔ i ∈ b) : a = b :=
  eq_of_perm_of_sorted ha hb ((List.perm_ext_iff_of_nodup na nb).2 h)

theorem tagSetsOf_same {ix ix' : Index} {d d' : Dict} (r : Refines ix d) (r' : Refines ix' d') (hc : Caps ix)
    (hc' : Caps ix') (hn : d'.nodes.length = d.nodes.length) (ht : d'.tags = d.tags) (hr : d'.readings = d.readings)
    (hs : ix'.tagSets = ix.tagSets) (id : ID) : ix'.tagSetsOf id = ix.tagSetsOf id := by
  by_cases h : 0 < id.toNat ∧ id.toNat < d.nodes.length
  · obtain ⟨c, s1, n1, m1, e1⟩ := tagSetsOf_eq r hc h.1 h.2
    obtain ⟨c', s2, n2, m2, e2⟩ := tagSetsOf_eq r' hc' h.1 (by rw [hn]; exact h.2)
    have : c' = c := eq_of_sorted_nodup s2 s1 n2 n1 fun i => by
      rw [m1, m2, ht, hs]; unfold Dict.attached; rw [hr]
    rw [e1, e2, this, tagSetsLoop_congr hs (by rw [r.tag.tags, r'.tag.tags, ht])]
  · rw [tagSetsOf_none r h, tagSetsOf_none r' (by rw [hn]; exact h)]

/-- The answer of a node is the same in a later state in which nothing was attached to it. -/
theorem tagSetsOf_later {ix ix' : Index} {d d' : Dict} (r : Refines ix d) (r' : Refines ix' d') (hc : Caps ix)
    (hc' : Caps ix') (hl' : d'.tags.length ≤ 256) (hn : d.nodes.length ≤ d'.nodes.length)
    (ht : d.tags <+: d'.tags)
    (hs : ∀ p s, gGet ix.tagSets p = some s → gGet ix'.tagSets p = some s) {id : ID}
    (h0 : 0 < id.toNat) (h1 : id.toNat < d.nodes.length) (hr : d'.attached id.toNat = d.attached id.toNat)
    (hne : [] ∉ d.attached id.toNat) : ix'.tagSetsOf id = ix.tagSetsOf id := by
  have htl := ht.length_le
  obtain ⟨c, s1, n1, m1, e1⟩ := tagSetsOf_eq r hc h0 h1
  obtain ⟨c', s2, n2, m2, e2⟩ := tagSetsOf_eq r' hc' h0 (by omega)
  have hnames : ∀ names ∈ d.attached id.toNat, names ≠ [] := by
    rintro names hn rfl; exact hne hn
  have mono : ∀ names i, TSId d.tags ix.tagSets names i → TSId d'.tags ix'.tagSets names i := by
    rintro names i ⟨ids, g1, g2⟩
    have g1' : Index.findAll d'.tags names = .ok ids := by
      obtain ⟨e, he⟩ := ht
      rw [← he]
      clear he g2
      induction e using list_reverse_induction with
      | nil => rw [List.append_nil]; exact g1
      | snoc e t ih => rw [← List.append_assoc]; exact findAll_append t ih
    refine ⟨ids, g1', ?_⟩
    rcases g2 with g2 | ⟨g0, p, hp, rfl⟩
    · exact .inl g2
    · exact .inr ⟨g0, p, hs p _ hp, rfl⟩
  have hcc : c' = c := eq_of_sorted_nodup s2 s1 n2 n1 fun i => by
    rw [m1, m2, hr]
    constructor
    · rintro ⟨names, hna, hts⟩
      refine ⟨names, hna, ?_⟩
      obtain ⟨_, _, j, hj⟩ := r.tag.readings _ names (mem_attached.1 hna)
      rwa [TSId.unique r'.tag.sets hts (mono names j hj)]
    · rintro ⟨names, hna, hts⟩
      exact ⟨names, hna, mono names i hts⟩
  subst hcc
  have hg : ∀ i ∈ c', ∃ s, ix.tagSets.get i = some s ∧ ix'.tagSets.get i = some s ∧
      ∀ t ∈ s, t.toNat < d.tags.length := by
    intro i hi
    obtain ⟨names, hna, hts⟩ := (m1 i).1 hi
    obtain ⟨ids, p, g1, g2, rfl, g4⟩ := hts.get hc (hnames names hna)
    refine ⟨_, g4, ?_, ?_⟩
    · rw [TagSetIndex.get_eq, unpackTS_packTS (hc.set g2).1 (hc.set g2).2]
      exact hs _ _ g2
    · intro t htm
      exact findAll_lt r.tag.names (by omega) g1 t (mem_sortAsc.1 htm)
  rw [e1, e2, tagSetsLoop_map, tagSetsLoop_map]
  · congr 1
    apply List.map_congr_left
    intro i hi
    obtain ⟨s, h1, h2, h3⟩ := hg i hi
    unfold entryOf
    rw [h1, h2]
    simp only [Option.getD_some]
    apply List.map_congr_left
    intro t htm
    unfold tagOf
    rw [tagsGet_eq, tagsGet_eq, r.tag.tags, r'.tag.tags]
    have hlt := h3 t htm
    rw [prefix_getElem? ht (List.getElem?_eq_getElem hlt), List.getElem?_eq_getElem hlt]
  · intro i hi; obtain ⟨s, h1, _⟩ := hg i hi; rw [h1]; rfl
  · intro i hi; obtain ⟨s, _, h2, _⟩ := hg i hi; rw [h2]; rfl

theorem FetchSpec_same {ix : Index} {d d' : Dict} (h : TrieOK ix d) (hn : d'.nodes = d.nodes)
    {w rs w' rs' : List Rune} (hj : d'.join w' rs' = d.join w rs) {a b : Out ID}
    (ha : TrieOK.FetchSpec d w rs a) (hb : TrieOK.FetchSpec d' w' rs' b) : b = a := by
  unfold TrieOK.FetchSpec at ha hb
  rw [hn, hj] at hb
  have clash : ∀ {k : Nat} {pre : List Rune} {r : Rune} {post : List Rune},
      d.nodes[k]? = some (d.join w rs) → d.join w rs = pre ++ r :: post → pre ++ [r] ∉ d.nodes → False := by
    intro k pre r post h1 h2 h3
    apply h3
    apply h.closed h1
    rw [h2]
    exact ⟨post, by simp⟩
  rcases ha with ⟨id, a1, rfl⟩ | ⟨pre, r, post, a1, _, a2, a3, rfl⟩ <;>
    rcases hb with ⟨id', b1, rfl⟩ | ⟨pre', r', post', b1, _, b2, b3, rfl⟩
  · rw [UInt32.toNat_inj.1 (h.idx_unique a1 b1)]
  · exact (clash a1 b1 b3).elim
  · exact (clash b1 a1 a3).elim
  · have key : ∀ {p q : List Rune} {x y : Rune} {s t : List Rune}, p ++ x :: s = q ++ y :: t →
        q ∈ d.nodes → p ++ [x] ∉ d.nodes → p.length < q.length → False := by
      intro p q x y s t he hq hp hlt
      obtain ⟨k, hk⟩ := TrieOK.exists_idx hq
      apply hp
      apply h.closed hk
      have h1 : p ++ [x] <+: q ++ y :: t := ⟨s, by rw [← he]; simp⟩
      have h2 : q <+: q ++ y :: t := List.prefix_append _ _
      exact List.prefix_of_prefix_length_le h1 h2 (by simp; omega)
    have he : pre ++ r :: post = pre' ++ r' :: post' := by rw [← a1, ← b1]
    have hlen : pre.length = pre'.length := by
      rcases Nat.lt_trichotomy pre.length pre'.length with hl | hl | hl
      · exact (key he b2 a3 hl).elim
      · exact hl
      · exact (key he.symm a2 b3 hl).elim
    obtain ⟨rfl, h2⟩ := List.append_inj he hlen
    obtain ⟨rfl, _⟩ := List.cons.inj h2
    rfl

theorem fetch_same {ix ix' : Index} {d d' : Dict} (h : TrieOK ix d) (h' : TrieOK ix' d')
    (hn : d'.nodes = d.nodes) (id : ID) (rs : List Rune)
    (hj : ∀ w, d.nodes[id.toNat]? = some w → d'.join w rs = d.join w rs) :
    (ix'.fetchFromItem id rs).2 = (ix.fetchFromItem id rs).2 := by
  cases rs with
  | nil => rfl
  | cons r rest =>
    cases hw : d.nodes[id.toNat]? with
    | none => rw [(h.fetch_none hw r rest).1, (h'.fetch_none (by rw [hn]; exact hw) r rest).1]
    | some w =>
      exact FetchSpec_same h hn (hj w hw) (h.fetchFromItem_spec id w _ hw (by simp))
        (h'.fetchFromItem_spec id w _ (by rw [hn]; exact hw) (by simp))

theorem sameExceptNul_of {ix ix' : Index} {d d' : Dict} (r : Refines ix d) (r' : Refines ix' d')
    (hc : Caps ix) (hc' : Caps ix') (hn : d'.nodes = d.nodes) (ht : d'.tags = d.tags)
    (hr : d'.readings = d.readings) (hs : ix'.tagSets = ix.tagSets) : SameAnswersExceptNul ix ix' := by
  have hj : ∀ (id : ID) (rs w : List Rune), (id ≠ 0 ∨ rs.head? ≠ some 0) →
      d.nodes[id.toNat]? = some w → d'.join w rs = d.join w rs := by
    intro id rs w hz hw
    by_cases hw0 : w = []
    · subst hw0
      have : id = 0 := TrieOK.toNat_eq_zero.1 (r.trie.idx_unique hw r.trie.root)
      rcases hz with hz | hz
      · exact absurd this hz
      · rw [Dict.join_root (.inr hz), Dict.join_root (.inr hz)]
    · rw [Dict.join_of_ne hw0, Dict.join_of_ne hw0]
  have hfetch : ∀ id rs, id ≠ 0 ∨ rs.head? ≠ some 0 →
      (ix'.fetchFromItem id rs).2 = (ix.fetchFromItem id rs).2 :=
    fun id rs hz => fetch_same r.trie r'.trie hn id rs fun w hw => hj id rs w hz hw
  constructor
  · exact hfetch
  · intro id rs hz
    rw [fetchItemFromParent_same r.trie, fetchItemFromParent_same r'.trie]
    exact hfetch id rs hz
  · intro id
    unfold Index.get
    rw [r.trie.next, r'.trie.next, hn]
  · intro id
    cases hw : d.nodes[id.toNat]? with
    | none => rw [r.trie.word_none hw, r'.trie.word_none (by rw [hn]; exact hw)]
    | some w => rw [r.trie.word_eq hw, r'.trie.word_eq (by rw [hn]; exact hw)]
  · exact tagSetsOf_same r r' hc hc' (by rw [hn]) ht hr hs
  · intro id c hz
    cases hw : d.nodes[id.toNat]? with
    | none => rw [r.trie.children_none hw, r'.trie.children_none (by rw [hn]; exact hw)]
    | some w =>
      have e : d'.join w [c] = d.join w [c] := hj id [c] w (hz.imp_right (by simp)) hw
      cases hcc : ix.getChildrenMap id c with
      | some x =>
        have := (r.trie.child_some hw c x).1 hcc
        exact (r'.trie.child_some (by rw [hn]; exact hw) c x).2 (by rw [hn, e]; exact this)
      | none =>
        have := (r.trie.child_none hw c).1 hcc
        exact (r'.trie.child_none (by rw [hn]; exact hw) c).2 (by rw [hn, e]; exact this)
  · rw [r.tag.tags, r'.tag.tags, ht]
  · rw [r.trie.nodesCount, r'.trie.nodesCount, hn]
  · rw [r.tag.count, r'.tag.count]
    unfold taggedCount
    rw [hn, hr]

theorem same_of {ix ix' : Index} {d : Dict} (r : Refines ix d) (r' : Refines ix' d)
    (hc : Caps ix) (hc' : Caps ix') (hs : ix'.tagSets = ix.tagSets) : SameAnswers ix ix' := by
  have h := sameExceptNul_of r r' hc hc' rfl rfl rfl hs
  refine ⟨?_, ?_, h.get, h.word, h.tagSets, ?_, h.tags, h.nodesCount, h.wordsCount⟩
  · exact fun id rs => fetch_same r.trie r'.trie rfl id rs fun _ _ => rfl
  · intro id rs
    rw [fetchItemFromParent_same r.trie, fetchItemFromParent_same r'.trie]
    exact fetch_same r.trie r'.trie rfl id rs fun _ _ => rfl
  · intro id
    funext c
    cases hcc : ix.getChildrenMap id c with
    | some x => exact (r'.trie.child id c x).2 ((r.trie.child id c x).1 hcc)
    | none =>
      cases hcc' : ix'.getChildrenMap id c with
      | none => rfl
      | some x =>
        have := (r.trie.child id c x).2 ((r'.trie.child id c x).1 hcc')
        rw [hcc] at this; cases this

/-! ## The tag set table along a run -/

theorem addLoop_tables (rs : List Rune) (o : ID) (ix : Index) (p : ID) :
    (ix.addLoop o p rs).1.tagSets = ix.tagSets := by
  have step : ∀ (ix : Index) p r ix' c, ix.addStep p r = some (ix', c) → ix'.tagSets = ix.tagSets := by
    intro ix p r ix' c e
    unfold Index.addStep at e
    simp only at e
    split at e
    · obtain ⟨rfl, _⟩ := Prod.mk.inj (Option.some.inj e); rfl
    · split at e
      · cases e
      · obtain ⟨rfl, _⟩ := Prod.mk.inj (Option.some.inj e); rfl
  induction rs generalizing ix p with
  | nil => rfl
  | cons a rest ih =>
    unfold Index.addLoop
    split
    · rfl
    · split
      · rfl
      · rename_i ix1 next he
        have h1 := step _ _ _ _ _ he
        split
        · exact h1
        · exact (ih ix1 next).trans h1

/-- How a call changes the table of tag sets. -/
theorem exec_tagSets {ix : Index} {d : Dict} (r : Refines ix d) (hc : Caps ix) (op : Op)
    (ha : op.Allowed ix d) :
    (op.exec ix).tagSets =
      match op with
      | .addTagSet id names =>
        if names.all d.hasTag ∧ 0 < id.toNat ∧ id.toNat < d.nodes.length then
          match Index.findAll d.tags names with
          | .ok ids => (ix.tagSets.index ids).1
          | .error _ => ix.tagSets
        else ix.tagSets
      | _ => ix.tagSets := by
  cases op with
  | addRunes rs => exact addLoop_tables rs 0 ix 0
  | addString w =>
    simp only [Op.exec, Index.addString]
    split
    · rfl
    · exact addLoop_tables _ 0 ix 0
  | addToNode id rs => exact addLoop_tables rs id ix id
  | fetchFromItem id rs => exact (fetchFromItem_obs ix id rs).tagSets
  | fetchItemFromParent id rs => exact (fetchItemFromParent_obs ix id rs).tagSets
  | fetchRunes rs => exact (fetchFromItem_obs ix 0 rs).tagSets
  | fetchString w => exact (fetchFromItem_obs ix 0 _).tagSets
  | tagID name parent => rfl
  | addTagSet id names =>
    simp only
    by_cases hn : names.all d.hasTag = true ∧ 0 < id.toNat ∧ id.toNat < d.nodes.length
    · rw [if_pos hn]
      obtain ⟨ids, hids⟩ := all_hasTag_iff.1 hn.1
      rw [hids]
      obtain ⟨it, w, hg, hit, _⟩ := r.trie.items_get hn.2.1 hn.2.2
      obtain ⟨coll, hcoll, _⟩ := r.tag.vars id.toNat it hn.2.2 hit
      simp only [Op.exec, Index.addTagSet]
      rw [r.tag.tags, hids]
      simp only
      rw [hg]
      simp only
      rw [hcoll.get hc]
    · rw [if_neg hn]
      simp only [Op.exec]
      rw [r.tag.addTagSet_err r.trie id names hn]
  | optimize => exact (optimize_spec r.trie r.tag hc).2.2.2.2.2.1
  | reload =>
    rw [(reload_eq r.tag ha).2.2]
    exact (rebuildFold_other _ _).2.1

theorem exec_tagSets_mono {ix : Index} {d : Dict} (r : Refines ix d) (hc : Caps ix) (op : Op)
    (ha : op.Allowed ix d) (p : Nat × Nat) (s : TagSet) (h : gGet ix.tagSets p = some s) :
    gGet (op.exec ix).tagSets p = some s := by
  rw [exec_tagSets r hc op ha]
  split
  · split
    · split
      · rename_i ids _
        by_cases hi : ids = []
        · subst hi; exact h
        · rw [TagSetIndex.index_eq _ hi]
          exact gGet_gIndex_mono h
      · exact h
    · exact h
  · exact h

theorem Run.tagSets_mono {h h' : List Op} {ix ix' : Index} (r : Run h ix) (r' : Run (h ++ h') ix')
    (p : Nat × Nat) (s : TagSet) (hp : gGet ix.tagSets p = some s) : gGet ix'.tagSets p = some s := by
  induction h' using list_reverse_induction generalizing ix' with
  | nil =>
    rw [List.append_nil] at r'
    rw [r.unique r'] at hp
    exact hp
  | snoc l op ih =>
    rw [← List.append_assoc] at r'
    obtain ⟨ix1, r1, ha, _, rfl⟩ := r'.snoc_inv
    exact exec_tagSets_mono r1.refines.1 r1.caps op ha p s (ih r1)

/-! ## Along a run: tags and readings of the dictionary -/

theorem dictOf_tags_prefix (h h' : List Op) (hr : NoReload h') : (dictOf h).tags <+: (dictOf (h ++ h')).tags := by
  induction h' using list_reverse_induction with
  | nil => rw [List.append_nil]; exact List.prefix_refl _
  | snoc l op ih =>
    rw [← List.append_assoc, dictOf_append]
    refine (ih fun hm => hr (List.mem_append_left _ hm)).trans ?_
    have hins : ∀ d : Dict, ∀ p rs, (d.insert p rs).tags = d.tags := by
      intro d p rs; unfold Dict.insert; split
      · rfl
      · split <;> rfl
    cases op with
    | addRunes rs => simp only [Op.spec]; rw [hins]; exact List.prefix_refl _
    | addString w => simp only [Op.spec]; rw [hins]; exact List.prefix_refl _
    | addToNode id rs => simp only [Op.spec]; rw [hins]; exact List.prefix_refl _
    | tagID name parent =>
      simp only [Op.spec]; split
      · exact List.prefix_refl _
      · exact List.prefix_append _ _
    | addTagSet id names =>
      simp only [Op.spec]; split <;> exact List.prefix_refl _
    | reload => exact absurd (List.mem_append_right l (List.mem_singleton.2 rfl)) hr
    | _ => exact List.prefix_refl _

/-- A tag that the file format keeps stays where it is, whatever is done, saving and loading included. -/
theorem dictOf_tag_kept (h h' : List Op) {i : Nat} {t : Tag} (ht : (dictOf h).tags[i]? = some t)
    (hst : NoReload h' ∨ storedTag t = t) : (dictOf (h ++ h')).tags[i]? = some t := by
  rcases hst with hr | hst
  · exact prefix_getElem? (dictOf_tags_prefix h h' hr) ht
  induction h' using list_reverse_induction with
  | nil => rw [List.append_nil]; exact ht
  | snoc l op ih =>
    by_cases ho : op = .reload
    · subst ho
      rw [← List.append_assoc, dictOf_append]
      simp only [Op.spec, List.getElem?_map, ih, Option.map_some, hst]
    · have := dictOf_tags_prefix (h ++ l) [op] (by simp [NoReload, Ne.symm ho])
      rw [← List.append_assoc]
      exact prefix_getElem? this ih

theorem dictOf_tags_kept (h h' : List Op) (hst : NoReload h' ∨ ∀ t ∈ (dictOf h).tags, storedTag t = t) :
    (dictOf h).tags <+: (dictOf (h ++ h')).tags := by
  rw [List.prefix_iff_getElem?]
  intro i hi
  exact dictOf_tag_kept h h' (List.getElem?_eq_getElem hi) (hst.imp_right fun h => h _ (List.getElem_mem hi))

theorem Op.spec_readings (d : Dict) (op : Op) : (op.spec d).readings = d.readings ∨
    ∃ id names, op = .addTagSet id names ∧ (op.spec d).readings = d.readings ++ [(id.toNat, names)] := by
  have hins : ∀ d : Dict, ∀ p rs, (d.insert p rs).readings = d.readings := by
    intro d p rs; unfold Dict.insert; split
    · rfl
    · split <;> rfl
  cases op with
  | addRunes rs => exact .inl (hins _ _ _)
  | addString w => exact .inl (hins _ _ _)
  | addToNode id rs => exact .inl (hins _ _ _)
  | tagID name parent => simp only [Op.spec]; split <;> exact .inl rfl
  | addTagSet id names =>
    simp only [Op.spec]; split
    · exact .inr ⟨id, names, rfl, rfl⟩
    · exact .inl rfl
  | _ => exact .inl rfl

theorem attached_untouched (h h' : List Op) (n : ID) (hop : ∀ names, Op.addTagSet n names ∉ h') :
    (dictOf (h ++ h')).attached n.toNat = (dictOf h).attached n.toNat := by
  induction h' using list_reverse_induction with
  | nil => rw [List.append_nil]
  | snoc l op ih =>
    rw [← List.append_assoc, dictOf_append, ← ih fun names hm => hop names (List.mem_append_left _ hm)]
    unfold Dict.attached
    rcases Op.spec_readings (dictOf (h ++ l)) op with e | ⟨id, names, rfl, e⟩
    · rw [e]
    · rw [e, List.filter_append]
      have : id.toNat ≠ n.toNat := by
        intro he
        rw [UInt32.toNat_inj] at he
        subst he
        exact hop names (by simp)
      simp [this]

theorem Run.find_mono {h h' : List Op} {ix' : Index} (r' : Run (h ++ h') ix') (name : Str) (id : UInt8)
    (hf : tagsFind (dictOf h).tags name = some id) : tagsFind (dictOf (h ++ h')).tags name = some id := by
  induction h' using list_reverse_induction generalizing ix' with
  | nil => rw [List.append_nil]; exact hf
  | snoc l op ih =>
    rw [← List.append_assoc] at r' ⊢
    obtain ⟨ix1, r1, ha, _, rfl⟩ := r'.snoc_inv
    have hi := ih r1
    by_cases hop : op = .reload
    · subst hop
      rw [dictOf_append]
      have hn : ∀ t ∈ (dictOf (h ++ l)).tags, (storedTag t).name = t.name := by
        intro t ht
        exact storedTag_name (ha.2 t ht)
      rw [← hi]
      exact tagsFind_congr (storedTag_names ha.2) name
    · obtain ⟨e, he⟩ := dictOf_tags_prefix (h ++ l) [op] (by unfold NoReload; simpa using fun h => hop h.symm)
      rw [← he]
      clear he
      induction e using list_reverse_induction with
      | nil => rw [List.append_nil]; exact hi
      | snoc e t ih => rw [← List.append_assoc]; exact tagsFind_append t ih

/-! ## The first one-tag set -/

theorem singleName_some {names : List Str} {x : Str} (h : singleName names = some x) : names = [x] := by
  unfold singleName at h
  split at h
  · cases h; rfl
  · cases h

/-- Position (0, 0) of the tag set table — which the id 0 of the empty reading points to — holds the first
one-tag set. -/
theorem Run.firstSet {h : List Op} {ix : Index} (r : Run h ix) :
    gGet ix.tagSets (0, 0) =
      (dictOf h).firstSingle.bind fun x => (tagsFind (dictOf h).tags x).map fun i => [i] := by
  induction r with
  | nil => rfl
  | @step h ix op r ha hf ih =>
    have r' : Run (h ++ [op]) (op.exec ix) := Run.step op r ha hf
    have hfirst : ∀ x, (dictOf h).firstSingle = some x → ∃ i, tagsFind (dictOf h).tags x = some i := by
      intro x hx
      obtain ⟨⟨k, names⟩, hm, he⟩ := List.exists_of_findSome?_eq_some hx
      obtain ⟨_, _, i, ids, hids, _⟩ := r.tag.readings k names hm
      have hy := singleName_some he
      simp only at hy
      rw [hy] at hids
      have hall := all_hasTag_iff (d := dictOf h).2 ⟨ids, hids⟩
      simp only [List.all_cons, List.all_nil, Bool.and_true] at hall
      exact hasTag_iff.1 hall
    have hkeep : (dictOf (h ++ [op])).firstSingle = (dictOf h).firstSingle →
        ((dictOf (h ++ [op])).firstSingle.bind fun x =>
          (tagsFind (dictOf (h ++ [op])).tags x).map fun i => [i]) = gGet ix.tagSets (0, 0) := by
      intro he
      rw [he, ih]
      cases hx : (dictOf h).firstSingle with
      | none => rfl
      | some x =>
        obtain ⟨i, hi⟩ := hfirst x hx
        simp only [Option.bind_some]
        rw [hi, r'.find_mono x i hi]
    rw [exec_tagSets r.refines.1 r.caps op ha]
    have hsame : (dictOf (h ++ [op])).readings = (dictOf h).readings →
        gGet ix.tagSets (0, 0) = ((dictOf (h ++ [op])).firstSingle.bind fun x =>
          (tagsFind (dictOf (h ++ [op])).tags x).map fun i => [i]) := by
      intro he
      exact (hkeep (by unfold Dict.firstSingle; rw [he])).symm
    by_cases hop : ∃ id names, op = .addTagSet id names
    · obtain ⟨id, names, rfl⟩ := hop
      simp only
      split
      · rename_i hok
        obtain ⟨ids, hids⟩ := all_hasTag_iff.1 hok.1
        rw [hids]
        simp only
        have hlen := findAll_length hids
        have hd : dictOf (h ++ [.addTagSet id names]) =
            { dictOf h with readings := (dictOf h).readings ++ [(id.toNat, names)] } := by
          rw [dictOf_append]; simp only [Op.spec]; rw [if_pos hok]
        by_cases h1 : ∃ x, names = [x]
        · obtain ⟨x, rfl⟩ := h1
          obtain ⟨i, hi⟩ : ∃ i, ids = [i] := List.length_eq_one_iff.1 (by simpa using hlen)
          subst hi
          have hx : tagsFind (dictOf h).tags x = some i := by
            rw [findAll_ok] at hids
            cases hids with | cons h1 _ => exact h1
          rw [TagSetIndex.index_eq _ (by simp)]
          simp only
          cases hfs : (dictOf h).firstSingle with
          | some y =>
            have he : (dictOf (h ++ [.addTagSet id [x]])).firstSingle = (dictOf h).firstSingle := by
              rw [hd]
              unfold Dict.firstSingle at hfs ⊢
              simp only
              rw [List.findSome?_append, hfs]
              rfl
            rw [hkeep he]
            obtain ⟨j, hj⟩ := hfirst y hfs
            rw [hfs] at ih
            simp only [Option.bind_some] at ih
            rw [hj] at ih
            rw [ih]
            exact gGet_gIndex_mono ih
          | none =>
            have he : (dictOf (h ++ [.addTagSet id [x]])).firstSingle = some x := by
              rw [hd]
              unfold Dict.firstSingle at hfs ⊢
              simp only
              rw [List.findSome?_append, hfs]
              rfl
            rw [he]
            simp only [Option.bind_some]
            rw [hd]
            simp only
            rw [hx]
            rw [hfs] at ih
            simp only [Option.bind_none] at ih
            unfold gGet at ih ⊢
            rw [gIndex_getD]
            simp only [List.length_singleton, Nat.sub_self, if_true]
            have : ix.tagSets.getD 0 [] = [] := by
              simp only [List.getElem?_eq_none_iff] at ih
              exact List.length_eq_zero_iff.1 (by omega)
            rw [this]
            rfl
        · have he : (dictOf (h ++ [.addTagSet id names])).firstSingle = (dictOf h).firstSingle := by
            rw [hd]
            unfold Dict.firstSingle
            simp only
            rw [List.findSome?_append]
            have : singleName names = none := by
              cases hx : singleName names with
              | none => rfl
              | some x => exact absurd ⟨x, singleName_some hx⟩ h1
            simp only [List.findSome?_cons, List.findSome?_nil, this, Option.or_none]
          rw [hkeep he]
          by_cases h0 : ids = []
          · subst h0; rfl
          · rw [TagSetIndex.index_eq _ h0]
            simp only
            unfold gGet
            rw [gIndex_getD, if_neg]
            have : names.length ≠ 1 := fun h => h1 (List.length_eq_one_iff.1 h)
            have : ids.length ≠ 0 := by simpa using h0
            simp only
            omega
      · rename_i hok
        refine hsame ?_
        rw [dictOf_append]; simp only [Op.spec]; rw [if_neg hok]
    · have hrd : (dictOf (h ++ [op])).readings = (dictOf h).readings := by
        rw [dictOf_append]
        rcases Op.spec_readings (dictOf h) op with e | ⟨id, names, rfl, e⟩
        · exact e
        · exact absurd ⟨id, names, rfl⟩ hop
      have hs := hsame hrd
      cases op with
      | addTagSet id names => exact absurd ⟨id, names, rfl⟩ hop
      | _ => exact hs

end Verif
