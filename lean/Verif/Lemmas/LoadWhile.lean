import Verif.Model.LoadWhile
import Verif.Lemmas.Loader
import Verif.Lemmas.Answers
import Verif.Lemmas.Receiver
import Verif.Props.FailedLoad

/-! # Helper lemmas: lookups while an index is being loaded -/

namespace Verif

/-! ## The accesses of `rebuildChildrenIndex` -/

/-- Everything but empty maps is the same, and the second index has every map the first has. -/
structure Covers (a b : Index) : Prop where
  obs : Index.Obs a b
  maps : ∀ k, (a.childrenMap k).isSome = true → (b.childrenMap k).isSome = true

theorem Covers.refl (a : Index) : Covers a a := ⟨.refl a, fun _ h => h⟩

theorem exec_keeps_maps (ix : Index) (a : RAct) {k : ID} (h : (ix.childrenMap k).isSome = true) :
    ((a.exec ix).childrenMap k).isSome = true := by
  cases a with
  | make id => exact ensureChildren_keeps_isSome id h
  | put p l c =>
    show (Index.setChild ix.childrenMap p l c k).isSome = true
    unfold Index.setChild
    cases hp : ix.childrenMap p with
    | none => exact h
    | some im =>
      simp only
      split
      · rfl
      · exact h
  | count => exact h

theorem execs_keep_maps (acts : List RAct) (ix : Index) {k : ID} (h : (ix.childrenMap k).isSome = true) :
    ((acts.foldl RAct.exec ix).childrenMap k).isSome = true := by
  induction acts generalizing ix with
  | nil => exact h
  | cons a acts ih => exact ih _ (exec_keeps_maps ix a h)

theorem execs_made {acts : List RAct} {k : ID} (h : RAct.make k ∈ acts) (ix : Index) :
    ((acts.foldl RAct.exec ix).childrenMap k).isSome = true := by
  induction acts generalizing ix with
  | nil => cases h
  | cons a acts ih =>
    rw [List.foldl_cons]
    rcases List.mem_cons.1 h with rfl | h
    · apply execs_keep_maps
      obtain ⟨im, him⟩ := ensureChildren_isSome ix.childrenMap k
      show (Index.ensureChildren ix.childrenMap k k).isSome = true
      rw [him]; rfl
    · exact ih h _

theorem put_children {ix : Index} {p : ID} (h : (ix.childrenMap p).isSome = true) (l : Rune) (c : ID) (q : ID) (m : Rune) :
    ((RAct.put p l c).exec ix).getChildrenMap q m = if q = p ∧ m = l then some c else ix.getChildrenMap q m := by
  obtain ⟨im, him⟩ := Option.isSome_iff_exists.1 h
  exact setChild_get _ im p l c q m him

/-- An access of the load does the same to an index with more empty maps. -/
theorem Covers.exec {a b : Index} (h : Covers a b) (act : RAct)
    (hp : ∀ p l c, act = .put p l c → (a.childrenMap p).isSome = true) : Covers (act.exec a) (act.exec b) := by
  cases act with
  | make id =>
    refine ⟨?_, fun k hk => ?_⟩
    · have ha := getChildrenIDMap_obs a id
      have hb := getChildrenIDMap_obs b id
      exact ⟨h.obs.tags, h.obs.tagSets, h.obs.collectionIdx, h.obs.items,
        (hb.children.trans h.obs.children).trans ha.children.symm, h.obs.wordsCount⟩
    · have hk : (Index.ensureChildren a.childrenMap id k).isSome = true := hk
      show (Index.ensureChildren b.childrenMap id k).isSome = true
      by_cases e : k = id
      · subst e
        obtain ⟨im, him⟩ := ensureChildren_isSome b.childrenMap k
        rw [him]; rfl
      · apply ensureChildren_keeps_isSome
        apply h.maps
        unfold Index.ensureChildren at hk
        cases ha : a.childrenMap id with
        | some _ => rwa [ha] at hk
        | none =>
          rw [ha] at hk
          simpa [e] using hk
  | put p l c =>
    have ha := hp p l c rfl
    have hb := h.maps p ha
    refine ⟨⟨h.obs.tags, h.obs.tagSets, h.obs.collectionIdx, h.obs.items, ?_, h.obs.wordsCount⟩, fun k hk => ?_⟩
    · funext q m
      rw [put_children ha, put_children hb, h.obs.children]
    · by_cases e : k = p
      · subst e; exact exec_keeps_maps b _ hb
      · apply exec_keeps_maps
        apply h.maps
        have hk : (Index.setChild a.childrenMap p l c k).isSome = true := hk
        unfold Index.setChild at hk
        obtain ⟨im, him⟩ := Option.isSome_iff_exists.1 ha
        rw [him] at hk
        simpa [e] using hk
  | count => exact ⟨⟨h.obs.tags, h.obs.tagSets, h.obs.collectionIdx, h.obs.items, h.obs.children,
      congrArg (· + 1) h.obs.wordsCount⟩, h.maps⟩

theorem Covers.lookup {a b b' : Index} (h : Covers a b) (ho : Index.Obs b b')
    (hm : ∀ k, (b.childrenMap k).isSome = true → (b'.childrenMap k).isSome = true) : Covers a b' :=
  ⟨h.obs.trans ho, fun k hk => hm k (h.maps k hk)⟩

theorem fetchFromItem_maps (ix : Index) (p : ID) (rs : List Rune) {k : ID} (h : (ix.childrenMap k).isSome = true) :
    ((ix.fetchFromItem p rs).1.childrenMap k).isSome = true := by
  induction rs generalizing ix p with
  | nil => exact h
  | cons r rest ih =>
    have h1 : ((ix.getChildrenIDMap p).1.childrenMap k).isSome = true := ensureChildren_keeps_isSome p h
    unfold Index.fetchFromItem
    split
    rename_i ix1 cm heq
    rw [heq] at h1
    split
    · exact h1
    · split
      · exact h1
      · exact ih _ _ h1

theorem fetchItemFromParent_maps (ix : Index) (p : ID) (rs : List Rune) {k : ID} (h : (ix.childrenMap k).isSome = true) :
    ((ix.fetchItemFromParent p rs).1.childrenMap k).isSome = true := by
  induction rs generalizing ix p with
  | nil => exact h
  | cons r rest ih =>
    have h1 : ((ix.getChildrenIDMap p).1.childrenMap k).isSome = true := ensureChildren_keeps_isSome p h
    unfold Index.fetchItemFromParent
    split
    rename_i ix1 cm heq
    rw [heq] at h1
    split
    · exact h1
    · split
      · exact h1
      · exact ih _ _ h1

/-- Before an edge is entered, its map was made. -/
theorem made_before (es : List (Item × Nat)) {done rest : List RAct} {p : ID} {l : Rune} {c : ID}
    (h : es.flatMap RAct.ofItem = done ++ .put p l c :: rest) : RAct.make p ∈ done := by
  induction es generalizing done with
  | nil => simp at h
  | cons e es ih =>
    rw [List.flatMap_cons] at h
    unfold RAct.ofItem at h
    match done, h with
    | [], h => simp at h
    | [x], h => simp at h
    | [x, y], h =>
      simp only [List.cons_append, List.nil_append, List.cons.injEq] at h
      obtain ⟨h1, _, h3, _⟩ := h
      obtain ⟨rfl, _, _⟩ := RAct.put.inj h3
      rw [← h1]; exact List.mem_cons_self
    | x :: y :: z :: done, h =>
      simp only [List.cons_append, List.nil_append, List.cons.injEq] at h
      obtain ⟨_, _, _, h⟩ := h
      by_cases hv : e.1.variants ≠ 0
      · rw [if_pos hv] at h
        cases done with
        | nil => simp at h
        | cons w done =>
          simp only [List.cons_append, List.nil_append, List.cons.injEq] at h
          simp [ih h.2]
      · rw [if_neg hv, List.nil_append] at h
        simp [ih h]

theorem made_before_acts {ix : Index} {done rest : List RAct} {p : ID} {l : Rune} {c : ID}
    (h : ix.rebuildActs = done ++ .put p l c :: rest) : RAct.make p ∈ done := by
  unfold Index.rebuildActs at h
  cases done with
  | nil => simp at h
  | cons x done =>
    simp only [List.cons_append, List.cons.injEq] at h
    exact List.mem_cons_of_mem _ (made_before _ h.2)

/-- The accesses together are `rebuildChildrenIndex`. -/
theorem acts_rebuild (ix : Index) : ix.rebuildActs.foldl RAct.exec ix = ix.rebuildChildren := by
  unfold Index.rebuildActs Index.rebuildChildren
  rw [List.foldl_cons]
  show (ix.items.items.zipIdx.flatMap RAct.ofItem).foldl RAct.exec (ix.getChildrenIDMap 0).1 = _
  generalize (ix.getChildrenIDMap 0).1 = jx
  generalize ix.items.items.zipIdx = es
  induction es generalizing jx with
  | nil => rfl
  | cons e es ih =>
    rw [List.flatMap_cons, List.foldl_append, ih, List.foldl_cons]
    congr 1
    unfold RAct.ofItem Index.rebuildStep
    by_cases hv : e.1.variants ≠ 0
    · rw [if_pos hv]; simp only; rw [if_pos hv]; rfl
    · rw [if_neg hv]; simp only; rw [if_neg hv]; rfl

/-! ## The edges entered so far -/

/-- The edge an access enters. -/
def RAct.edge : RAct → Option (ID × Rune × ID)
  | put p l c => some (p, l, c)
  | _ => none

/-- The edges entered by some accesses. -/
def edgesOf (acts : List RAct) : List (ID × Rune × ID) := acts.filterMap RAct.edge

theorem edgesOf_acts (ix : Index) :
    edgesOf ix.rebuildActs = ix.items.items.zipIdx.map fun e => (e.1.parent, e.1.letter, UInt32.ofNat e.2) := by
  unfold Index.rebuildActs edgesOf
  rw [List.filterMap_cons]
  show (ix.items.items.zipIdx.flatMap RAct.ofItem).filterMap RAct.edge = _
  generalize ix.items.items.zipIdx = es
  induction es with
  | nil => rfl
  | cons e es ih =>
    rw [List.flatMap_cons, List.filterMap_append, ih, List.map_cons]
    unfold RAct.ofItem
    by_cases hv : e.1.variants ≠ 0
    · rw [if_pos hv]; rfl
    · rw [if_neg hv]; rfl

/-- The children maps hold the edges entered so far, the last one for a letter. -/
theorem execs_children {ix : Index} (done : List RAct) {rest : List RAct} (hd : ix.rebuildActs = done ++ rest)
    (h0 : ∀ p l, ix.getChildrenMap p l = none) (p : ID) (l : Rune) :
    (∀ c, (done.foldl RAct.exec ix).getChildrenMap p l = some c → (p, l, c) ∈ edgesOf done) ∧
    ((done.foldl RAct.exec ix).getChildrenMap p l = none → ∀ c, (p, l, c) ∉ edgesOf done) := by
  induction done using list_reverse_induction generalizing rest with
  | nil => simp [h0, edgesOf]
  | snoc done a ih =>
    rw [List.append_assoc] at hd
    have ih := ih hd
    rw [List.foldl_append, List.foldl_cons, List.foldl_nil]
    have he : edgesOf (done ++ [a]) = edgesOf done ++ edgesOf [a] := by
      unfold edgesOf; rw [List.filterMap_append]
    rw [he]
    cases a with
    | make id =>
      have hc : (RAct.exec (done.foldl RAct.exec ix) (.make id)).getChildrenMap =
        (done.foldl RAct.exec ix).getChildrenMap := (getChildrenIDMap_obs _ id).children
      rw [hc]
      simpa [edgesOf, RAct.edge] using ih
    | count =>
      have hc : (RAct.exec (done.foldl RAct.exec ix) .count).getChildrenMap =
        (done.foldl RAct.exec ix).getChildrenMap := rfl
      rw [hc]
      simpa [edgesOf, RAct.edge] using ih
    | put q m d =>
      rw [put_children (execs_made (made_before_acts hd) ix)]
      have : edgesOf [RAct.put q m d] = [(q, m, d)] := rfl
      rw [this]
      constructor
      · intro c hc
        split at hc
        · rename_i hpl
          obtain ⟨rfl, rfl⟩ := hpl
          obtain rfl := Option.some.inj hc
          simp
        · exact List.mem_append_left _ (ih.1 c hc)
      · intro hc c hmem
        split at hc
        · cases hc
        · rename_i hpl
          rcases List.mem_append.1 hmem with hmem | hmem
          · exact ih.2 hc c hmem
          · simp only [List.mem_singleton, Prod.mk.injEq] at hmem
            exact hpl ⟨hmem.1, hmem.2.1⟩

/-! ## The whole load -/

/-- A new index with the sections of the file of `ix`. -/
def Index.sections (ix : Index) : Index := { Index.new with
  tags := ix.tags.map storedTag, tagSets := ix.tagSets, collectionIdx := ix.collectionIdx, items := ix.items.trim }

theorem loaded_eq (ix : Index) : Index.loaded Index.new ix = ix.sections.rebuildChildren := rfl

theorem sections_read {ix : Index} (hl : ix.InLimits) (hn : ix.NamesOK) :
    (Index.fillSections Index.new ix.save.bytes).val = ix.sections ∧
    ∃ t, (Index.fillSections Index.new ix.save.bytes).out = .ok t := by
  have e1 : (Wr.seq (writeStringZ prefixTD) (writeTags ix.tags)).err = none := by
    simp only [Wr.seq_err, writeTags, Wr.all_err, writeTag_err, writeStringZ, writeU8, Wr.put_err]
    exact ⟨trivial, trivial, hn⟩
  have e2 : (Wr.seq (writeStringZ prefixTI) (writeTagSetIndex ix.tagSets)).err = none := by
    rw [Wr.seq_err]; exact ⟨rfl, writeTagSetIndex_err _⟩
  have e3 : (Wr.seq (writeStringZ prefixCD) (writeVariantsIndex ix.collectionIdx)).err = none := by
    rw [Wr.seq_err]; exact ⟨rfl, writeVariantsIndex_err _⟩
  have h : RT (Rd.bind (readSection prefixTD readTags) fun tags =>
      Rd.bind (readSection prefixTI readTagSetIndex) fun tagSets =>
      Rd.bind (readSection prefixCD readVariantsIndex) fun colls =>
      Rd.bind (readSection prefixID readItems) fun items =>
      Rd.pure ({ Index.new with tags := tags, tagSets := tagSets, collectionIdx := colls, items := items } : Index))
      ix.save.bytes ix.sections := by
    unfold Index.save
    rw [Wr.seq_bytes e1, Wr.seq_bytes e2, Wr.seq_bytes e3]
    refine (RT_section (by decide) (RT_tags hl.tags hn)).bind ?_
    refine (RT_section (by decide) (RT_tagSetIndex hl.setTables hl.sets hl.setLen)).bind ?_
    refine (RT_section (by decide) (RT_variantsIndex hl.collTables hl.colls hl.collLen)).bind ?_
    have := (RT_section (pfx := prefixID) (by decide) (RT_items hl.items)).bind
      (f := fun items => Rd.pure ({ Index.new with
        tags := ix.tags.map storedTag, tagSets := ix.tagSets, collectionIdx := ix.collectionIdx,
        items := items } : Index)) (w2 := []) (RT.pure _)
    rwa [List.append_nil] at this
  have h := h []
  rw [List.append_nil] at h
  obtain ⟨t1, t2⟩ := tracks_sections Index.new ix.save.bytes
  beta_reduce at t1 t2
  rw [h] at t1
  exact ⟨t2 _ _ h, _, t1⟩

theorem sections_prefix {ix : Index} (hl : ix.InLimits) {p : Str} (hp : p <+: ix.save.bytes) (hne : p ≠ ix.save.bytes) (t : Str) :
    (Index.fillSections Index.new p).out ≠ .ok t := by
  intro ht
  rcases prefix_cases hl hp with ⟨e, he⟩ | ⟨h, _⟩
  · obtain ⟨h1, _⟩ := tracks_load Index.new p
    beta_reduce at h1
    rw [he] at h1
    rw [fill_eq] at h1
    cases hx : Index.fillSections Index.new p with
    | mk v m o =>
      rw [hx] at h1 ht
      simp only at ht
      subst ht
      cases h1
  · exact hne h

/-- How far the load has come, and what it has left in the index. -/
def LoadInv (ix : Index) (s : LoadState) : Prop :=
  match s.todo with
  | none => s.got < ix.save.bytes.length ∧ (∀ p l, s.ix.getChildrenMap p l = none) ∧ s.ix.wordsCount = 0
  | some rest => ∃ done, ix.sections.rebuildActs = done ++ rest ∧ Covers (done.foldl RAct.exec ix.sections) s.ix

theorem save_length_pos {ix : Index} (hn : ix.NamesOK) : 0 < ix.save.bytes.length := by
  have e1 : (Wr.seq (writeStringZ prefixTD) (writeTags ix.tags)).err = none := by
    simp only [Wr.seq_err, writeTags, Wr.all_err, writeTag_err, writeStringZ, writeU8, Wr.put_err]
    exact ⟨trivial, trivial, hn⟩
  unfold Index.save
  rw [Wr.seq_bytes e1, Wr.seq_bytes rfl, List.append_assoc, List.length_append]
  have : (writeStringZ prefixTD).bytes.length = 3 := rfl
  omega

theorem linv_start {ix : Index} (hn : ix.NamesOK) : LoadInv ix LoadState.start :=
  ⟨save_length_pos hn, fun _ _ => rfl, rfl⟩

theorem linv_step {ix : Index} (hl : ix.InLimits) (hn : ix.NamesOK) {s : LoadState} (I : LoadInv ix s) (e : LoadEv) :
    LoadInv ix (s.step ix.save.bytes e) := by
  obtain ⟨jx, got, todo⟩ := s
  cases e with
  | load =>
    show LoadInv ix (LoadState.load ix.save.bytes ⟨jx, got, todo⟩)
    match todo, I with
    | none, I =>
      obtain ⟨h1, h2, h3⟩ := I
      have h1 : got < ix.save.bytes.length := h1
      unfold LoadState.load
      simp only
      by_cases hg : got + 1 = ix.save.bytes.length
      · have htake : ix.save.bytes.take (got + 1) = ix.save.bytes := by
          rw [hg]; exact List.take_length
        obtain ⟨hv, t, ht⟩ := sections_read hl hn
        have hnext : (Index.fillSections Index.new ix.save.bytes).next = some ix.sections.rebuildActs := by
          unfold Filled.next
          rw [ht, hv]
        rw [htake, hnext, hv]
        refine ⟨[], rfl, ⟨rfl, rfl, rfl, rfl, ?_, h3⟩, fun k hk => ?_⟩
        · funext p l
          exact h2 p l
        · cases hk
      · have hlen : (ix.save.bytes.take (got + 1)).length = got + 1 := by
          rw [List.length_take]; omega
        have hne : ∀ t, (Index.fillSections Index.new (ix.save.bytes.take (got + 1))).out ≠ .ok t := by
          refine sections_prefix hl (List.take_prefix _ _) fun he => ?_
          rw [he] at hlen
          exact hg hlen.symm
        have : (Index.fillSections Index.new (ix.save.bytes.take (got + 1))).next = none := by
          unfold Filled.next
          split
          · rename_i t ht; exact absurd ht (hne t)
          · rfl
        rw [this]
        exact ⟨by show got + 1 < _; omega, h2, h3⟩
    | some [], I => exact I
    | some (a :: rest), I =>
      obtain ⟨done, hd, hc⟩ := I
      refine ⟨done ++ [a], by rw [hd, List.append_assoc]; rfl, ?_⟩
      rw [List.foldl_append]
      refine hc.exec a ?_
      rintro p l c rfl
      exact execs_made (made_before_acts hd) _
  | fetch id rs =>
    have ho := fetchFromItem_obs jx id rs
    match todo, I with
    | none, ⟨h1, h2, h3⟩ =>
      refine ⟨h1, fun p l => ?_, ?_⟩
      · show (jx.fetchFromItem id rs).1.getChildrenMap p l = none
        rw [ho.children]; exact h2 p l
      · exact ho.wordsCount.trans h3
    | some rest, ⟨done, hd, hc⟩ => exact ⟨done, hd, hc.lookup ho fun k => fetchFromItem_maps jx id rs⟩
  | fetchItem id rs =>
    have ho := fetchItemFromParent_obs jx id rs
    match todo, I with
    | none, ⟨h1, h2, h3⟩ =>
      refine ⟨h1, fun p l => ?_, ?_⟩
      · show (jx.fetchItemFromParent id rs).1.getChildrenMap p l = none
        rw [ho.children]; exact h2 p l
      · exact ho.wordsCount.trans h3
    | some rest, ⟨done, hd, hc⟩ => exact ⟨done, hd, hc.lookup ho fun k => fetchItemFromParent_maps jx id rs⟩

theorem linv_run {ix : Index} (hl : ix.InLimits) (hn : ix.NamesOK) (evs : List LoadEv) :
    LoadInv ix (LoadState.start.run ix.save.bytes evs) := by
  have : ∀ s, LoadInv ix s → LoadInv ix (s.run ix.save.bytes evs) := by
    induction evs with
    | nil => exact fun _ I => I
    | cons e evs ih => exact fun s I => ih _ (linv_step hl hn I e)
  exact this _ (linv_start hn)

/-! ## Lookups on a part of the edges -/

/-- `a` has the nodes of `F`, but only the edges to the first `k` of them. The edge from the root to itself is left open. -/
structure PartialEdges (a F : Index) (k : Nat) : Prop where
  items : a.items = F.items
  edge : ∀ p l c, ¬ (p = 0 ∧ l = 0) → (a.getChildrenMap p l = some c ↔ F.getChildrenMap p l = some c ∧ c.toNat < k)

theorem fetch_lt {F : Index} {d : Dict} (t : TrieOK F d) {p : ID} {l : Rune} {c : ID} (h0 : ¬ (p = 0 ∧ l = 0))
    (h : F.getChildrenMap p l = some c) : p.toNat < c.toNat ∧ ∃ w, d.nodes[c.toNat]? = some w := by
  rcases (t.child p l c).1 h with ⟨w, h1, h2⟩ | ⟨_, rfl, rfl, _⟩
  · have hc := TrieOK.lt_next h2
    have hc0 : 0 < c.toNat := by
      rcases Nat.eq_zero_or_pos c.toNat with e | e
      · rw [e, t.root] at h2; simp at h2
      · exact e
    obtain ⟨it, w', _, _, i3, i4, i5⟩ := t.item _ hc0 hc
    rw [h2] at i5
    have hw : w = w' := (List.append_inj' (Option.some.inj i5) rfl).1
    subst hw
    rw [t.idx_unique h1 i4]
    exact ⟨i3, _, h2⟩
  · exact absurd ⟨rfl, rfl⟩ h0

theorem fetch_ge {F : Index} {d : Dict} (t : TrieOK F d) {p : ID} (hp : p ≠ 0) {w : List Rune}
    (hw : d.nodes[p.toNat]? = some w) {rs : List Rune} {i : ID}
    (h : (F.fetchFromItem p rs).2 = .ok i) : p.toNat < i.toNat := by
  induction rs generalizing p w with
  | nil => cases h
  | cons r rest ih =>
    unfold Index.fetchFromItem at h
    simp only [getChildrenIDMap_snd] at h
    cases hc : F.getChildrenMap p r with
    | none =>
      rw [hc] at h
      simp only [word_obs (getChildrenIDMap_obs F p), t.word_eq hw] at h
      cases h
    | some c =>
      rw [hc] at h
      obtain ⟨h1, w', h2⟩ := fetch_lt t (fun e => hp e.1) hc
      simp only at h
      split at h
      · rw [get_obs (getChildrenIDMap_obs F p), t.get_ok h2] at h
        obtain rfl := Out.ok.inj h
        exact h1
      · rw [fetchFromItem_congr (getChildrenIDMap_obs F p)] at h
        have hc0 : c ≠ 0 := by
          rintro rfl
          rw [zero_toNat] at h1; omega
        exact Nat.lt_trans h1 (ih hc0 h2 h)

/-- A lookup finds exactly the nodes below `k`, and fails otherwise. -/
theorem PartialEdges.fetch {a F : Index} {d : Dict} {k : Nat} (h : PartialEdges a F k) (t : TrieOK F d) {p : ID}
    {w : List Rune} (hw : d.nodes[p.toNat]? = some w) (rs : List Rune) (h0 : p = 0 → rs.head? ≠ some 0) :
    (∀ i, (a.fetchFromItem p rs).2 = .ok i ↔ (F.fetchFromItem p rs).2 = .ok i ∧ i.toNat < k) ∧
    ((∃ i, (a.fetchFromItem p rs).2 = .ok i) ∨ ∃ e, (a.fetchFromItem p rs).2 = .err e) ∧
    (a.fetchItemFromParent p rs).2 = (a.fetchFromItem p rs).2 := by
  induction rs generalizing p w with
  | nil =>
    refine ⟨fun i => ⟨fun h => (nomatch h), fun h => (nomatch h.1)⟩, .inr ⟨_, rfl⟩, rfl⟩
  | cons r rest ih =>
    have h0' : ¬ (p = 0 ∧ r = 0) := fun e => h0 e.1 (by simp [e.2])
    have hword : a.word p = .ok (encodeRunes w) := by
      unfold Index.word
      rw [h.items]
      exact t.word_eq hw
    have hget : ∀ c : ID, a.get c = F.get c := fun c => by unfold Index.get; rw [h.items]
    unfold Index.fetchFromItem Index.fetchItemFromParent
    simp only [getChildrenIDMap_snd, word_obs (getChildrenIDMap_obs a p), word_obs (getChildrenIDMap_obs F p),
      get_obs (getChildrenIDMap_obs a p), get_obs (getChildrenIDMap_obs F p)]
    cases hF : F.getChildrenMap p r with
    | none =>
      have ha : a.getChildrenMap p r = none := by
        cases ha : a.getChildrenMap p r with
        | none => rfl
        | some c =>
          rw [((h.edge p r c h0').1 ha).1] at hF
          cases hF
      rw [ha]
      simp only [hword, t.word_eq hw]
      exact ⟨fun i => ⟨fun h => (nomatch h), fun h => (nomatch h.1)⟩, .inr ⟨_, rfl⟩, trivial⟩
    | some c =>
      obtain ⟨hlt, w', hw'⟩ := fetch_lt t h0' hF
      have hc0 : c ≠ 0 := by
        rintro rfl
        rw [zero_toNat] at hlt; omega
      by_cases hk : c.toNat < k
      · have ha := (h.edge p r c h0').2 ⟨hF, hk⟩
        rw [ha]
        simp only
        split
        · rename_i hrest
          subst hrest
          rw [hget, t.get_ok hw']
          refine ⟨fun i => ?_, .inl ⟨c, rfl⟩, rfl⟩
          constructor
          · intro e
            obtain rfl := Out.ok.inj e
            exact ⟨rfl, hk⟩
          · exact fun e => e.1
        · have hobs := getChildrenIDMap_obs a p
          rw [fetchFromItem_congr hobs, fetchFromItem_congr (getChildrenIDMap_obs F p), fetchItemFromParent_congr hobs]
          exact ih hw' (fun e => absurd e hc0)
      · have ha : a.getChildrenMap p r = none := by
          cases ha : a.getChildrenMap p r with
          | none => rfl
          | some c' =>
            obtain ⟨e1, e2⟩ := (h.edge p r c' h0').1 ha
            rw [hF] at e1
            obtain rfl := Option.some.inj e1
            exact absurd e2 hk
        rw [ha]
        simp only [hword]
        refine ⟨fun i => ⟨fun h => (nomatch h), fun h => ?_⟩, .inr ⟨_, rfl⟩, trivial⟩
        exfalso
        obtain ⟨h1, h2⟩ := h
        split at h1
        · rw [t.get_ok hw'] at h1
          obtain rfl := Out.ok.inj h1
          exact hk h2
        · rw [fetchFromItem_congr (getChildrenIDMap_obs F p)] at h1
          have := fetch_ge t hc0 hw' h1
          omega

theorem exec_sections (ix : Index) (a : RAct) : (a.exec ix).tags = ix.tags ∧ (a.exec ix).tagSets = ix.tagSets ∧
    (a.exec ix).collectionIdx = ix.collectionIdx ∧ (a.exec ix).items = ix.items ∧ ix.wordsCount ≤ (a.exec ix).wordsCount := by
  cases a with
  | make id => exact ⟨rfl, rfl, rfl, rfl, Nat.le_refl _⟩
  | put p l c => exact ⟨rfl, rfl, rfl, rfl, Nat.le_refl _⟩
  | count => exact ⟨rfl, rfl, rfl, rfl, Nat.le_succ _⟩

theorem execs_sections (acts : List RAct) (ix : Index) :
    (acts.foldl RAct.exec ix).tags = ix.tags ∧ (acts.foldl RAct.exec ix).tagSets = ix.tagSets ∧
    (acts.foldl RAct.exec ix).collectionIdx = ix.collectionIdx ∧ (acts.foldl RAct.exec ix).items = ix.items ∧
    ix.wordsCount ≤ (acts.foldl RAct.exec ix).wordsCount := by
  induction acts generalizing ix with
  | nil => exact ⟨rfl, rfl, rfl, rfl, Nat.le_refl _⟩
  | cons a acts ih =>
    obtain ⟨a1, a2, a3, a4, a5⟩ := exec_sections ix a
    obtain ⟨b1, b2, b3, b4, b5⟩ := ih (a.exec ix)
    exact ⟨b1.trans a1, b2.trans a2, b3.trans a3, b4.trans a4, Nat.le_trans a5 b5⟩

theorem mem_edges {ix : Index} {done rest : List RAct} (hd : ix.rebuildActs = done ++ rest) (p : ID) (l : Rune) (c : ID) :
    (p, l, c) ∈ edgesOf done ↔ ∃ (j : Nat) (it : Item), j < (edgesOf done).length ∧ ix.items.items[j]? = some it ∧
      it.parent = p ∧ it.letter = l ∧ UInt32.ofNat j = c := by
  have he : edgesOf done ++ edgesOf rest = ix.items.items.zipIdx.map fun e => (e.1.parent, e.1.letter, UInt32.ofNat e.2) := by
    rw [← edgesOf_acts, hd]
    unfold edgesOf
    rw [List.filterMap_append]
  have hj : ∀ j, j < (edgesOf done).length →
      (edgesOf done)[j]? = (ix.items.items[j]?).map fun it => (it.parent, it.letter, UInt32.ofNat j) := by
    intro j hlt
    rw [← List.getElem?_append_left (l₂ := edgesOf rest) hlt, he, List.getElem?_map, List.getElem?_zipIdx]
    cases ix.items.items[j]? <;> simp
  constructor
  · intro hm
    obtain ⟨j, hm⟩ := List.getElem?_of_mem hm
    have hlt := (List.getElem?_eq_some_iff.1 hm).1
    rw [hj j hlt] at hm
    cases hi : ix.items.items[j]? with
    | none => rw [hi] at hm; cases hm
    | some it =>
      rw [hi] at hm
      simp only [Option.map_some, Option.some.injEq, Prod.mk.injEq] at hm
      exact ⟨j, it, hlt, hi, hm.1, hm.2.1, hm.2.2⟩
  · rintro ⟨j, it, hlt, hi, rfl, rfl, rfl⟩
    have := hj j hlt
    rw [hi] at this
    exact List.mem_of_getElem? this

theorem partial_of_done {ix : Index} {d : Dict} (t : TrieOK ix d) {done rest : List RAct}
    (hd : ix.sections.rebuildActs = done ++ rest) :
    PartialEdges (done.foldl RAct.exec ix.sections) (Index.loaded Index.new ix) (edgesOf done).length := by
  have tF := reload_trie t
  have hfull : ix.sections.rebuildActs = ix.sections.rebuildActs ++ [] := (List.append_nil _).symm
  have hF : Index.loaded Index.new ix = ix.sections.rebuildActs.foldl RAct.exec ix.sections := by
    rw [acts_rebuild]; rfl
  have h0 : ∀ p l, ix.sections.getChildrenMap p l = none := fun _ _ => rfl
  have hitems : (Index.loaded Index.new ix).items = ix.sections.items := by
    rw [hF]; exact (execs_sections _ _).2.2.2.1
  have hsub : ∀ e, e ∈ edgesOf done → e ∈ edgesOf ix.sections.rebuildActs := by
    intro e he
    rw [hd]
    unfold edgesOf at he ⊢
    rw [List.filterMap_append]
    exact List.mem_append_left _ he
  -- numbers do not wrap
  have hlenE : (edgesOf ix.sections.rebuildActs).length = ix.sections.items.items.length := by
    rw [edgesOf_acts, List.length_map, List.length_zipIdx]
  have hlen : ix.sections.items.items.length = d.nodes.length := by
    show (ix.items.items.take ix.items.nextID.toNat).length = _
    rw [List.length_take, t.next]
    have := t.cap
    omega
  have hnum : ∀ j, j < ix.sections.items.items.length → (UInt32.ofNat j).toNat = j := by
    intro j hj
    have := t.length_lt
    rw [UInt32.toNat_ofNat']
    omega
  -- one edge for each parent and letter
  have huniq : ∀ p l c c', ¬ (p = 0 ∧ l = 0) → (p, l, c) ∈ edgesOf ix.sections.rebuildActs →
      (p, l, c') ∈ edgesOf ix.sections.rebuildActs → c = c' := by
    intro p l c c' hne h1 h2
    obtain ⟨j, it, _, g1, g2, g3, g4⟩ := (mem_edges hfull p l c).1 h1
    obtain ⟨j', it', _, g1', g2', g3', g4'⟩ := (mem_edges hfull p l c').1 h2
    rw [← hitems] at g1 g1'
    have hpos : ∀ (j : Nat) (it : Item), (Index.loaded Index.new ix).items.items[j]? = some it → it.parent = p →
        it.letter = l → ∃ w, d.nodes[p.toNat]? = some w ∧ d.nodes[j]? = some (w ++ [l]) := by
      intro j it hj hp hl
      have hj0 : 0 < j := by
        rcases Nat.eq_zero_or_pos j with rfl | e
        · rw [tF.item0] at hj
          obtain rfl := Option.some.inj hj
          exact absurd ⟨hp.symm, hl.symm⟩ hne
        · exact e
      have hjl : j < d.nodes.length := by
        have := (List.getElem?_eq_some_iff.1 hj).1
        rw [hitems, hlen] at this
        exact this
      obtain ⟨it', w, i1, _, _, i4, i5⟩ := tF.item j hj0 hjl
      rw [hj] at i1
      obtain rfl := Option.some.inj i1
      rw [hp] at i4
      rw [hl] at i5
      exact ⟨w, i4, i5⟩
    obtain ⟨w, a1, a2⟩ := hpos j it g1 g2 g3
    obtain ⟨w', b1, b2⟩ := hpos j' it' g1' g2' g3'
    rw [a1] at b1
    obtain rfl := Option.some.inj b1
    have : j = j' := t.idx_unique a2 b2
    rw [← g4, ← g4', this]
  refine ⟨?_, fun p l c hne => ⟨fun hc => ?_, fun hc => ?_⟩⟩
  · rw [hitems]; exact (execs_sections _ _).2.2.2.1
  · have hm := (execs_children done hd h0 p l).1 c hc
    obtain ⟨j, it, g0, g1, g2, g3, g4⟩ := (mem_edges hd p l c).1 hm
    have hjl := (List.getElem?_eq_some_iff.1 g1).1
    constructor
    · rw [hF]
      cases hx : (ix.sections.rebuildActs.foldl RAct.exec ix.sections).getChildrenMap p l with
      | none => exact absurd (hsub _ hm) ((execs_children _ hfull h0 p l).2 hx c)
      | some c' => rw [huniq p l c c' hne (hsub _ hm) ((execs_children _ hfull h0 p l).1 c' hx)]
    · rw [← g4, hnum j hjl]; exact g0
  · obtain ⟨hc, hk⟩ := hc
    rw [hF] at hc
    have hm := (execs_children _ hfull h0 p l).1 c hc
    obtain ⟨j, it, g0, g1, g2, g3, g4⟩ := (mem_edges hfull p l c).1 hm
    have hjl := (List.getElem?_eq_some_iff.1 g1).1
    have hjk : j < (edgesOf done).length := by
      rw [← g4, hnum j hjl] at hk; exact hk
    have hmd : (p, l, c) ∈ edgesOf done := (mem_edges hd p l c).2 ⟨j, it, hjk, g1, g2, g3, g4⟩
    cases hx : (done.foldl RAct.exec ix.sections).getChildrenMap p l with
    | none => exact absurd hmd ((execs_children done hd h0 p l).2 hx c)
    | some c' => rw [huniq p l c c' hne hm (hsub _ ((execs_children done hd h0 p l).1 c' hx))]

/-- The number of nodes whose edge has been entered. -/
def LoadState.entered (ix : Index) (s : LoadState) : Nat :=
  match s.todo with
  | none => 0
  | some rest => ix.sections.items.items.length - (edgesOf rest).length

theorem entered_done {ix : Index} {done rest : List RAct} (hd : ix.sections.rebuildActs = done ++ rest) (jx : Index) (n : Nat) :
    (LoadState.mk jx n (some rest)).entered ix = (edgesOf done).length := by
  have h : (edgesOf ix.sections.rebuildActs).length = ix.sections.items.items.length := by
    rw [edgesOf_acts, List.length_map, List.length_zipIdx]
  have : (edgesOf ix.sections.rebuildActs).length = (edgesOf done).length + (edgesOf rest).length := by
    rw [hd]; unfold edgesOf; rw [List.filterMap_append, List.length_append]
  unfold LoadState.entered
  simp only
  omega

theorem entered_step (ix : Index) (file : Str) (s : LoadState) (e : LoadEv) : s.entered ix ≤ (s.step file e).entered ix := by
  obtain ⟨jx, n, todo⟩ := s
  cases e with
  | fetch => exact Nat.le_refl _
  | fetchItem => exact Nat.le_refl _
  | load =>
    match todo with
    | none => exact Nat.zero_le _
    | some [] => exact Nat.le_refl _
    | some (a :: rest) =>
      show ix.sections.items.items.length - (edgesOf (a :: rest)).length ≤ ix.sections.items.items.length - (edgesOf rest).length
      have : (edgesOf rest).length ≤ (edgesOf (a :: rest)).length := by
        unfold edgesOf
        rw [List.filterMap_cons]
        split
        · exact Nat.le_refl _
        · rw [List.length_cons]; omega
      omega

theorem entered_run (ix : Index) (file : Str) (evs : List LoadEv) (s : LoadState) : s.entered ix ≤ (s.run file evs).entered ix := by
  induction evs generalizing s with
  | nil => exact Nat.le_refl _
  | cons e evs ih => exact Nat.le_trans (entered_step ix file s e) (ih _)

/-- The edges at any moment. -/
theorem LoadInv.edges {ix : Index} {d : Dict} (t : TrieOK ix d) {s : LoadState} (I : LoadInv ix s) {rest : List RAct}
    (hr : s.todo = some rest) : PartialEdges s.ix (Index.loaded Index.new ix) (s.entered ix) := by
  obtain ⟨jx, n, todo⟩ := s
  subst hr
  obtain ⟨done, hd, hc⟩ := I
  rw [entered_done hd]
  have := partial_of_done t hd
  exact ⟨hc.obs.items.trans this.items, fun p l c hne => by
    show jx.getChildrenMap p l = some c ↔ _
    rw [hc.obs.children]; exact this.edge p l c hne⟩

/-! ## The load ends -/

/-- Steps of the load that remain. -/
def LoadState.left (ix : Index) (s : LoadState) : Nat :=
  match s.todo with
  | none => ix.save.bytes.length - s.got + ix.sections.rebuildActs.length
  | some rest => rest.length

theorem left_load {ix : Index} (hl : ix.InLimits) (hn : ix.NamesOK) {s : LoadState} (I : LoadInv ix s) :
    (s.load ix.save.bytes).left ix ≤ s.left ix - 1 := by
  obtain ⟨jx, got, todo⟩ := s
  match todo, I with
  | some [], _ => exact Nat.le_refl _
  | some (a :: rest), _ => exact Nat.le_refl _
  | none, I =>
    have h1 : got < ix.save.bytes.length := I.1
    have I' : LoadInv ix (LoadState.load ix.save.bytes ⟨jx, got, none⟩) := linv_step hl hn I .load
    have hg : (LoadState.load ix.save.bytes ⟨jx, got, none⟩).got = got + 1 := rfl
    generalize LoadState.load ix.save.bytes ⟨jx, got, none⟩ = s' at I' hg
    obtain ⟨jx', got', todo'⟩ := s'
    have hg : got' = got + 1 := hg
    subst hg
    match todo', I' with
    | none, _ =>
      show ix.save.bytes.length - (got + 1) + _ ≤ ix.save.bytes.length - got + _ - 1
      omega
    | some rest, ⟨done, hd, _⟩ =>
      show rest.length ≤ ix.save.bytes.length - got + ix.sections.rebuildActs.length - 1
      have := congrArg List.length hd
      rw [List.length_append] at this
      omega

theorem acts_length (ix : Index) : ix.rebuildActs.length ≤ 4 * ix.items.items.length + 1 := by
  unfold Index.rebuildActs
  rw [List.length_cons, List.length_flatMap]
  have : ∀ es : List (Item × Nat), (es.map fun e => (RAct.ofItem e).length).sum ≤ 4 * es.length := by
    intro es
    induction es with
    | nil => exact Nat.le_refl _
    | cons e es ih =>
      have : (RAct.ofItem e).length ≤ 4 := by
        unfold RAct.ofItem
        split <;> simp
      simp only [List.map_cons, List.sum_cons, List.length_cons]
      omega
  have := this ix.items.items.zipIdx
  rw [List.length_zipIdx] at this
  omega

end Verif
