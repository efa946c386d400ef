import Verif.Lemmas.OptimizeWhile
import Verif.Lemmas.OptimizeWhen

/-! # Helper lemmas: reading while `Optimize` runs -/

namespace Verif

open Index

/-! ## What is seen at a moment -/

theorem paint_id (ix : Index) : ix.paint (fun _ v => v) ix.collectionIdx = ix := by
  unfold Index.paint Items.paint
  obtain ⟨_, _, _, ⟨its, _⟩, _, _⟩ := ix
  simp only [Index.mk.injEq, Items.mk.injEq, and_true, true_and]
  apply List.ext_getElem?
  intro k
  rw [List.getElem?_mapIdx]
  cases its[k]? <;> rfl

theorem OPlan.paint {ix : Index} {new : VariantsIndex} {acc : List (VariantID × VariantID)} (P : OPlan ix new acc) :
    ix.optimize.1 = ix.paint (gOf (OState.writes (usedCollections ix.items.items) acc)) new := by
  rw [P.opt, applyW_paint P.nodup P.old]
  rfl

/-- At every moment only the numbers may differ. -/
theorem OInv.paint {h : List Op} {base : Index} (r : Run h base) {s : OState} (I : OInv base s) :
    ∃ g c, (∀ k, g k 0 = 0) ∧ s.ix = base.paint g c := by
  have same : s.ix = base → ∃ g c, (∀ k, g k 0 = 0) ∧ s.ix = base.paint g c := fun e =>
    ⟨fun _ v => v, base.collectionIdx, fun _ => rfl, by rw [paint_id]; exact e⟩
  obtain ⟨ix, pc⟩ := s
  cases pc with
  | start => exact same I
  | scan known n k used => exact same I.1
  | build used rest new acc => exact same I.1
  | replace new todo =>
    obtain ⟨acc, past, P, hw, e⟩ := I
    have hnd := P.nodup
    rw [hw, List.map_append] at hnd
    refine ⟨gOf past, base.collectionIdx, gOf_zero past, ?_⟩
    simp only at e ⊢
    rw [e, applyW_paint (List.nodup_append.1 hnd).1 fun w hw2 => P.old w (by rw [hw]; simp [hw2])]
    rfl
  | done =>
    rcases oplan_or_idle r with ⟨_, e⟩ | ⟨new, acc, P⟩
    · exact same (I.trans e)
    · exact ⟨_, new, gOf_zero _, I.trans P.paint⟩
  | panicked => exact I.elim

/-- The tables and the number of a node at a moment. -/
theorem OInv.seen {base : Index} {s : OState} (I : OInv base s) (id : ID) :
    (s.pc ≠ .done → s.ix.collectionIdx = base.collectionIdx) ∧
    (s.pc = .done → s.ix.collectionIdx = base.optimize.1.collectionIdx) ∧
    (s.ix.numberOf id = base.numberOf id ∨ s.ix.numberOf id = base.optimize.1.numberOf id) := by
  obtain ⟨ix, pc⟩ := s
  have same : ix = base → pc ≠ .done → (pc ≠ .done → ix.collectionIdx = base.collectionIdx) ∧
      (pc = .done → ix.collectionIdx = base.optimize.1.collectionIdx) ∧
      (ix.numberOf id = base.numberOf id ∨ ix.numberOf id = base.optimize.1.numberOf id) := fun e hp =>
    ⟨fun _ => by rw [e], fun h => absurd h hp, .inl (by rw [e])⟩
  cases pc with
  | start => exact same I (by simp)
  | scan known n k used => exact same I.1 (by simp)
  | build used rest new acc => exact same I.1 (by simp)
  | replace new todo =>
    obtain ⟨acc, past, P, hw, e⟩ := I
    have hnd := P.nodup
    have hpaint := P.paint
    rw [hw] at hnd hpaint
    rw [List.map_append] at hnd
    simp only at e
    rw [applyW_paint (List.nodup_append.1 hnd).1 fun w hw2 => P.old w (by rw [hw]; simp [hw2])] at e
    refine ⟨fun _ => by rw [e], by simp, ?_⟩
    simp only
    rw [e, hpaint]
    unfold Index.numberOf Index.paint
    simp only [paint_get]
    cases base.items.get id with
    | none => exact .inl rfl
    | some it =>
      simp only [Option.map_some, Option.getD_some]
      unfold gOf
      by_cases hv : it.variants = 0
      · left; rw [if_pos hv, hv]
      · rw [if_neg hv, if_neg hv]
        cases hf : past.find? fun w => decide (w.1.toNat = id.toNat) with
        | none => exact .inl rfl
        | some w => right; rw [List.find?_append, hf]; rfl
  | done => exact ⟨fun h => absurd rfl h, fun _ => by rw [show ix = base.optimize.1 from I], .inr (by rw [show ix = base.optimize.1 from I])⟩
  | panicked => exact I.elim

/-! ## Later calls do not change the plan -/

theorem Kept.refl (ix : Index) (n : Nat) : Kept ix ix n := ⟨rfl, rfl, fun _ _ => rfl, id, Nat.le_refl _⟩

theorem Kept.trans {a b c : Index} {n m : Nat} (h : Kept a b n) (h' : Kept b c m) (hnm : n ≤ m) : Kept a c n := by
  refine ⟨h'.tagSets.trans h.tagSets, h'.collectionIdx.trans h.collectionIdx, ?_, ?_, Nat.le_trans h.length h'.length⟩
  · intro k hk
    rw [h'.items k (by omega), h.items k hk]
  · intro hs k it hk hit
    have hb := h.slack hs
    by_cases hkm : k < m
    · rw [h'.items k hkm] at hit
      exact hb k it hk hit
    · exact h'.slack (fun k it hk => hb k it (by omega)) k it (by omega) hit

theorem kept_run {h cs : List Op} {ix ix' : Index} (r : Run h ix) (r' : Run (h ++ cs) ix') (hq : ∀ op ∈ cs, op.Untagging) :
    Kept ix ix' (dictOf h).nodes.length := by
  induction cs using list_reverse_induction generalizing ix' with
  | nil =>
    rw [List.append_nil] at r'
    rw [r.unique r']
    exact .refl _ _
  | snoc cs op ih =>
    rw [← List.append_assoc] at r'
    obtain ⟨ix1, r1, _, hf, rfl⟩ := r'.snoc_inv
    exact (ih r1 fun x hx => hq x (by simp [hx])).trans (kept_exec r1 op (hq op (by simp)) hf.nodes)
      (dictOf_nodes_prefix h cs).length_le

theorem numberOf_get {ix : Index} {d : Dict} (t : TrieOK ix d) {id : ID} (h0 : 0 < id.toNat)
    (h1 : id.toNat < d.nodes.length) : ix.numberOf id = ((ix.items.items[id.toNat]?).map (·.variants)).getD 0 := by
  obtain ⟨it, w, hg, hit, _⟩ := t.items_get h0 h1
  unfold Index.numberOf
  rw [hg, hit]

theorem Kept.number {ix ix' : Index} {d d' : Dict} (K : Kept ix ix' d.nodes.length) (t : TrieOK ix d) (t' : TrieOK ix' d')
    (hl : d.nodes.length ≤ d'.nodes.length) {id : ID} (h0 : 0 < id.toNat) (h1 : id.toNat < d.nodes.length) :
    ix'.numberOf id = ix.numberOf id := by
  rw [numberOf_get t h0 h1, numberOf_get t' h0 (by omega), K.items _ h1]

theorem Kept.optimized {h h' : List Op} {ix ix' : Index} (K : Kept ix ix' (dictOf h).nodes.length) (r : Run h ix)
    (r' : Run h' ix') (hl : (dictOf h).nodes.length ≤ (dictOf h').nodes.length) {id : ID} (h0 : 0 < id.toNat)
    (h1 : id.toNat < (dictOf h).nodes.length) :
    ix'.optimize.1.numberOf id = ix.optimize.1.numberOf id ∧
      ix'.optimize.1.collectionIdx = ix.optimize.1.collectionIdx := by
  have hu := used_kept K r.tag.slack
  rcases oplan_or_idle r with ⟨e0, e⟩ | ⟨new, acc, P⟩
  · rcases oplan_or_idle r' with ⟨_, e'⟩ | ⟨_, _, P⟩
    · rw [e, e']
      exact ⟨K.number r.trie r'.trie hl h0 h1, K.collectionIdx⟩
    · have := P.busy
      rw [hu, K.collectionIdx] at this
      exact absurd e0 this
  · have P' := P.kept K r.tag.slack r'
    rw [P.paint, P'.paint, hu]
    refine ⟨?_, rfl⟩
    have e1 := K.number r.trie r'.trie hl h0 h1
    obtain ⟨it, w, hg, _⟩ := r.trie.items_get h0 h1
    obtain ⟨it', w', hg', _⟩ := r'.trie.items_get h0 (Nat.lt_of_lt_of_le h1 hl)
    unfold Index.numberOf at e1 ⊢
    unfold Index.paint
    simp only [paint_get]
    rw [hg, hg'] at e1 ⊢
    simp only [Option.map_some, Option.getD_some] at e1 ⊢
    rw [e1]

/-! ## What a reader gets -/

theorem shownBetween_eq {a b : Index} {id : ID} (hg : (a.items.get id).isSome = true) :
    shownBetween a b id = (b.collectionIdx.get (a.numberOf id)).bind fun c => .ok (b.tagSetsLoop c) := by
  obtain ⟨it, hit⟩ := Option.isSome_iff_exists.1 hg
  unfold shownBetween Index.tagSetsOf Index.numberOf
  rw [hit]
  simp only [Option.map_some, Option.getD_some]
  congr 1
  funext c
  exact congrArg Out.ok (tagSetsLoop_congr (ix := b) (ix' := { b with items := a.items }) rfl rfl c)

theorem tagOf_inj {tags : List Tag} (hn : (tags.map (·.name)).Nodup) {a b : UInt8} (ha : a.toNat < tags.length)
    (hb : b.toNat < tags.length) (h : tagOf tags a = tagOf tags b) : a = b := by
  unfold tagOf at h
  rw [tagsGet_eq, tagsGet_eq, List.getElem?_eq_getElem ha, List.getElem?_eq_getElem hb] at h
  simp only [Option.getD_some] at h
  have hnd : tags.Nodup := List.Nodup.of_map _ hn
  exact UInt8.toNat_inj.1 ((List.Nodup.getElem_inj_iff hnd).1 h)

/-- Different sets look different. -/
theorem Run.entry_inj {h : List Op} {ix : Index} (r : Run h ix) {i j : TagSetID}
    (hi : (ix.tagSets.get i).isSome = true) (hj : (ix.tagSets.get j).isSome = true) (e : entryOf ix i = entryOf ix j) :
    i = j := by
  obtain ⟨s, hs⟩ := Option.isSome_iff_exists.1 hi
  obtain ⟨s', hs'⟩ := Option.isSome_iff_exists.1 hj
  unfold entryOf at e
  rw [hs, hs'] at e
  simp only [Option.getD_some] at e
  rw [TagSetIndex.get_eq] at hs hs'
  have h1 := r.tag.setIds _ _ hs
  have h2 := r.tag.setIds _ _ hs'
  have hss : s = s' := by
    have hnames := r.tag.names
    rw [r.tag.tags] at e
    clear hs hs' hi hj
    induction s generalizing s' with
    | nil => cases s' with
      | nil => rfl
      | cons b s' => simp at e
    | cons a s ih => cases s' with
      | nil => simp at e
      | cons b s' =>
        simp only [List.map_cons, List.cons.injEq] at e
        rw [tagOf_inj hnames (h1 a (by simp)) (h2 b (by simp)) e.1,
          ih s' e.2 (fun t ht => h1 t (by simp [ht])) fun t ht => h2 t (by simp [ht])]
  subst hss
  have := gGet_inj r.tag.sets hs hs'
  rw [← packTS_unpackTS i, ← packTS_unpackTS j, this]

theorem tagSetsLoop_unresolved {ix : Index} {c : Coll} (h : [] ∉ ix.tagSetsLoop c) :
    ∀ i ∈ c, (ix.tagSets.get i).isSome = true := by
  induction c with
  | nil => simp
  | cons i c ih =>
    unfold Index.tagSetsLoop at h
    cases hg : ix.tagSets.get i with
    | none =>
      rw [hg] at h
      exact absurd (List.mem_replicate.2 ⟨by simp, rfl⟩) h
    | some s =>
      rw [hg] at h
      simp only [List.mem_cons, not_or] at h
      intro j hj
      rcases List.mem_cons.1 hj with rfl | hj
      · rw [hg]; rfl
      · exact ih h.2 j hj

theorem map_inj_on {α β : Type} {f : α → β} {l l' : List α} (hf : ∀ a ∈ l, ∀ b ∈ l', f a = f b → a = b)
    (h : l.map f = l'.map f) : l = l' := by
  induction l generalizing l' with
  | nil => cases l' with
    | nil => rfl
    | cons b l' => simp at h
  | cons a l ih => cases l' with
    | nil => simp at h
    | cons b l' =>
      simp only [List.map_cons, List.cons.injEq] at h
      rw [hf a (by simp) b (by simp) h.1, ih (fun x hx y hy => hf x (by simp [hx]) y (by simp [hy])) h.2]

/-- If a combination without the empty reading is shown, it is that combination. -/
theorem Run.loop_inj {h : List Op} {ix : Index} (r : Run h ix) {c c' : Coll} {A : List (List Str)} (hne : [] ∉ A)
    (hm : ∀ i ∈ c, ∃ n ∈ A, TSId (dictOf h).tags ix.tagSets n i) (e : ix.tagSetsLoop c' = ix.tagSetsLoop c) : c' = c := by
  have hc : ∀ i ∈ c, ∃ s, ix.tagSets.get i = some s ∧ s ≠ [] := by
    intro i hi
    obtain ⟨n, hn, ht⟩ := hm i hi
    have hn0 : n ≠ [] := by rintro rfl; exact hne hn
    obtain ⟨ids, p, h1, _, _, hg⟩ := ht.get r.caps hn0
    refine ⟨_, hg, ?_⟩
    intro h0
    have := findAll_length h1
    have hl := congrArg List.length h0
    rw [length_sortAsc, List.length_nil] at hl
    exact hn0 (List.length_eq_zero_iff.1 (by omega))
  have hres : ∀ i ∈ c, (ix.tagSets.get i).isSome = true := fun i hi => by
    obtain ⟨s, hs, _⟩ := hc i hi
    rw [hs]; rfl
  have hnil : [] ∉ ix.tagSetsLoop c := by
    rw [tagSetsLoop_map hres]
    intro hm
    obtain ⟨i, hi, he⟩ := List.mem_map.1 hm
    obtain ⟨s, hs, h0⟩ := hc i hi
    unfold entryOf at he
    rw [hs] at he
    simp only [Option.getD_some, List.map_eq_nil_iff] at he
    exact h0 he
  have hres' := tagSetsLoop_unresolved (by rw [e]; exact hnil : [] ∉ ix.tagSetsLoop c')
  rw [tagSetsLoop_map hres, tagSetsLoop_map hres'] at e
  exact map_inj_on (fun a ha b hb => r.entry_inj (hres' a ha) (hres b hb)) e

/-- Different numbers stand for different combinations. -/
theorem collGet_inj {c : VariantsIndex} (hc : GInv c) {v v' : VariantID} {x : Coll} (hx : x ≠ [])
    (h : c.get v = .ok x) (h' : c.get v' = .ok x) : v = v' := by
  rw [VariantsIndex.get_eq_ok_iff] at h h'
  rcases h with ⟨_, h⟩ | ⟨a, b⟩
  · exact absurd h hx
  · rcases h' with ⟨_, h'⟩ | ⟨a', b'⟩
    · exact absurd h' hx
    · have := gGet_inj hc b b'
      rw [← packV_eq_of_parts v a, ← packV_eq_of_parts v' a', this]

/-! ## It ends -/

/-- How many accesses of `Optimize` are left, at most: `L` slots and `K` combinations. -/
def OState.left (L K : Nat) (s : OState) : Nat :=
  match s.pc with
  | .start => 2 * L + K + 5
  | .scan _ n k _ => (n - k) + K + L + 4
  | .build _ rest _ _ => rest.length + L + 3
  | .replace _ todo => todo.length + 1
  | .done => 0
  | .panicked => 1

theorem writes_length {ix : Index} {new : VariantsIndex} {acc : List (VariantID × VariantID)} (P : OPlan ix new acc) :
    (OState.writes (usedCollections ix.items.items) acc).length ≤ ix.items.items.length := by
  have hsub : (OState.writes (usedCollections ix.items.items) acc).map (fun w => w.1.toNat) ⊆
      List.range ix.items.items.length := by
    intro k hk
    obtain ⟨w, hw, rfl⟩ := List.mem_map.1 hk
    obtain ⟨it, hit, _⟩ := P.old w hw
    rw [List.mem_range]
    by_contra hge
    rw [List.getElem?_eq_none (by omega)] at hit
    cases hit
  have := (List.subperm_of_subset P.nodup hsub).length_le
  rwa [List.length_map, List.length_range] at this

theorem left_opt {base : Index} {s : OState} (I : OInv base s) (I' : OInv base s.opt) {L : Nat} (hL : base.items.items.length ≤ L)
    (hp : s.pc ≠ .done) : s.opt.left L base.collectionIdx.knownID.length + 1 ≤ s.left L base.collectionIdx.knownID.length := by
  obtain ⟨ix, pc⟩ := s
  cases pc with
  | start =>
    have I : ix = base := I
    subst I
    show (ix.items.items.length - 0) + ix.collectionIdx.knownID.length + L + 4 + 1 ≤ 2 * L + ix.collectionIdx.knownID.length + 5
    omega
  | scan known n k used =>
    obtain ⟨e, rfl, hkn, hn, hs, hu⟩ := I
    simp only at e
    subst e
    unfold OState.opt
    simp only
    by_cases hk : k < n
    · rw [if_pos hk, List.getElem?_eq_getElem (by omega)]
      simp only [OState.left]
      omega
    · rw [if_neg hk]
      split
      · simp only [OState.left]; omega
      · simp only [OState.left]; omega
  | build used rest new acc =>
    cases rest with
    | nil =>
      obtain ⟨acc', past, P, hw, _⟩ := I'
      have hl := writes_length P
      have := congrArg List.length hw
      rw [List.length_append] at this
      simp only [OState.left, OState.opt, List.length_nil]
      omega
    | cons id rest =>
      unfold OState.opt at I' ⊢
      simp only at I' ⊢
      repeat' split
      all_goals simp only [OState.left, List.length_cons]
      all_goals omega
  | replace new todo =>
    cases todo with
    | nil => simp only [OState.opt, OState.left]; simp
    | cons w todo =>
      obtain ⟨id, v⟩ := w
      unfold OState.opt at I' ⊢
      simp only at I' ⊢
      split
      · simp only [OState.left, List.length_cons]; omega
      · simp only [OState.left, List.length_cons]; omega
  | done => exact absurd rfl hp
  | panicked => exact I.elim

/-- The accesses `Optimize` makes. -/
def optsIn (evs : List OEv) : Nat := (evs.filter fun | .opt => true | .call _ => false).length

theorem left_run {h : List Op} {ix : Index} (r : Run h ix) (evs rest : List OEv)
    (hq : ∀ op ∈ callsDuring (evs ++ rest), op.Untagging) {base : Index} (r' : Run (h ++ callsDuring (evs ++ rest)) base) :
    ((⟨ix, .start⟩ : OState).run evs).pc = .done ∨
      optsIn evs + ((⟨ix, .start⟩ : OState).run evs).left base.items.items.length base.collectionIdx.knownID.length ≤
        2 * base.items.items.length + base.collectionIdx.knownID.length + 5 := by
  induction evs using list_reverse_induction generalizing rest with
  | nil => right; simp [optsIn, OState.run, OState.left]
  | snoc evs e ih =>
    have hrun : ∀ s : OState, s.run (evs ++ [e]) = (s.run evs).step e := fun s => by
      unfold OState.run; rw [List.foldl_append]; rfl
    rw [hrun]
    have ih := ih (e :: rest) (by simpa using hq) (by simpa using r')
    have hqe : ∀ op ∈ callsDuring evs, op.Untagging := fun op hop => hq op (by
      rw [callsDuring_append, callsDuring_append]; simp [hop])
    have hqr : ∀ op ∈ callsDuring ([e] ++ rest), op.Untagging := fun op hop => hq op (by
      rw [List.append_assoc, callsDuring_append]; exact List.mem_append_right _ hop)
    have r2 := r'
    rw [List.append_assoc, callsDuring_append, ← List.append_assoc] at r2
    obtain ⟨b, rb⟩ := r2.before
    have I := oinv_run r evs hqe rb
    have K := kept_run rb r2 hqr
    cases e with
    | opt =>
      by_cases hd : ((⟨ix, .start⟩ : OState).run evs).pc = .done
      · left
        show ((⟨ix, .start⟩ : OState).run evs).opt.pc = .done
        unfold OState.opt
        rw [hd]
        exact hd
      · rcases ih with ih | ih
        · exact absurd ih hd
        · right
          have := left_opt I (oinv_opt rb I) K.length hd
          rw [← K.collectionIdx] at this
          have ho : optsIn (evs ++ [.opt]) = optsIn evs + 1 := by simp [optsIn]
          rw [ho]
          simp only [OState.step]
          omega
    | call op =>
      have ho : optsIn (evs ++ [.call op]) = optsIn evs := by simp [optsIn]
      rw [ho]
      rcases ih with ih | ih
      · exact .inl ih
      · exact .inr ih

end Verif
