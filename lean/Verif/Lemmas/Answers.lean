import Verif.Lemmas.Refine

/-! # Helper lemmas: answers of an index in terms of the dictionary -/

namespace Verif

theorem fetchFromItem_congr {ix ix' : Index} (h : Index.Obs ix ix') (p : ID) (rs : List Rune) :
    (ix'.fetchFromItem p rs).2 = (ix.fetchFromItem p rs).2 := by
  induction rs generalizing ix ix' p with
  | nil => rfl
  | cons r rest ih =>
    have ho := getChildrenIDMap_obs ix p
    have ho' := getChildrenIDMap_obs ix' p
    have hs := getChildrenIDMap_snd ix p
    have hs' := getChildrenIDMap_snd ix' p
    unfold Index.fetchFromItem
    generalize ix.getChildrenIDMap p = x at *
    generalize ix'.getChildrenIDMap p = x' at *
    obtain ⟨a, cm⟩ := x
    obtain ⟨a', cm'⟩ := x'
    simp only at *
    subst hs hs'
    rw [h.children]
    cases hc : ix.getChildrenMap p r with
    | none => simp only; rw [word_obs ho, word_obs ho', word_obs h]
    | some c =>
      have : Index.Obs a a' := ⟨by rw [ho'.tags, ho.tags, h.tags], by rw [ho'.tagSets, ho.tagSets, h.tagSets],
        by rw [ho'.collectionIdx, ho.collectionIdx, h.collectionIdx],
        by rw [ho'.items, ho.items, h.items], by rw [ho'.children, ho.children, h.children],
        by rw [ho'.wordsCount, ho.wordsCount, h.wordsCount]⟩
      simp only
      split
      · rw [get_obs ho, get_obs ho', get_obs h]
      · exact ih this c

theorem fetchItemFromParent_congr {ix ix' : Index} (h : Index.Obs ix ix') (p : ID) (rs : List Rune) :
    (ix'.fetchItemFromParent p rs).2 = (ix.fetchItemFromParent p rs).2 := by
  induction rs generalizing ix ix' p with
  | nil => rfl
  | cons r rest ih =>
    have ho := getChildrenIDMap_obs ix p
    have ho' := getChildrenIDMap_obs ix' p
    have hs := getChildrenIDMap_snd ix p
    have hs' := getChildrenIDMap_snd ix' p
    unfold Index.fetchItemFromParent
    generalize ix.getChildrenIDMap p = x at *
    generalize ix'.getChildrenIDMap p = x' at *
    obtain ⟨a, cm⟩ := x
    obtain ⟨a', cm'⟩ := x'
    simp only at *
    subst hs hs'
    rw [h.children]
    cases hc : ix.getChildrenMap p r with
    | none => simp only; rw [word_obs ho, word_obs ho', word_obs h]
    | some c =>
      have : Index.Obs a a' := ⟨by rw [ho'.tags, ho.tags, h.tags], by rw [ho'.tagSets, ho.tagSets, h.tagSets],
        by rw [ho'.collectionIdx, ho.collectionIdx, h.collectionIdx],
        by rw [ho'.items, ho.items, h.items], by rw [ho'.children, ho.children, h.children],
        by rw [ho'.wordsCount, ho.wordsCount, h.wordsCount]⟩
      simp only
      split
      · rfl
      · exact ih this c

theorem tagSetsLoop_congr {ix ix' : Index} (h1 : ix'.tagSets = ix.tagSets) (h2 : ix'.tags = ix.tags)
    (c : Coll) : ix'.tagSetsLoop c = ix.tagSetsLoop c := by
  induction c with
  | nil => rfl
  | cons id rest ih => unfold Index.tagSetsLoop; rw [h1, h2, ih]

theorem SameAnswers.of_obs {ix ix' : Index} (h : Index.Obs ix ix') : SameAnswers ix ix' := by
  constructor
  · exact fetchFromItem_congr h
  · exact fetchItemFromParent_congr h
  · exact get_obs h
  · exact word_obs h
  · intro id
    unfold Index.tagSetsOf
    rw [h.items, h.collectionIdx]
    have : ix'.tagSetsLoop = ix.tagSetsLoop := funext (tagSetsLoop_congr h.tagSets h.tags)
    rw [this]
  · intro id; rw [h.children]
  · exact h.tags
  · unfold Index.nodesCount; rw [h.items]
  · exact h.wordsCount

theorem TrieOK.nodesCount {ix : Index} {d : Dict} (h : TrieOK ix d) : ix.nodesCount = d.nodes.length - 1 := by
  unfold Index.nodesCount
  have h1 := h.length_pos
  have h2 := h.next
  have h3 : (1 : ID) ≤ ix.items.nextID := by
    rw [UInt32.le_iff_toNat_le]; simp only [UInt32.toNat_one]; omega
  rw [UInt32.toNat_sub_of_le _ _ h3, h2]; rfl

theorem TrieOK.word_none {ix : Index} {d : Dict} (h : TrieOK ix d) {id : ID}
    (hw : d.nodes[id.toNat]? = none) : ix.word id = .ok (Index.noItemText id) := by
  have hlen := List.getElem?_eq_none_iff.1 hw
  have hpos := h.length_pos
  unfold Index.word Index.wordFuel
  rw [if_neg, h.items_get_none (by omega)]
  rintro rfl
  have : (0 : ID).toNat = 0 := rfl
  omega

theorem TrieOK.children_none {ix : Index} {d : Dict} (h : TrieOK ix d) {id : ID}
    (hw : d.nodes[id.toNat]? = none) (r : Rune) : ix.getChildrenMap id r = none := by
  cases hc : ix.getChildrenMap id r with
  | none => rfl
  | some c =>
    rcases (h.child id r c).1 hc with ⟨w, h1, _⟩ | ⟨_, rfl, _⟩
    · rw [hw] at h1; cases h1
    · have : (0 : ID).toNat = 0 := rfl
      rw [this, h.root] at hw; cases hw

/-- The outcome of a lookup from an id without a node. -/
theorem TrieOK.fetch_none {ix : Index} {d : Dict} (h : TrieOK ix d) {id : ID}
    (hw : d.nodes[id.toNat]? = none) (r : Rune) (rest : List Rune) :
    (ix.fetchFromItem id (r :: rest)).2 = .err (.notFound (Index.noItemText id) r) ∧
    (ix.fetchItemFromParent id (r :: rest)).2 = .err (.notFound (Index.noItemText id) r) := by
  have ho := getChildrenIDMap_obs ix id
  have hs := getChildrenIDMap_snd ix id
  unfold Index.fetchFromItem Index.fetchItemFromParent
  generalize ix.getChildrenIDMap id = x at *
  obtain ⟨a, cm⟩ := x
  simp only at *
  subst hs
  rw [h.children_none hw]
  simp only
  rw [word_obs ho, h.word_none hw]
  exact ⟨rfl, rfl⟩

theorem TrieOK.fetch_iff {ix : Index} {d : Dict} (h : TrieOK ix d) (p : ID) (rs : List Rune) (id : ID) :
    (ix.fetchFromItem p rs).2 = .ok id ↔
      rs ≠ [] ∧ ∃ w, d.nodes[p.toNat]? = some w ∧ d.nodes[id.toNat]? = some (d.join w rs) := by
  cases rs with
  | nil => simp [Index.fetchFromItem]
  | cons r rest =>
    cases hw : d.nodes[p.toNat]? with
    | none =>
      rw [(h.fetch_none hw r rest).1]
      simp
    | some w =>
      have hs := h.fetchFromItem_spec p w (r :: rest) hw (by simp)
      constructor
      · intro he
        refine ⟨by simp, w, rfl, ?_⟩
        rcases hs with ⟨id', h1, h2⟩ | ⟨_, _, _, _, _, _, _, h2⟩
        · rw [he] at h2
          obtain rfl := Out.ok.inj h2
          exact h1
        · rw [he] at h2; cases h2
      · rintro ⟨_, w', hw', hid⟩
        obtain rfl := Option.some.inj hw'
        rcases hs with ⟨id', h1, h2⟩ | ⟨pre, r', post, e1, _, _, e4, _⟩
        · rw [h2, UInt32.toNat_inj.1 (h.idx_unique h1 hid)]
        · exfalso
          apply e4
          apply h.closed hid
          rw [e1]
          exact ⟨post, by simp⟩

theorem TrieOK.fetch_err {ix : Index} {d : Dict} (h : TrieOK ix d) (p : ID) (rs : List Rune) :
    (∃ id, (ix.fetchFromItem p rs).2 = .ok id) ∨ ∃ e, (ix.fetchFromItem p rs).2 = .err e := by
  cases rs with
  | nil => exact .inr ⟨_, rfl⟩
  | cons r rest =>
    cases hw : d.nodes[p.toNat]? with
    | none => exact .inr ⟨_, (h.fetch_none hw r rest).1⟩
    | some w =>
      rcases h.fetchFromItem_spec p w (r :: rest) hw (by simp) with ⟨id', h1, h2⟩ | ⟨_, _, _, _, _, _, _, h2⟩
      · exact .inl ⟨_, h2⟩
      · exact .inr ⟨_, h2⟩

theorem fetchItemFromParent_same {ix : Index} {d : Dict} (h : TrieOK ix d) (p : ID) (rs : List Rune) :
    (ix.fetchItemFromParent p rs).2 = (ix.fetchFromItem p rs).2 := by
  cases rs with
  | nil => rfl
  | cons r rest =>
    cases hw : d.nodes[p.toNat]? with
    | none => rw [(h.fetch_none hw r rest).1, (h.fetch_none hw r rest).2]
    | some w => exact h.fetchItemFromParent_eq p w _ hw

theorem zero_toNat : (0 : ID).toNat = 0 := rfl

theorem TrieOK.fetchRoot_iff {ix : Index} {d : Dict} (h : TrieOK ix d) (q : List Rune) (id : ID) :
    (ix.fetchRunes q).2 = .ok id ↔ q ≠ [] ∧ d.nodes[id.toNat]? = some (d.join [] q) := by
  unfold Index.fetchRunes
  rw [h.fetch_iff, zero_toNat, h.root]
  simp

theorem Run.root_join {h : List Op} {q : List Rune} (hz : NoReload h ∨ NoLeadingNul q) :
    (dictOf h).join [] q = q :=
  Dict.join_root (hz.imp_left (dictOf_nul h))

/-! ## Adding -/

theorem addLoop_orig (o o' : ID) (ix : Index) (p : ID) (rs : List Rune) :
    (ix.addLoop o p rs).1 = (ix.addLoop o' p rs).1 ∧
    ∀ c, (ix.addLoop o p rs).2 = .ok c → (ix.addLoop o' p rs).2 = .ok c := by
  induction rs generalizing ix p with
  | nil => exact ⟨rfl, fun _ h => h⟩
  | cons r rest ih =>
    unfold Index.addLoop
    split
    · exact ⟨rfl, fun c h => by cases h⟩
    · split
      · exact ⟨rfl, fun c h => by cases h⟩
      · split
        · exact ⟨rfl, fun c h => h⟩
        · exact ih _ _

theorem ensureChildren_of_child {ix : Index} {p : ID} {r : Rune} {c : ID}
    (h : ix.getChildrenMap p r = some c) : (ix.getChildrenIDMap p).1 = ix := by
  unfold Index.getChildrenMap at h
  unfold Index.getChildrenIDMap Index.ensureChildren
  cases hm : ix.childrenMap p with
  | none => rw [hm] at h; cases h
  | some im => rfl

/-- Walking along existing nodes changes nothing. -/
theorem TrieOK.addLoop_walk {ix : Index} {d : Dict} (h : TrieOK ix d) (o : ID) (u v rs : List Rune) (p n : ID)
    (hp : d.nodes[p.toNat]? = some u) (hn : d.nodes[n.toNat]? = some (u ++ v)) (hrs : rs ≠ []) :
    ix.addLoop o p (v ++ rs) = ix.addLoop o n rs := by
  induction v generalizing u p with
  | nil =>
    rw [List.append_nil] at hn
    rw [UInt32.toNat_inj.1 (h.idx_unique hp hn)]
    rfl
  | cons r v ih =>
    have hm : u ++ [r] ∈ d.nodes := h.closed hn _ ⟨v, by simp⟩
    obtain ⟨c, hc⟩ := h.exists_id hm
    have hch : ix.getChildrenMap p r = some c := (h.child p r c).2 (.inl ⟨u, hp, hc⟩)
    have hsame := ensureChildren_of_child hch
    have hsnd := getChildrenIDMap_snd ix p
    have hstep : ix.addStep p r = some (ix, c) := by
      unfold Index.addStep
      generalize ix.getChildrenIDMap p = x at *
      obtain ⟨a, cm⟩ := x
      simp only at *
      subst hsame hsnd
      rw [hch]
    rw [List.cons_append]
    conv => lhs; unfold Index.addLoop
    rw [if_neg, hstep]
    · simp only
      rw [if_neg (by simp [hrs])]
      exact ih (u ++ [r]) c hc (by rw [List.append_assoc]; exact hn)
    · rintro ⟨h0, hnone⟩
      have hpos : 0 < p.toNat := Nat.pos_of_ne_zero fun e => h0 (TrieOK.toNat_eq_zero.1 e)
      obtain ⟨it, _, e, _⟩ := h.items_get hpos (TrieOK.lt_next hp)
      rw [e] at hnone
      cases hnone

theorem TrieOK.join_self {ix : Index} {d : Dict} (t : TrieOK ix d) {w : List Rune} (hw : w ∈ d.nodes) :
    d.join [] w = w := by
  unfold Dict.join
  split
  · rename_i hu
    cases w with
    | nil => rfl
    | cons a w =>
      have ha : a ≠ 0 := by
        rintro rfl
        obtain ⟨id, hid⟩ := t.exists_id hw
        exact t.nul hu.2 (t.closed hid [0] (by simp))
      simp [ha]
  · rfl

/-- The same from the root, leading NULs skipped or not. -/
theorem TrieOK.addLoop_join {ix : Index} {d : Dict} (h : TrieOK ix d) (o : ID) (v rs : List Rune) (n : ID)
    (hn : d.nodes[n.toNat]? = some (d.join [] v)) (hrs : rs ≠ []) :
    ix.addLoop o 0 (v ++ rs) = ix.addLoop o n rs := by
  by_cases hu : d.nul = true
  · have hj : d.join [] v = v.dropWhile (· == 0) := by unfold Dict.join; simp [hu]
    rw [hj] at hn
    clear hj
    induction v with
    | nil =>
      rw [List.dropWhile_nil] at hn
      rw [List.nil_append, UInt32.toNat_inj.1 (h.idx_unique hn (by rw [zero_toNat]; exact h.root))]
    | cons r v ih =>
      by_cases hr : r = 0
      · subst hr
        have hch : ix.getChildrenMap 0 0 = some 0 := (h.child 0 0 0).2 (.inr ⟨hu, rfl, rfl, rfl⟩)
        have hsame := ensureChildren_of_child hch
        have hsnd := getChildrenIDMap_snd ix 0
        have hstep : ix.addStep 0 0 = some (ix, 0) := by
          unfold Index.addStep
          generalize ix.getChildrenIDMap 0 = x at *
          obtain ⟨a, cm⟩ := x
          simp only at *
          subst hsame hsnd
          rw [hch]
        rw [List.cons_append]
        conv => lhs; unfold Index.addLoop
        rw [if_neg (by simp), hstep]
        simp only
        rw [if_neg (by simp [hrs])]
        exact ih (by simpa using hn)
      · rw [List.dropWhile_cons_of_neg (by simpa using hr)] at hn
        exact h.addLoop_walk o [] _ rs 0 n (by rw [zero_toNat]; exact h.root) hn hrs
  · rw [Dict.join_root (.inl (by simpa using hu))] at hn
    exact h.addLoop_walk o [] _ rs 0 n (by rw [zero_toNat]; exact h.root) hn hrs

end Verif
