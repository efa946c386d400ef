import Verif.Lemmas.Trie

/-! # Helper lemmas: adding words -/

namespace Verif

theorem extendStep_pos (n : Nat) : 0 < Items.extendStep n := by
  unfold Items.extendStep
  split
  · rename_i i hi
    have := List.mem_of_find?_eq_some hi
    simp only [List.mem_cons, List.not_mem_nil, or_false] at this
    rcases this with rfl | rfl | rfl | rfl | rfl | rfl | rfl | rfl | rfl <;> decide
  · decide

/-- The storage after `NewChild`. -/
theorem newChild_spec (its : Items) (p : ID) (l : Rune) (h : its.nextID.toNat ≤ its.items.length) :
    ∃ its', its.newChild p l = some (its', { parent := p, id := its.nextID, letter := l, variants := 0 }) ∧
      its'.nextID = its.nextID + 1 ∧
      its.nextID.toNat < its'.items.length ∧
      its'.items[its.nextID.toNat]? = some { parent := p, id := its.nextID, letter := l, variants := 0 } ∧
      (∀ k, k < its.nextID.toNat → its'.items[k]? = its.items[k]?) ∧
      (∀ k it, its.nextID.toNat < k → its'.items[k]? = some it → its.items[k]? = some it ∨ it = zeroItem) := by
  unfold Items.newChild
  simp only
  by_cases hl : its.items.length ≤ its.nextID.toNat
  · rw [if_pos hl]
    have hpos := extendStep_pos its.items.length
    have hlt : its.nextID.toNat < (its.extend (Items.extendStep its.items.length)).items.length := by
      simp only [Items.extend, List.length_append, List.length_replicate]
      omega
    rw [if_pos hlt]
    refine ⟨_, rfl, rfl, by simpa using hlt, ?_, ?_, ?_⟩
    · simp [hlt]
    · intro k hk
      simp only
      rw [List.getElem?_set_ne (by omega)]
      simp only [Items.extend]
      rw [List.getElem?_append_left (by omega)]
    · intro k it hk hit
      simp only at hit
      rw [List.getElem?_set_ne (by omega)] at hit
      simp only [Items.extend] at hit
      rw [List.getElem?_append_right (by omega)] at hit
      exact .inr (List.eq_of_mem_replicate (List.mem_of_getElem? hit))
  · rw [if_neg hl, if_pos (by omega)]
    refine ⟨_, rfl, rfl, by simp; omega, ?_, ?_, ?_⟩
    · simp only; rw [List.getElem?_set_self (by omega)]
    · intro k hk
      simp only
      rw [List.getElem?_set_ne (by omega)]
    · intro k it hk hit
      simp only at hit
      rw [List.getElem?_set_ne (by omega)] at hit
      exact .inl hit

/-- Unused slots carry no readings. -/
def Slack (ix : Index) (n : Nat) : Prop := ∀ k it, n ≤ k → ix.items.items[k]? = some it → it.variants = 0

/-- `ix'` is `ix` with nodes added behind the first `n`. -/
structure Grow (ix ix' : Index) (n : Nat) : Prop where
  tags : ix'.tags = ix.tags
  tagSets : ix'.tagSets = ix.tagSets
  collectionIdx : ix'.collectionIdx = ix.collectionIdx
  wordsCount : ix'.wordsCount = ix.wordsCount
  items : ∀ k, k < n → ix'.items.items[k]? = ix.items.items[k]?
  slack : Slack ix n → Slack ix' n

theorem Grow.of_obs {ix ix' : Index} (h : Index.Obs ix ix') (n : Nat) : Grow ix ix' n :=
  ⟨h.tags, h.tagSets, h.collectionIdx, h.wordsCount, fun _ _ => by rw [h.items],
    fun hs => by unfold Slack at *; rw [h.items]; exact hs⟩

theorem Grow.trans {a b c : Index} {n m : Nat} (h : Grow a b n) (h' : Grow b c m) (hnm : n ≤ m) :
    Grow a c n := by
  refine ⟨h'.tags.trans h.tags, h'.tagSets.trans h.tagSets, h'.collectionIdx.trans h.collectionIdx,
    h'.wordsCount.trans h.wordsCount, ?_, ?_⟩
  · intro k hk
    rw [h'.items k (by omega), h.items k hk]
  · intro hs k it hk hit
    have hb := h.slack hs
    by_cases hkm : k < m
    · rw [h'.items k hkm] at hit
      exact hb k it hk hit
    · exact h'.slack (fun k it hk => hb k it (by omega)) k it (by omega) hit

theorem setChild_get (ix : Index) (im : IdMap) (p : ID) (l : Rune) (c : ID) (q : ID) (r : Rune)
    (hp : ix.childrenMap p = some im) :
    ((Index.setChild ix.childrenMap p l c) q).getD (fun _ => none) r =
      if q = p ∧ r = l then some c else ix.getChildrenMap q r := by
  unfold Index.setChild
  rw [hp]
  simp only
  by_cases hq : q = p
  · subst hq
    simp only [if_true, Option.getD_some]
    by_cases hr : r = l
    · simp [hr]
    · simp [hr, Index.getChildrenMap, hp]
  · simp [hq, Index.getChildrenMap]

namespace TrieOK

variable {ix : Index} {d : Dict}

/-- One step of adding: the child is found or created. -/
theorem addStep_spec (h : TrieOK ix d) {p : ID} {w : List Rune} (hp : d.nodes[p.toNat]? = some w)
    (r : Rune) (hcap : (addNew d.nodes (d.join w [r])).length < 4294967296) :
    ∃ ix' c, ix.addStep p r = some (ix', c) ∧
      TrieOK ix' { d with nodes := addNew d.nodes (d.join w [r]) } ∧
      (addNew d.nodes (d.join w [r]))[c.toNat]? = some (d.join w [r]) ∧ Grow ix ix' d.nodes.length ∧
      (d.join w [r] ∈ d.nodes → Index.Obs ix ix') := by
  have ho := getChildrenIDMap_obs ix p
  have hs := getChildrenIDMap_snd ix p
  have hsome : ∃ im, (ix.getChildrenIDMap p).1.childrenMap p = some im :=
    ensureChildren_isSome ix.childrenMap p
  unfold Index.addStep
  generalize ix.getChildrenIDMap p = x at *
  obtain ⟨ix1, cm⟩ := x
  simp only at ho hs hsome ⊢
  subst hs
  have h1 := h.obs ho
  cases hc : ix.getChildrenMap p r with
  | some c =>
    have hc' := (h.child_some hp r c).1 hc
    have hm := List.mem_of_getElem? hc'
    rw [addNew_of_mem hm]
    exact ⟨ix1, c, rfl, h1, hc', .of_obs ho _, fun _ => ho⟩
  | none =>
    have hnm := (h.child_none hp r).1 hc
    rw [addNew_of_not_mem hnm] at hcap ⊢
    rw [List.length_append, List.length_singleton] at hcap
    have hj : d.join w [r] = w ++ [r] := by
      rcases d.join_single w r with ⟨hj, _⟩ | ⟨_, _, _, hj⟩
      · exact hj
      · rw [hj] at hnm; exact absurd h.root_mem hnm
    have hnul : ¬ (w = [] ∧ d.nul = true ∧ r = 0) := by
      rcases d.join_single w r with ⟨_, hn⟩ | ⟨_, _, _, hj⟩
      · exact hn
      · rw [hj] at hnm; exact absurd h.root_mem hnm
    rw [hj] at hnm ⊢
    obtain ⟨its', hnew, hnext, hlen, hself, hold, hslack⟩ :=
      newChild_spec ix1.items p r (by rw [h1.next]; exact h1.cap)
    obtain ⟨im, him⟩ := hsome
    rw [hnew]
    simp only
    have hid : ix1.items.nextID.toNat = d.nodes.length := h1.next
    have hsz := h.length_pos
    refine ⟨_, _, rfl, ?_, ?_, ?_, ?_⟩
    · constructor
      · simp only
        rw [List.getElem?_append_left hsz]
        exact h.root
      · simp only
        have := nodup_addNew h.nodup (w ++ [r])
        rwa [addNew_of_not_mem hnm] at this
      · simp only [List.length_append, List.length_singleton]
        rw [hnext, UInt32.toNat_add, hid]
        simp only [show (1 : ID).toNat = 1 from rfl]
        omega
      · simp only [List.length_append, List.length_singleton]
        omega
      · simp only
        rw [hold 0 (by omega)]
        exact h1.item0
      · intro k hk0 hk
        simp only [List.length_append, List.length_singleton] at hk
        by_cases hkn : k < d.nodes.length
        · obtain ⟨it, w', e1, e2, e3, e4, e5⟩ := h1.item k hk0 hkn
          refine ⟨it, w', ?_, e2, e3, ?_, ?_⟩
          · simp only; rw [hold k (by omega)]; exact e1
          · simp only; rw [List.getElem?_append_left (lt_next e4)]; exact e4
          · simp only; rw [List.getElem?_append_left hkn]; exact e5
        · have hk' : k = ix1.items.nextID.toNat := by omega
          subst hk'
          refine ⟨_, w, hself, rfl, ?_, ?_, ?_⟩
          · simp only; have := lt_next hp; omega
          · simp only; rw [List.getElem?_append_left (lt_next hp)]; exact hp
          · simp only; rw [hid, List.getElem?_append_right (by omega)]; simp
      · intro q l c
        simp only [Index.getChildrenMap]
        rw [setChild_get ix1 im p r ix1.items.nextID q l him, ho.children]
        by_cases hql : q = p ∧ l = r
        · obtain ⟨rfl, rfl⟩ := hql
          rw [if_pos ⟨rfl, rfl⟩]
          constructor
          · intro hc
            have := (Option.some.inj hc).symm
            subst this
            left
            refine ⟨w, ?_, ?_⟩
            · rw [List.getElem?_append_left (lt_next hp)]; exact hp
            · rw [hid, List.getElem?_append_right (by omega)]; simp
          · rintro (⟨w', e1, e2⟩ | ⟨e1, e2, e3, e4⟩)
            · rw [List.getElem?_append_left (lt_next hp), hp] at e1
              obtain rfl := Option.some.inj e1
              have hcl := lt_next (d := { d with nodes := d.nodes ++ [w ++ [l]] }) e2
              simp only [List.length_append, List.length_singleton] at hcl
              by_cases hcn : c.toNat < d.nodes.length
              · rw [List.getElem?_append_left hcn] at e2
                exact absurd (List.mem_of_getElem? e2) hnm
              · congr 1
                apply UInt32.toNat_inj.1
                omega
            · exfalso
              subst e2
              apply hnul
              rw [show (0 : ID).toNat = 0 from rfl, h.root] at hp
              exact ⟨(Option.some.inj hp).symm, e1, e3⟩
        · rw [if_neg hql]
          rw [h.child]
          constructor
          · rintro (⟨w', e1, e2⟩ | e)
            · left
              refine ⟨w', ?_, ?_⟩
              · rw [List.getElem?_append_left (lt_next e1)]; exact e1
              · rw [List.getElem?_append_left (lt_next e2)]; exact e2
            · exact .inr e
          · rintro (⟨w', e1, e2⟩ | e)
            · left
              refine ⟨w', ?_⟩
              have hcl := lt_next (d := { d with nodes := d.nodes ++ [w ++ [r]] }) e2
              have hql' := lt_next (d := { d with nodes := d.nodes ++ [w ++ [r]] }) e1
              simp only [List.length_append, List.length_singleton] at hcl hql'
              -- the old words: neither end is the new one
              by_cases hq : q.toNat < d.nodes.length
              · rw [List.getElem?_append_left hq] at e1
                by_cases hcn : c.toNat < d.nodes.length
                · rw [List.getElem?_append_left hcn] at e2
                  exact ⟨e1, e2⟩
                · exfalso
                  rw [List.getElem?_append_right (by omega), show c.toNat - d.nodes.length = 0 by omega]
                    at e2
                  simp only [List.getElem?_cons_zero, Option.some.injEq] at e2
                  obtain ⟨e3, e4⟩ := List.append_inj' e2 rfl
                  simp only [List.cons.injEq, and_true] at e4
                  subst e3 e4
                  exact hql ⟨UInt32.toNat_inj.1 (h.idx_unique e1 hp), rfl⟩
              · exfalso
                rw [List.getElem?_append_right (by omega), show q.toNat - d.nodes.length = 0 by omega]
                  at e1
                simp only [List.getElem?_cons_zero, Option.some.injEq] at e1
                subst e1
                by_cases hcn : c.toNat < d.nodes.length
                · rw [List.getElem?_append_left hcn] at e2
                  exact hnm (h.closed e2 _ (List.prefix_append _ _))
                · rw [List.getElem?_append_right (by omega), show c.toNat - d.nodes.length = 0 by omega]
                    at e2
                  simp only [List.getElem?_cons_zero, Option.some.injEq] at e2
                  have := congrArg List.length e2
                  simp at this
            · exact .inr e
      · intro hu
        simp only
        intro hm
        rw [List.mem_append, List.mem_singleton] at hm
        rcases hm with hm | hm
        · exact h.nul hu hm
        · have hw : w = [] := by
            have := congrArg List.length hm
            simp only [List.length_append, List.length_cons, List.length_nil] at this
            exact List.length_eq_zero_iff.1 (by omega)
          subst hw
          simp only [List.nil_append, List.cons.injEq, and_true] at hm
          exact hnul ⟨rfl, hu, hm.symm⟩
    · rw [hid, List.getElem?_append_right (by omega)]; simp
    · refine ⟨ho.tags, ho.tagSets, ho.collectionIdx, ho.wordsCount, ?_, ?_⟩
      · intro k hk
        simp only
        rw [hold k (by omega), ho.items]
      · intro hs k it hk hit
        simp only at hit
        by_cases hkn : k = ix1.items.nextID.toNat
        · subst hkn
          rw [hself] at hit
          rw [← Option.some.inj hit]
        · rcases hslack k it (by omega) hit with h' | rfl
          · rw [ho.items] at h'
            exact hs k it hk h'
          · rfl
    · intro hm; exact absurd hm hnm

/-- The whole loop of `AddToNode`, below a known node. -/
theorem addLoop_spec (h : TrieOK ix d) (orig p : ID) (w rs : List Rune)
    (hp : d.nodes[p.toNat]? = some w) (hrs : rs ≠ [])
    (hcap : (addAll d.nodes (prefixes (d.join w rs))).length < 4294967296) :
    ∃ id, (ix.addLoop orig p rs).2 = .ok id ∧
      TrieOK (ix.addLoop orig p rs).1 { d with nodes := addAll d.nodes (prefixes (d.join w rs)) } ∧
      (addAll d.nodes (prefixes (d.join w rs)))[id.toNat]? = some (d.join w rs) ∧
      Grow ix (ix.addLoop orig p rs).1 d.nodes.length ∧
      (d.join w rs ∈ d.nodes → Index.Obs ix (ix.addLoop orig p rs).1) := by
  induction rs generalizing ix d p w with
  | nil => exact absurd rfl hrs
  | cons r rest ih =>
    have hlast : ¬ (p ≠ 0 ∧ (ix.items.get p).isNone = true) := by
      rintro ⟨h0, hn⟩
      have h1 : 0 < p.toNat := Nat.pos_of_ne_zero fun h' => h0 (toNat_eq_zero.1 h')
      obtain ⟨it, w', hg, _⟩ := h.items_get h1 (lt_next hp)
      rw [hg] at hn
      cases hn
    -- the nodes after the whole loop, seen from after the first step
    have hpre : d.join w [r] <+: d.join w (r :: rest) := by
      rw [← d.join_step w r rest]; exact join_prefix d _ _
    have hstep : addAll (addNew d.nodes (d.join w [r])) (prefixes (d.join w (r :: rest)))
        = addAll d.nodes (prefixes (d.join w (r :: rest))) := by
      rcases d.join_single w r with ⟨hj, _⟩ | ⟨_, _, _, hj⟩
      · rw [hj] at hpre ⊢
        exact addAll_addNew (h.prefixes_mem hp) hpre
      · rw [hj, addNew_of_mem h.root_mem]
    have hcap1 : (addNew d.nodes (d.join w [r])).length < 4294967296 := by
      have := (addAll_prefix (addNew d.nodes (d.join w [r])) (prefixes (d.join w (r :: rest)))).length_le
      rw [hstep] at this
      omega
    obtain ⟨ix1, c, hs, h1, hc, hg, hobs⟩ := h.addStep_spec hp r hcap1
    unfold Index.addLoop
    rw [if_neg hlast, hs]
    simp only
    by_cases hrest : rest = []
    · subst hrest
      have heq : addAll d.nodes (prefixes (d.join w [r])) = addNew d.nodes (d.join w [r]) := by
        rw [← hstep]
        apply addAll_of_subset
        intro x hx
        rcases d.join_single w r with ⟨hj, _⟩ | ⟨_, _, _, hj⟩
        · rw [hj, prefixes_concat] at hx
          rw [mem_addNew, hj]
          rcases List.mem_append.1 hx with hx | hx
          · exact .inl (h.prefixes_mem hp x hx)
          · exact .inr (by simpa using hx)
        · rw [hj] at hx; simp [prefixes] at hx
      rw [if_pos rfl]
      rw [heq]
      exact ⟨c, h1.get_ok hc, h1, hc, hg, hobs⟩
    · rw [if_neg hrest]
      have hj : Dict.join { d with nodes := addNew d.nodes (d.join w [r]) } (d.join w [r]) rest
          = d.join w (r :: rest) := d.join_step w r rest
      obtain ⟨id, e1, e2, e3, e4, e5⟩ := ih h1 c (d.join w [r]) hc hrest (by
        rw [hj]; simp only; rw [hstep]; exact hcap)
      rw [hj] at e2 e3 e5
      simp only at e2 e3 e4 e5
      rw [hstep] at e2 e3
      refine ⟨id, e1, e2, e3, hg.trans e4 (addNew_prefix _ _).length_le, ?_⟩
      intro hm
      have hm1 : d.join w [r] ∈ d.nodes := by
        obtain ⟨k, hk⟩ := exists_idx hm
        exact h.closed hk _ hpre
      exact (hobs hm1).trans (e5 (mem_addNew.2 (.inl hm)))

/-- Below an unknown node, or without characters, nothing happens. -/
theorem addToNode_err (h : TrieOK ix d) (p : ID) (rs : List Rune)
    (hp : d.nodes[p.toNat]? = none ∨ rs = []) :
    (ix.addToNode p rs).1 = ix ∧
      ((ix.addToNode p rs).2 = .err .emptyRunes ∨ (ix.addToNode p rs).2 = .err (.noParent p)) := by
  unfold Index.addToNode
  cases rs with
  | nil => exact ⟨rfl, .inl rfl⟩
  | cons r rest =>
    rcases hp with hp | hp
    · have hlen := List.getElem?_eq_none_iff.1 hp
      have h0 := h.length_pos
      unfold Index.addLoop
      have : p ≠ 0 ∧ (ix.items.get p).isNone = true := by
        constructor
        · rintro rfl
          rw [show (0 : ID).toNat = 0 from rfl] at hlen
          omega
        · rw [h.items_get_none (by omega)]; rfl
      rw [if_pos this]
      exact ⟨rfl, .inr rfl⟩
    · cases hp

end TrieOK

end Verif
