import Verif.Lemmas.Merge

/-!
# C102 — a dictionary can be merged into another through their own interface

The program is in `Spec/Merge.lean`: register the tags, then add the word of every node by number and attach its readings.
-/

namespace Verif

/-- The history of the merge. -/
theorem merge_history {hd hs : List Op} {d s : Index} (md : Room hd) (rd : Run hd d) (ms : Room hs) (rs : Run hs s)
    (ht : TextWords s) (hz : NulSafe hd s) (mr : MergeRoom hd d s) (hd0 : ∀ k, [] ∉ (dictOf hd).attached k) :
    Merging hd d s (dictOf hs) ∧
    ∃ m, mergeInto d s = some m ∧
      Run (hd ++ mergeCalls s (Merging.all hd (dictOf hs)) s.nodesCount) m ∧
      Room (hd ++ mergeCalls s (Merging.all hd (dictOf hs)) s.nodesCount) := by
  have g := merging_of rd rs ht hz mr.nodes
  have hpos := rs.trie.length_pos
  have hN : s.nodesCount = (dictOf hs).nodes.length - 1 := rs.trie.nodesCount
  have hlt : s.nodesCount < (dictOf hs).nodes.length := by omega
  have mm := merge_room md ms rs mr hd0 g _ hlt
  obtain ⟨rm, _⟩ := run_of_room _ mm
  exact ⟨g, _, g.mergeNodes_eq rs _ hlt rm _ (Nat.le_refl _), rm, mm⟩

/-- C102: the program succeeds, and afterwards `d` is both dictionaries in one. -/
theorem C102_partial {hd hs : List Op} {d s : Index} (md : Room hd) (rd : Run hd d) (ms : Room hs) (rs : Run hs s)
    (ht : TextWords s) (hz : NulSafe hd s) (mr : MergeRoom hd d s) (hd0 : ∀ k, [] ∉ (dictOf hd).attached k)
    (hs0 : ∀ id sets, s.tagSetsOf id = .ok sets → [] ∉ sets) :
    ∃ m, mergeInto d s = some m ∧ Merged d s m := by
  obtain ⟨g, m, hm, rm, _⟩ := merge_history md rd ms rs ht hz mr hd0
  refine ⟨m, hm, ?_⟩
  have c := g.src
  have hpos := rs.trie.length_pos
  have hposd := rd.trie.length_pos
  have hltS := rs.trie.length_lt
  have hN : s.nodesCount = (dictOf hs).nodes.length - 1 := rs.trie.nodesCount
  have hlt : s.nodesCount < (dictOf hs).nodes.length := by omega
  obtain ⟨d1, d2, d3, _⟩ := g.dict _ hlt
  rw [g.all_eq _ (by omega)] at d1
  have hsrc := fun {j : Nat} {w : List Rune} (h0 : 0 < j) (hw : (dictOf hs).nodes[j]? = some w) =>
    g.attached_src s.nodesCount hlt h0 (by have := TrieOK.lt_next hw; omega) hw
  have hother := fun (k : Nat) => g.attached_cases s.nodesCount hlt k
  generalize hd ++ mergeCalls s (Merging.all hd (dictOf hs)) s.nodesCount = hm' at *
  have hjd : ∀ {w : List Rune}, NoLeadingNul w → (dictOf hd).join [] w = w := fun h => Dict.join_root (.inr h)
  have hjs : ∀ {w : List Rune}, NoLeadingNul w → (dictOf hs).join [] w = w := fun h => Dict.join_root (.inr h)
  have hjm : ∀ {w : List Rune}, NoLeadingNul w → (dictOf hm').join [] w = w := fun h => Dict.join_root (.inr h)
  -- no empty readings in the merged dictionary
  have hm0 : ∀ k, [] ∉ (dictOf hm').attached k := by
    intro k hk
    rcases hother k with e | ⟨j, w, h0, h1, hw, _, e⟩
    · rw [e] at hk; exact hd0 k hk
    · rw [e, List.mem_append] at hk
      rcases hk with hk | hk
      · exact hd0 k hk
      · obtain ⟨x, hx, ex⟩ := List.mem_map.1 hk
        have : x = [] := List.map_eq_nil_iff.1 ex
        subst this
        exact hs0 _ _ (rs.shown_at h0 (TrieOK.lt_next hw)).1 hx
  have hknows : ∀ w, NoLeadingNul w → (KnowsWord m w ↔ KnowsWord d w ∨ KnowsWord s w) := by
    intro w hw
    rw [rm.knows_iff (hjm hw), rd.knows_iff (hjd hw), rs.knows_iff (hjs hw), d1, g.mem_all]
    tauto
  -- the readings of a word of the merged dictionary
  have hnames : ∀ (w : List Rune), w ∈ (dictOf hm').nodes → w ≠ [] → (dictOf hd).join [] w = w →
      (dictOf hm').join [] w = w →
      SameSets (namesAt m w) (namesAt d w ++
        if h : w ∈ (dictOf hs).nodes then (setsOf s ((dictOf hs).nodes.idxOf w)).map tagNames else []) := by
    intro w hw hne hj hj'
    have hwa : w ∈ Merging.all hd (dictOf hs) := by rw [d1] at hw; exact hw
    obtain ⟨i1, i2⟩ := g.idx hwa
    have e1 : (dictOf hm').nodes[(Merging.all hd (dictOf hs)).idxOf w]? = some w := by rw [d1]; exact i2
    have ex := rm.exact_at (rm.pos_of e1 hne) (TrieOK.lt_next e1) (hm0 _)
    rw [rm.namesAt_eq e1 hne hj']
    refine ex.sameSets.symm.trans ?_
    have hn := (g.names_dst hne hj).2 (hd0 _)
    by_cases hws : w ∈ (dictOf hs).nodes
    · have hi := List.idxOf_lt_length_iff.2 hws
      have e2 : (dictOf hs).nodes[(dictOf hs).nodes.idxOf w]? = some w := by
        rw [List.getElem?_eq_getElem hi]; simp
      rw [hsrc (rs.pos_of e2 hne) e2, dif_pos hws]
      exact sameSets_append hn
    · rw [dif_neg hws, List.append_nil]
      rcases hother ((Merging.all hd (dictOf hs)).idxOf w) with e | ⟨j, v, _, _, hv, hvi, _⟩
      · rw [e]; exact hn
      · have := g.idx_inj (g.src_mem hv) hvi hwa
        subst this
        exact absurd (List.mem_of_getElem? hv) hws
  have hsnames : ∀ (w : List Rune), w ∈ (dictOf hs).nodes → w ≠ [] →
      namesAt s w = (setsOf s ((dictOf hs).nodes.idxOf w)).map tagNames := by
    intro w hw hne
    have hi := List.idxOf_lt_length_iff.2 hw
    exact rs.namesAt_eq (by rw [List.getElem?_eq_getElem hi]; simp) hne (rs.trie.join_self hw)
  have hreadings : ∀ w, NoLeadingNul w → SameSets (namesAt m w) (namesAt d w ++ namesAt s w) := by
    intro w hw
    by_cases hk : KnowsWord m w
    · obtain ⟨hne, hin⟩ := (rm.knows_iff (hjm hw)).1 hk
      have := hnames w hin hne (hjd hw) (hjm hw)
      by_cases hws : w ∈ (dictOf hs).nodes
      · rw [dif_pos hws, ← hsnames w hws hne] at this
        exact this
      · rw [dif_neg hws] at this
        rw [namesAt_unknown (ix := s) fun h => hws ((rs.knows_iff (hjs hw)).1 h).2]
        exact this
    · have := mt (hknows w hw).2 hk
      push Not at this
      rw [namesAt_unknown hk, namesAt_unknown this.1, namesAt_unknown this.2]
      exact SameSets.refl _
  refine ⟨hknows, ?_, ?_, hreadings, ?_, ?_, ?_, ?_⟩
  · intro w id hw hf
    rw [rd.trie.fetchRoot_iff, hjd hw] at hf
    rw [rm.trie.fetchRoot_iff, hjm hw, d1]
    refine ⟨hf.1, ?_⟩
    unfold Merging.all mergedNodes
    rw [List.getElem?_append_left (TrieOK.lt_next hf.2)]
    exact hf.2
  · intro id hid
    have hl : id.toNat < (dictOf hd).nodes.length := by rw [rd.trie.nodesCount] at hid; omega
    have e := List.getElem?_eq_getElem hl
    rw [rd.trie.word_eq e]
    refine rm.trie.word_eq ?_
    rw [d1]
    unfold Merging.all mergedNodes
    rw [List.getElem?_append_left hl]
    exact e
  · intro w
    unfold namesAt
    cases hf : (m.fetchRunes w).2 with
    | ok id =>
      simp only
      cases hts : m.tagSetsOf id with
      | ok L =>
        simp only
        have hk : 0 < id.toNat ∧ id.toNat < (dictOf hm').nodes.length := by
          by_contra hc
          rw [tagSetsOf_none rm.refines.1 hc] at hts
          cases hts
        have ex := rm.exact_at hk.1 hk.2 (hm0 _)
        have e : setsOf m id.toNat = L := by
          have : UInt32.ofNat id.toNat = id := by simp
          unfold setsOf
          rw [this, hts]
        rw [e] at ex
        exact List.pairwise_map.2 ex.once
      | _ => exact List.Pairwise.nil
    | _ => exact List.Pairwise.nil
  · rw [rm.tag.tags, d2, rd.tag.tags]
    unfold newTags
    rw [rd.tag.tags]
  · rw [rm.trie.nodesCount, d1, rd.trie.nodesCount, Merging.newWords_length rd c g.nul hN]
    unfold Merging.all mergedNodes
    rw [List.take_of_length_le (i := (dictOf hs).nodes.length + 1) (by omega), List.length_append]
    omega
  · rw [rm.tag.count, rd.tag.count]
    have key : ∀ (e : Dict) (k : Nat), e.readings.any (·.1 == k) = true ↔ e.attached k ≠ [] := by
      intro e k
      unfold Dict.attached
      rw [List.any_eq_true, ne_eq, List.map_eq_nil_iff, List.filter_eq_nil_iff]
      push Not
      simp
    have hnt : ∀ i, i ∈ newlyTagged d s ↔ ∃ w, (dictOf hs).nodes[i + 1]? = some w ∧ setsOf s (i + 1) ≠ [] ∧
        (dictOf hd).attached ((Merging.all hd (dictOf hs)).idxOf w) = [] := by
      intro i
      unfold newlyTagged
      simp only [List.mem_filter, List.mem_range, decide_eq_true_eq]
      constructor
      · rintro ⟨hi, w, hw, h1, h2⟩
        have hl : i + 1 < (dictOf hs).nodes.length := by omega
        have hv := List.getElem?_eq_getElem hl
        have e := c.word_at hv hw
        rw [e] at h1 h2
        have hne := (c.grow hv).1
        have hmem := List.mem_of_getElem? hv
        rw [rs.namesAt_eq hv hne (rs.trie.join_self hmem)] at h1
        exact ⟨_, hv, by simpa using h1, (g.names_dst hne (g.nul _ hmem)).1.2 h2⟩
      · rintro ⟨v, hv, h1, h2⟩
        have hl := TrieOK.lt_next hv
        have hne := (c.grow hv).1
        have hmem := List.mem_of_getElem? hv
        obtain ⟨w1, w2⟩ := c.wordOf_eq hv
        refine ⟨by omega, _, w1, ?_, ?_⟩
        · rw [w2, rs.namesAt_eq hv hne (rs.trie.join_self hmem)]; simpa using h1
        · rw [w2]; exact (g.names_dst hne (g.nul _ hmem)).1.1 h2
    have hp : ((List.range (dictOf hm').nodes.length).filter fun k => (dictOf hm').readings.any (·.1 == k)).Perm
        (((List.range (dictOf hd).nodes.length).filter fun k => (dictOf hd).readings.any (·.1 == k)) ++
          (newlyTagged d s).map fun i => (Merging.all hd (dictOf hs)).idxOf (decodeRunes (wordOf s (i + 1)))) := by
      rw [List.perm_ext_iff_of_nodup (List.nodup_range.filter _)]
      · intro k
        rw [List.mem_filter, key, List.mem_range, List.mem_append, List.mem_filter, key, List.mem_range, List.mem_map]
        constructor
        · rintro ⟨hk, hne⟩
          by_cases ho : (dictOf hd).attached k = []
          · right
            rcases hother k with e | ⟨j, w, h0, h1, hw, rfl, e⟩
            · rw [e] at hne; exact absurd ho hne
            · obtain ⟨i, rfl⟩ : ∃ i, j = i + 1 := ⟨j - 1, by omega⟩
              refine ⟨i, (hnt i).2 ⟨w, hw, ?_, ho⟩, ?_⟩
              · rintro e0
                rw [e, ho, e0] at hne
                exact hne rfl
              · rw [(c.wordOf_eq hw).2]
          · left
            refine ⟨?_, ho⟩
            by_contra hc
            exact ho (rd.attached_none (by omega))
        · rintro (⟨hk, hne⟩ | ⟨i, hi, rfl⟩)
          · refine ⟨?_, ?_⟩
            · rw [d1]; unfold Merging.all mergedNodes; rw [List.length_append]; omega
            · rcases hother k with e | ⟨j, w, _, _, _, _, e⟩
              · rw [e]; exact hne
              · rw [e]; intro h0; exact hne (List.append_eq_nil_iff.1 h0).1
          · obtain ⟨w, hw, h1, h2⟩ := (hnt i).1 hi
            rw [(c.wordOf_eq hw).2]
            refine ⟨by rw [d1]; exact (g.idx (g.src_mem hw)).1, ?_⟩
            rw [hsrc (by omega) hw]
            intro h0
            exact h1 (List.map_eq_nil_iff.1 (List.append_eq_nil_iff.1 h0).2)
      · rw [List.nodup_append]
        refine ⟨List.nodup_range.filter _, ?_, ?_⟩
        · refine List.Nodup.map_on ?_ ?_
          · intro i hi j hj e
            obtain ⟨w, hw, _⟩ := (hnt i).1 hi
            obtain ⟨v, hv, _⟩ := (hnt j).1 hj
            rw [(c.wordOf_eq hw).2, (c.wordOf_eq hv).2] at e
            have := g.idx_inj (g.src_mem hw) e (g.src_mem hv)
            subst this
            have := c.trie.idx_unique hw hv
            omega
          · unfold newlyTagged
            exact List.nodup_range.filter _
        · intro k hk k' hk' e
          subst e
          rw [List.mem_filter, key] at hk
          obtain ⟨i, hi, rfl⟩ := List.mem_map.1 hk'
          obtain ⟨w, hw, _, h2⟩ := (hnt i).1 hi
          rw [(c.wordOf_eq hw).2] at hk
          exact hk.2 h2
    have := hp.length_eq
    rw [List.length_append, List.length_map] at this
    exact this


/-! ## What is there already -/

/-- What `TagSets` shows for a word that is a node. -/
theorem Run.names_at {h : List Op} {ix : Index} (r : Run h ix) (h0 : ∀ k, [] ∉ (dictOf h).attached k) {w : List Rune}
    (hk : KnowsWord ix w) (hj : (dictOf h).join [] w = w) :
    ∃ k : Nat, (dictOf h).nodes[k]? = some w ∧ SameSets ((dictOf h).attached k) (namesAt ix w) := by
  obtain ⟨hne, hin⟩ := (r.knows_iff hj).1 hk
  obtain ⟨id, hid⟩ := r.trie.exists_id hin
  refine ⟨_, hid, ?_⟩
  rw [r.namesAt_eq hid hne hj]
  exact (r.exact_at (r.pos_of hid hne) (TrieOK.lt_next hid) (h0 _)).sameSets

/-- There is always room for what is there already. -/
theorem mergeRoom_part {hd hs : List Op} {d s : Index} (md : Room hd) (rd : Run hd d) (rs : Run hs s)
    (ht : TextWords s) (hz : NulSafe hd s) (hd0 : ∀ k, [] ∉ (dictOf hd).attached k) (hp : PartOf s d) :
    MergeRoom hd d s := by
  have c := rs.copySource (parents_ne hs) ht
  have hlt := rs.trie.length_lt
  have hposd := rd.trie.length_pos
  have hltd := rd.trie.length_lt
  have hnw : newWords d s = [] := by
    unfold newWords
    rw [List.filter_eq_nil_iff]
    simp only [List.mem_range, decide_eq_true_eq, not_exists, not_and, not_not]
    intro i hi w hw
    have hN := rs.trie.nodesCount
    exact hp.words _ w (by rw [toNat_ofNat_lt (by omega)]; omega) (by rw [toNat_ofNat_lt (by omega)]; omega) hw
  have hnodes : d.nodesCount + (newWords d s).length < 4294967295 := by
    rw [hnw, rd.trie.nodesCount, List.length_nil]; omega
  have g := merging_of rd rs ht hz hnodes
  -- the node of `d` with the word of node `id` of `s`
  have hat : ∀ id w sets, s.word id = .ok w → s.tagSetsOf id = .ok sets → ∃ k : Nat,
      (dictOf hd).nodes[k]? = some (decodeRunes w) ∧ SameSets ((dictOf hd).attached k) (namesAt d (decodeRunes w)) := by
    intro id w sets hw hst
    have hk : 0 < id.toNat ∧ id.toNat < (dictOf hs).nodes.length := by
      by_contra hc
      rw [tagSetsOf_none rs.refines.1 hc] at hst
      cases hst
    have hm := List.mem_of_getElem? (c.id_at hw hk.2)
    exact rd.names_at hd0 (hp.words id w hk.1 (by rw [rs.trie.nodesCount]; omega) hw) (g.nul _ hm)
  refine ⟨hnodes, ?_, ?_, ?_, ?_⟩
  · rw [hp.tags, List.append_nil, rd.tag.tags]; exact md.tags
  · obtain ⟨L, l1, l2⟩ := md.readings
    refine ⟨L, l1, l2, ?_⟩
    intro id sets hst x hx
    have hk : 0 < id.toNat ∧ id.toNat < (dictOf hs).nodes.length := by
      by_contra hc
      rw [tagSetsOf_none rs.refines.1 hc] at hst
      cases hst
    have hw := (c.wordOf_eq (List.getElem?_eq_getElem hk.2)).1
    rw [show UInt32.ofNat id.toNat = id by simp] at hw
    obtain ⟨k, _, hk⟩ := hat id _ sets hw hst
    obtain ⟨n, hn, hpn⟩ := hp.readings id _ sets hw hst x hx
    obtain ⟨a, ha, hpa⟩ := hk.2 n hn
    obtain ⟨l, hl, hpl⟩ := l2 _ (mem_attached.1 ha)
    exact ⟨l, hl, hpl.trans (hpa.trans hpn)⟩
  · intro id w sets hw hs
    obtain ⟨k, _, hk⟩ := hat id w sets hw hs
    obtain ⟨L, l1, l2⟩ := md.perWord k
    refine ⟨L, l1, ?_⟩
    have old : ∀ n ∈ namesAt d (decodeRunes w), ∃ l ∈ L, l.Perm n := by
      intro n hn
      obtain ⟨a, ha, hpa⟩ := hk.2 n hn
      obtain ⟨l, hl, hpl⟩ := l2 _ ha
      exact ⟨l, hl, hpl.trans hpa⟩
    intro n hn
    rw [List.mem_append] at hn
    rcases hn with hn | hn
    · exact old n hn
    · obtain ⟨x, hx, rfl⟩ := List.mem_map.1 hn
      obtain ⟨n, hn, hpn⟩ := hp.readings id w sets hw hs x hx
      obtain ⟨l, hl, hpl⟩ := old n hn
      exact ⟨l, hl, hpl.trans hpn⟩
  · obtain ⟨L, l1, l2⟩ := md.sets
    refine ⟨L, l1, l2, ?_⟩
    intro id w sets hw hs q hq hne
    obtain ⟨k, _, hk⟩ := hat id w sets hw hs
    obtain ⟨x, hx⟩ := List.exists_mem_of_ne_nil _ hne
    obtain ⟨n, hn, _⟩ := hp.readings id w sets hw hs x (hq.subset hx)
    obtain ⟨a, ha, _⟩ := hk.2 n hn
    obtain ⟨A, hA, hs'⟩ := l2 hd (List.prefix_refl _) k (List.ne_nil_of_mem ha)
    refine ⟨A, hA, (hs'.trans hk).trans ⟨?_, ?_⟩⟩
    · intro a ha; exact ⟨a, List.mem_append_left _ ha, List.Perm.refl _⟩
    · intro b hb
      rw [List.mem_append] at hb
      rcases hb with hb | hb
      · exact ⟨b, hb, List.Perm.refl _⟩
      · obtain ⟨x, hx, rfl⟩ := List.mem_map.1 hb
        exact hp.readings id w sets hw hs x (hq.subset hx)

/-- C102, merging what is there already changes nothing: every query has the same answer as before. -/
theorem C102_part {hd hs : List Op} {d s : Index} (md : Room hd) (rd : Run hd d) (ms : Room hs) (rs : Run hs s)
    (ht : TextWords s) (hz : NulSafe hd s) (hd0 : ∀ k, [] ∉ (dictOf hd).attached k) (hp : PartOf s d) :
    ∃ m, mergeInto d s = some m ∧ SameDictionary d m := by
  have mr := mergeRoom_part md rd rs ht hz hd0 hp
  obtain ⟨g, m, hm, rm, _⟩ := merge_history md rd ms rs ht hz mr hd0
  refine ⟨m, hm, ?_⟩
  have c := g.src
  have hlt' := rs.trie.length_lt
  have hpos := rs.trie.length_pos
  have hN : s.nodesCount = (dictOf hs).nodes.length - 1 := rs.trie.nodesCount
  have hlt : s.nodesCount < (dictOf hs).nodes.length := by omega
  obtain ⟨d1, d2, d3, _⟩ := g.dict _ hlt
  rw [g.all_eq _ (by omega)] at d1
  have hother := fun (k : Nat) => g.attached_cases s.nodesCount hlt k
  generalize hd ++ mergeCalls s (Merging.all hd (dictOf hs)) s.nodesCount = hm' at *
  have hword : ∀ {j : Nat} {w : List Rune}, 0 < j → (dictOf hs).nodes[j]? = some w → KnowsWord d w := by
    intro j w h0 hw
    obtain ⟨h1, h2⟩ := c.wordOf_eq hw
    have hl := TrieOK.lt_next hw
    have := hp.words (UInt32.ofNat j) _ (by rw [toNat_ofNat_lt (by omega)]; exact h0)
      (by rw [toNat_ofNat_lt (by omega)]; omega) h1
    rw [h2] at this
    exact this
  have hn : (dictOf hm').nodes = (dictOf hd).nodes := by
    rw [d1]
    unfold Merging.all mergedNodes
    rw [List.take_of_length_le (i := (dictOf hs).nodes.length + 1) (by omega), List.filter_eq_nil_iff.2, List.append_nil]
    intro w hw
    simp only [decide_eq_true_eq, not_not]
    obtain ⟨j, hj, e⟩ := List.getElem_of_mem hw
    have e' : (dictOf hs).nodes[j]? = some w := by rw [List.getElem?_eq_getElem hj, e]
    by_cases h0 : 0 < j
    · exact ((rd.knows_iff (g.nul w hw)).1 (hword h0 e')).2
    · have : j = 0 := by omega
      subst this
      rw [c.trie.root] at e'
      rw [← Option.some.inj e']
      exact g.root_mem
  have htags : (dictOf hm').tags = (dictOf hd).tags := by
    have := hp.tags
    unfold newTags at this
    rw [rd.tag.tags] at this
    rw [d2, this, List.append_nil]
  have hsame : ∀ k, SameSets ((dictOf hd).attached k) ((dictOf hm').attached k) := by
    intro k
    rcases hother k with e | ⟨j, w, h0, h1, hw, rfl, e⟩
    · rw [e]; exact SameSets.refl _
    · rw [e]
      have hmem := List.mem_of_getElem? hw
      have hne : w ≠ [] := by
        rintro rfl
        have := c.trie.idx_unique hw c.trie.root
        omega
      have hs := (g.names_dst hne (g.nul w hmem)).2 (hd0 _)
      obtain ⟨w1, w2⟩ := c.wordOf_eq hw
      have hsets := (rs.shown_at h0 (TrieOK.lt_next hw)).1
      constructor
      · intro a ha; exact ⟨a, List.mem_append_left _ ha, List.Perm.refl _⟩
      · intro b hb
        rw [List.mem_append] at hb
        rcases hb with hb | hb
        · exact ⟨b, hb, List.Perm.refl _⟩
        · obtain ⟨x, hx, rfl⟩ := List.mem_map.1 hb
          obtain ⟨n, hn, hpn⟩ := hp.readings _ _ _ w1 hsets x hx
          rw [w2] at hn
          obtain ⟨a, ha, hpa⟩ := hs.2 n hn
          exact ⟨a, ha, hpa.trans hpn⟩
  have hm0 : ∀ k, [] ∉ (dictOf hm').attached k := by
    intro k hk
    obtain ⟨a, ha, hpa⟩ := (hsame k).2 [] hk
    rw [List.perm_nil.1 hpa] at ha
    exact hd0 k ha
  have hat : ∀ id L, d.tagSetsOf id = .ok L →
      ExactReadings (dictOf hd).tags ((dictOf hd).attached id.toNat) L ∧
      ∃ M, m.tagSetsOf id = .ok M ∧ ExactReadings (dictOf hd).tags ((dictOf hm').attached id.toNat) M := by
    intro id L hL
    have hk : 0 < id.toNat ∧ id.toNat < (dictOf hd).nodes.length := by
      by_contra hc
      rw [tagSetsOf_none rd.refines.1 hc] at hL
      cases hL
    obtain ⟨L', hL', x⟩ := exactReadings_of rd.refines.1 rd.caps rd.refines.2.tags hk.1 hk.2 (hd0 _)
    obtain ⟨M, hM, y⟩ := exactReadings_of rm.refines.1 rm.caps rm.refines.2.tags hk.1 (by rw [hn]; exact hk.2) (hm0 _)
    rw [hL] at hL'
    cases hL'
    rw [htags] at y
    exact ⟨x, M, hM, y⟩
  refine sameDictionary_of rd.refines.1 rm.refines.1 rd.caps hn htags ?_ ?_ ?_
  · intro k _
    have hs := hsame k
    constructor
    · intro e
      rw [List.eq_nil_iff_forall_not_mem]
      intro a ha
      obtain ⟨b, hb, _⟩ := hs.1 a ha
      rw [e] at hb; cases hb
    · intro e
      rw [List.eq_nil_iff_forall_not_mem]
      intro b hb
      obtain ⟨a, ha, _⟩ := hs.2 b hb
      rw [e] at ha; cases ha
  · intro id L hL _
    obtain ⟨x, M, hM, y⟩ := hat id L hL
    exact ⟨M, hM, (exact_same rd.tag.names x (fun t ht => ht) y).2 (hsame _)⟩
  · intro id L hL hem
    obtain ⟨x, _⟩ := hat id L hL
    obtain ⟨n, hn, hp⟩ := x.sound [] hem
    have : n = [] := List.perm_nil.1 hp.symm
    subst this
    exact absurd hn (hd0 _)


/-- Every dictionary is part of itself. -/
theorem partOf_self {h : List Op} {ix : Index} (r : Run h ix) (ht : TextWords ix) : PartOf ix ix := by
  have c := r.copySource (parents_ne h) ht
  have hpos := r.trie.length_pos
  constructor
  · intro id w h0 h1 hw
    rw [r.trie.nodesCount] at h1
    have e := c.id_at hw (by omega)
    have hm := List.mem_of_getElem? e
    rw [r.knows_iff (r.trie.join_self hm)]
    refine ⟨?_, hm⟩
    intro e0
    rw [e0] at e
    have := c.trie.idx_unique e c.trie.root
    omega
  · intro id w sets hw hs x hx
    have hk : 0 < id.toNat ∧ id.toNat < (dictOf h).nodes.length := by
      by_contra hc
      rw [tagSetsOf_none r.refines.1 hc] at hs
      cases hs
    have e := c.id_at hw hk.2
    have hm := List.mem_of_getElem? e
    have hne : decodeRunes w ≠ [] := by
      intro e0
      rw [e0] at e
      have := c.trie.idx_unique e c.trie.root
      omega
    rw [r.namesAt_eq e hne (r.trie.join_self hm)]
    refine ⟨_, List.mem_map.2 ⟨x, ?_, rfl⟩, List.Perm.refl _⟩
    have : UInt32.ofNat id.toNat = id := by simp
    unfold setsOf
    rw [this, hs]
    exact hx
  · unfold newTags
    rw [List.filter_eq_nil_iff]
    intro t ht
    simp only [Bool.not_eq_true', Bool.not_eq_false, List.any_eq_true]
    exact ⟨t, ht, by simp⟩

/-- C102: merging a dictionary into itself changes nothing. -/
theorem C102_self {h : List Op} {ix : Index} (m : Room h) (r : Run h ix) (ht : TextWords ix) (hz : NulSafe h ix)
    (h0 : ∀ k, [] ∉ (dictOf h).attached k) : ∃ ix', mergeInto ix ix = some ix' ∧ SameDictionary ix ix' :=
  C102_part m r m r ht hz h0 (partOf_self r ht)

/-- C102: merging the same dictionary a second time changes nothing. -/
theorem C102_twice {hd hs : List Op} {d s : Index} (md : Room hd) (rd : Run hd d) (ms : Room hs) (rs : Run hs s)
    (ht : TextWords s) (hz : NulSafe hd s) (mr : MergeRoom hd d s) (hd0 : ∀ k, [] ∉ (dictOf hd).attached k)
    (hs0 : ∀ id sets, s.tagSetsOf id = .ok sets → [] ∉ sets) :
    ∃ m m', mergeInto d s = some m ∧ mergeInto m s = some m' ∧ SameDictionary m m' := by
  obtain ⟨g, m, hm, rm, mm⟩ := merge_history md rd ms rs ht hz mr hd0
  have c := g.src
  have hlt' := rs.trie.length_lt
  have hpos := rs.trie.length_pos
  have hN : s.nodesCount = (dictOf hs).nodes.length - 1 := rs.trie.nodesCount
  have hlt : s.nodesCount < (dictOf hs).nodes.length := by omega
  obtain ⟨d1, d2, d3, _⟩ := g.dict _ hlt
  rw [g.all_eq _ (by omega)] at d1
  have hsrc := fun {j : Nat} {w : List Rune} (h0 : 0 < j) (hw : (dictOf hs).nodes[j]? = some w) =>
    g.attached_src s.nodesCount hlt h0 (by have := TrieOK.lt_next hw; omega) hw
  have hother := fun (k : Nat) => g.attached_cases s.nodesCount hlt k
  have hz' : NulSafe (hd ++ mergeCalls s (Merging.all hd (dictOf hs)) s.nodesCount) s := by
    refine hz.imp_left fun hz => ?_
    unfold NoReload at hz ⊢
    rw [List.mem_append]
    rintro (h | h)
    · exact hz h
    · unfold mergeCalls at h
      rw [List.mem_append, List.mem_map, List.mem_flatMap] at h
      rcases h with ⟨_, _, h⟩ | ⟨i, _, h⟩
      · cases h
      · unfold mergeBlock at h
        rw [List.mem_cons, List.mem_map] at h
        rcases h with h | ⟨_, _, h⟩ <;> cases h
  generalize hd ++ mergeCalls s (Merging.all hd (dictOf hs)) s.nodesCount = hm' at *
  have hm0 : ∀ k, [] ∉ (dictOf hm').attached k := by
    intro k hk
    rcases hother k with e | ⟨j, w, h0, h1, hw, _, e⟩
    · rw [e] at hk; exact hd0 k hk
    · rw [e, List.mem_append] at hk
      rcases hk with hk | hk
      · exact hd0 k hk
      · obtain ⟨x, hx, ex⟩ := List.mem_map.1 hk
        have : x = [] := List.map_eq_nil_iff.1 ex
        subst this
        exact hs0 _ _ (rs.shown_at h0 (TrieOK.lt_next hw)).1 hx
  have hj : ∀ w ∈ (dictOf hs).nodes, (dictOf hm').join [] w = w := by
    intro w hw
    have := g.nul w hw
    unfold Dict.join at this ⊢
    rw [d3]; exact this
  have hid : ∀ {id : ID} {w : Str}, 0 < id.toNat → id.toNat ≤ s.nodesCount → s.word id = .ok w →
      (dictOf hs).nodes[id.toNat]? = some (decodeRunes w) ∧ decodeRunes w ≠ [] ∧
      decodeRunes w ∈ (dictOf hs).nodes ∧ decodeRunes w ∈ Merging.all hd (dictOf hs) := by
    intro id w h0 h1 hw
    have e := c.id_at hw (by omega)
    refine ⟨e, ?_, List.mem_of_getElem? e, g.src_mem e⟩
    intro e0
    rw [e0] at e
    have := c.trie.idx_unique e c.trie.root
    omega
  have hp : PartOf s m := by
    constructor
    · intro id w h0 h1 hw
      obtain ⟨_, h2, h3, h4⟩ := hid h0 h1 hw
      rw [rm.knows_iff (hj _ h3), d1]
      exact ⟨h2, h4⟩
    · intro id w sets hw hst x hx
      have hk : 0 < id.toNat ∧ id.toNat < (dictOf hs).nodes.length := by
        by_contra hc
        rw [tagSetsOf_none rs.refines.1 hc] at hst
        cases hst
      obtain ⟨e, h2, h3, h4⟩ := hid hk.1 (by omega) hw
      have e1 : (dictOf hm').nodes[(Merging.all hd (dictOf hs)).idxOf (decodeRunes w)]? = some (decodeRunes w) := by
        rw [d1]; exact (g.idx h4).2
      rw [rm.namesAt_eq e1 h2 (hj _ h3)]
      have ex := (rm.exact_at (rm.pos_of e1 h2) (TrieOK.lt_next e1) (hm0 _)).sameSets
      have hxs : x ∈ setsOf s id.toNat := by
        have : UInt32.ofNat id.toNat = id := by simp
        unfold setsOf
        rw [this, hst]
        exact hx
      obtain ⟨b, hb, hpb⟩ := ex.1 (tagNames x) (by
        rw [hsrc hk.1 e]; exact List.mem_append_right _ (List.mem_map.2 ⟨x, hxs, rfl⟩))
      exact ⟨b, hb, hpb.symm⟩
    · unfold newTags
      rw [List.filter_eq_nil_iff]
      intro t htt
      simp only [Bool.not_eq_true', Bool.not_eq_false]
      have := merged_hasTag d2 htt
      unfold Dict.hasTag at this
      rw [rm.tag.tags]
      exact this
  obtain ⟨m', hm2, hsame⟩ := C102_part mm rm ms rs ht hz' hm0 hp
  exact ⟨m, m', hm, hm2, hsame⟩


/-! ## In either order -/

/-- The words and their readings decide how many words have readings. -/
theorem Run.wordsCount_eq {h : List Op} {ix : Index} (r : Run h ix) : ix.wordsCount =
    ((dictOf h).nodes.filter fun w => decide (w ≠ [] ∧ namesAt ix w ≠ [])).length := by
  rw [r.tag.count]
  refine count_by_index _ _ _ fun k w hk => ?_
  have key : (dictOf h).readings.any (·.1 == k) = true ↔ (dictOf h).attached k ≠ [] := by
    unfold Dict.attached
    rw [List.any_eq_true, ne_eq, List.map_eq_nil_iff, List.filter_eq_nil_iff]
    push Not
    simp
  rw [Bool.eq_iff_iff, key, decide_eq_true_eq]
  by_cases hw : w = []
  · subst hw
    have : k = 0 := r.trie.idx_unique hk r.trie.root
    subst this
    simp [r.attached_none (k := 0) (by omega)]
  · rw [r.namesAt_eq hk hw (r.trie.join_self (List.mem_of_getElem? hk)), ne_eq, ne_eq, ne_eq, List.map_eq_nil_iff,
      ← (r.shown_at (r.pos_of hk hw) (TrieOK.lt_next hk)).2.empty_iff]
    simp [hw]

theorem Run.noNul {h : List Op} {ix : Index} (r : Run h ix) (ht : TextWords ix) (hn : NoNulWords ix) :
    ∀ w ∈ (dictOf h).nodes, NoLeadingNul w := by
  have c := r.copySource (parents_ne h) ht
  have hlt := r.trie.length_lt
  intro w hw
  obtain ⟨k, hk, e⟩ := List.getElem_of_mem hw
  have e' : (dictOf h).nodes[k]? = some w := by rw [List.getElem?_eq_getElem hk, e]
  by_cases hne : w = []
  · subst hne; unfold NoLeadingNul; simp
  obtain ⟨h1, h2⟩ := c.wordOf_eq e'
  have := hn (UInt32.ofNat k) _ (by rw [toNat_ofNat_lt (by omega)]; exact r.pos_of e' hne)
    (by rw [toNat_ofNat_lt (by omega), r.trie.nodesCount]; omega) h1
  rw [h2] at this
  exact this

theorem sameSets_nil {A B : List (List Str)} (h : SameSets A B) : A = [] ↔ B = [] := by
  constructor
  · rintro rfl
    rw [List.eq_nil_iff_forall_not_mem]
    intro b hb
    obtain ⟨a, ha, _⟩ := h.2 b hb
    cases ha
  · rintro rfl
    rw [List.eq_nil_iff_forall_not_mem]
    intro a ha
    obtain ⟨b, hb, _⟩ := h.1 a ha
    cases hb

theorem sameSets_swap (A B : List (List Str)) : SameSets (A ++ B) (B ++ A) := by
  constructor <;> intro a ha <;> exact ⟨a, by rw [List.mem_append] at ha ⊢; exact ha.symm, List.Perm.refl _⟩

/-- Without empty readings none is shown. -/
theorem Run.shown_no_empty {h : List Op} {ix : Index} (r : Run h ix) (h0 : ∀ k, [] ∉ (dictOf h).attached k) :
    ∀ id sets, ix.tagSetsOf id = .ok sets → [] ∉ sets := by
  intro id sets hs hm
  have hk : 0 < id.toNat ∧ id.toNat < (dictOf h).nodes.length := by
    by_contra hc
    rw [tagSetsOf_none r.refines.1 hc] at hs
    cases hs
  obtain ⟨L, hL, x⟩ := exactReadings_of r.refines.1 r.caps r.refines.2.tags hk.1 hk.2 (h0 _)
  rw [hs] at hL
  cases hL
  obtain ⟨n, hn, hp⟩ := x.sound [] hm
  have : n = [] := List.perm_nil.1 hp.symm
  subst this
  exact h0 _ hn

/-- C102: merging two dictionaries says the same, whichever is merged into the other. -/
theorem C102_order {ha hb : List Op} {a b : Index} (ma : Room ha) (ra : Run ha a) (mb : Room hb) (rb : Run hb b)
    (ta : TextWords a) (tb : TextWords b) (na : NoNulWords a) (nb : NoNulWords b)
    (mab : MergeRoom ha a b) (mba : MergeRoom hb b a)
    (ha0 : ∀ k, [] ∉ (dictOf ha).attached k) (hb0 : ∀ k, [] ∉ (dictOf hb).attached k) :
    ∃ m m', mergeInto a b = some m ∧ mergeInto b a = some m' ∧ SaysTheSame m m' := by
  obtain ⟨m, hm, M⟩ := C102_partial ma ra mb rb tb (.inr nb) mab ha0 (rb.shown_no_empty hb0)
  obtain ⟨m', hm', M'⟩ := C102_partial mb rb ma ra ta (.inr na) mba hb0 (ra.shown_no_empty ha0)
  refine ⟨m, m', hm, hm', ?_⟩
  obtain ⟨g, _, e, rm, _⟩ := merge_history ma ra mb rb tb (.inr nb) mab ha0
  obtain ⟨g', _, e', rm', _⟩ := merge_history mb rb ma ra ta (.inr na) mba hb0
  rw [hm] at e
  rw [hm'] at e'
  obtain rfl := Option.some.inj e
  obtain rfl := Option.some.inj e'
  have hposb := rb.trie.length_pos
  have hposa := ra.trie.length_pos
  have hNb : b.nodesCount = (dictOf hb).nodes.length - 1 := rb.trie.nodesCount
  have hNa : a.nodesCount = (dictOf ha).nodes.length - 1 := ra.trie.nodesCount
  have n1 := (g.dict b.nodesCount (by omega)).1
  rw [g.all_eq _ (by omega)] at n1
  have n2 := (g'.dict a.nodesCount (by omega)).1
  rw [g'.all_eq _ (by omega)] at n2
  generalize ha ++ mergeCalls b (Merging.all ha (dictOf hb)) b.nodesCount = h1 at *
  generalize hb ++ mergeCalls a (Merging.all hb (dictOf ha)) a.nodesCount = h2 at *
  have hmem : ∀ w, w ∈ (dictOf h1).nodes ↔ w ∈ (dictOf h2).nodes := by
    intro w
    rw [n1, n2, g.mem_all, g'.mem_all]
    exact Or.comm
  have hperm : (dictOf h1).nodes.Perm (dictOf h2).nodes :=
    (List.perm_ext_iff_of_nodup rm.trie.nodup rm'.trie.nodup).2 hmem
  have hnul : ∀ w ∈ (dictOf h1).nodes, NoLeadingNul w := by
    intro w hw
    rw [n1, g.mem_all] at hw
    exact hw.elim (ra.noNul ta na w) (rb.noNul tb nb w)
  have hread : ∀ w, NoLeadingNul w → SameSets (namesAt m w) (namesAt m' w) := fun w hw =>
    ((M.readings w hw).trans (sameSets_swap _ _)).trans (M'.readings w hw).symm
  constructor
  · intro w hw
    rw [M.knows w hw, M'.knows w hw]
    exact Or.comm
  · exact hread
  · have key : ∀ (x y z : Index), z.tags = x.tags ++ newTags x y → ∀ n,
        (∃ t ∈ z.tags, t.name = n) ↔ (∃ t ∈ x.tags, t.name = n) ∨ ∃ t ∈ y.tags, t.name = n := by
      intro x y z e n
      rw [e]
      constructor
      · rintro ⟨t, ht, hn⟩
        rw [List.mem_append] at ht
        rcases ht with ht | ht
        · exact .inl ⟨t, ht, hn⟩
        · exact .inr ⟨t, List.mem_of_mem_filter ht, hn⟩
      · rintro (⟨t, ht, hn⟩ | ⟨t, ht, hn⟩)
        · exact ⟨t, List.mem_append_left _ ht, hn⟩
        · by_cases hx : ∃ t' ∈ x.tags, t'.name = n
          · obtain ⟨t', ht', hn'⟩ := hx
            exact ⟨t', List.mem_append_left _ ht', hn'⟩
          · refine ⟨t, List.mem_append_right _ (List.mem_filter.2 ⟨ht, ?_⟩), hn⟩
            rw [Bool.not_eq_true', List.any_eq_false]
            intro t' ht'
            simp only [beq_iff_eq]
            exact fun e => hx ⟨t', ht', by rw [e, hn]⟩
    intro n
    rw [key a b m M.tags, key b a m' M'.tags]
    exact Or.comm
  · rw [rm.trie.nodesCount, rm'.trie.nodesCount, hperm.length_eq]
  · rw [rm.wordsCount_eq, rm'.wordsCount_eq]
    have e : (dictOf h1).nodes.filter (fun w => decide (w ≠ [] ∧ namesAt m w ≠ [])) =
        (dictOf h1).nodes.filter (fun w => decide (w ≠ [] ∧ namesAt m' w ≠ [])) := by
      refine List.filter_congr fun w hw => ?_
      rw [decide_eq_decide, ne_eq, ne_eq, ne_eq, sameSets_nil (hread w (hnul w hw))]
    rw [e]
    exact (hperm.filter _).length_eq

/-! ## When there is room -/

/-- There is room for a merge if the readings, those of the one attached and those of the other shown, are at most 65535 in
all and 255 for each word, and the tags at most 255. -/
theorem mergeRoom_of {hd hs : List Op} {d s : Index} (rs : Run hs s)
    (ht : TextWords s) (h1 : d.nodesCount + s.nodesCount < 4294967295) (h2 : d.tags.length + s.tags.length ≤ 255)
    (h3 : (hd.filter Op.isAddTagSet).length +
      ((List.range (s.nodesCount + 1)).map fun k => (setsOf s k).length).sum ≤ 65535)
    (h4 : ∀ k, k < s.nodesCount + 1 →
      (namesAt d (decodeRunes (wordOf s k))).length + (setsOf s k).length ≤ 255) : MergeRoom hd d s := by
  have c := rs.copySource (parents_ne hs) ht
  have hpos := rs.trie.length_pos
  have hN : s.nodesCount = (dictOf hs).nodes.length - 1 := rs.trie.nodesCount
  have hE : s.nodesCount + 1 = (dictOf hs).nodes.length := by omega
  have hat : ∀ id w sets, s.word id = .ok w → s.tagSetsOf id = .ok sets → id.toNat < s.nodesCount + 1 ∧
      setsOf s id.toNat = sets ∧ wordOf s id.toNat = w := by
    intro id w sets hw hst
    have hk : 0 < id.toNat ∧ id.toNat < (dictOf hs).nodes.length := by
      by_contra hc
      rw [tagSetsOf_none rs.refines.1 hc] at hst
      cases hst
    have : UInt32.ofNat id.toNat = id := by simp
    refine ⟨by omega, ?_, ?_⟩
    · unfold setsOf; rw [this, hst]
    · unfold wordOf; rw [this, hw]
  have hnw : (newWords d s).length ≤ s.nodesCount := by
    unfold newWords
    exact Nat.le_trans (List.length_filter_le _ _) (by rw [List.length_range])
  refine ⟨by omega, ?_, ?_, ?_, ?_⟩
  · rw [List.length_append]
    have : (newTags d s).length ≤ s.tags.length := List.length_filter_le _ _
    omega
  · refine ⟨(dictOf hd).readings.map (·.2) ++
      (List.range (s.nodesCount + 1)).flatMap fun k => (setsOf s k).map tagNames, ?_, ?_, ?_⟩
    · rw [List.length_append, List.length_map, List.length_flatMap]
      simp only [List.length_map]
      have := readings_le hd
      omega
    · intro e he
      exact ⟨e.2, List.mem_append_left _ (List.mem_map.2 ⟨e, he, rfl⟩), List.Perm.refl _⟩
    · intro id sets hst x hx
      have hk : 0 < id.toNat ∧ id.toNat < (dictOf hs).nodes.length := by
        by_contra hc
        rw [tagSetsOf_none rs.refines.1 hc] at hst
        cases hst
      have hw := (c.wordOf_eq (List.getElem?_eq_getElem hk.2)).1
      rw [show UInt32.ofNat id.toNat = id by simp] at hw
      obtain ⟨a1, a2, _⟩ := hat id _ sets hw hst
      exact ⟨_, List.mem_append_right _ (List.mem_flatMap.2 ⟨id.toNat, List.mem_range.2 a1,
        List.mem_map.2 ⟨x, by rw [a2]; exact hx, rfl⟩⟩), List.Perm.refl _⟩
  · intro id w sets hw hst
    obtain ⟨a1, a2, a3⟩ := hat id w sets hw hst
    refine ⟨namesAt d (decodeRunes w) ++ sets.map tagNames, ?_, fun n hn => ⟨n, hn, List.Perm.refl _⟩⟩
    have := h4 id.toNat a1
    rw [a2, a3] at this
    rw [List.length_append, List.length_map]
    exact this
  · obtain ⟨L, l1, l2⟩ := attached_kinds hd
    refine ⟨L ++ (List.range (s.nodesCount + 1)).flatMap fun k =>
      (prefixes (setsOf s k)).map fun q => namesAt d (decodeRunes (wordOf s k)) ++ q.map tagNames, ?_, ?_, ?_⟩
    · rw [List.length_append, List.length_flatMap]
      have : ∀ l : List (List Tag), (prefixes l).length = l.length := by
        intro l
        induction l with
        | nil => rfl
        | cons a l ih => simp [prefixes, ih]
      simp only [List.length_map, this]
      omega
    · intro q hq k hne
      exact ⟨_, List.mem_append_left _ (l2 q hq k hne), SameSets.refl _⟩
    · intro id w sets hw hst q hq hne
      obtain ⟨a1, a2, a3⟩ := hat id w sets hw hst
      refine ⟨_, List.mem_append_right _ (List.mem_flatMap.2 ⟨id.toNat, List.mem_range.2 a1,
        List.mem_map.2 ⟨q, mem_prefixes.2 ⟨hne, by rw [a2]; exact hq⟩, rfl⟩⟩), ?_⟩
      rw [a3]
      exact SameSets.refl _

/-- A way to see that no word starts with NUL. -/
theorem noNulWords_of {h : List Op} {ix : Index} (r : Run h ix) (ht : TextWords ix)
    (hn : ∀ w ∈ (dictOf h).nodes, w.head? ≠ some 0) : NoNulWords ix := by
  have c := r.copySource (parents_ne h) ht
  have hpos := r.trie.length_pos
  have hN : ix.nodesCount = (dictOf h).nodes.length - 1 := r.trie.nodesCount
  intro id w h0 h1 hw
  have hk : id.toNat < (dictOf h).nodes.length := by omega
  have e := (c.wordOf_eq (List.getElem?_eq_getElem hk))
  rw [show UInt32.ofNat id.toNat = id by simp] at e
  rw [hw] at e
  obtain ⟨e1, e2⟩ := e
  have : w = wordOf ix id.toNat := Out.ok.inj e1
  rw [this, e2]
  exact hn _ (List.getElem_mem hk)

/-- A way to see that everything in `s` is in `d`. -/
theorem partOf_of {hs : List Op} {d s : Index} (rs : Run hs s) (ht : TextWords s)
    (h1 : ∀ k, k < s.nodesCount → (match (d.fetchRunes (decodeRunes (wordOf s (k + 1)))).2 with | .ok _ => true | _ => false) = true)
    (h2 : ∀ k, k < s.nodesCount → ∀ x ∈ setsOf s (k + 1), ∃ n ∈ namesAt d (decodeRunes (wordOf s (k + 1))),
      n.Perm (tagNames x))
    (h3 : newTags d s = []) : PartOf s d := by
  have c := rs.copySource (parents_ne hs) ht
  have hpos := rs.trie.length_pos
  have hN : s.nodesCount = (dictOf hs).nodes.length - 1 := rs.trie.nodesCount
  refine ⟨fun id w h0 hl hw => ?_, fun id w sets hw hst x hx => ?_, h3⟩
  · obtain ⟨k, e⟩ : ∃ k, id.toNat = k + 1 := ⟨id.toNat - 1, by omega⟩
    have hw' : wordOf s (k + 1) = w := by
      unfold wordOf; rw [← e, show UInt32.ofNat id.toNat = id by simp, hw]
    have := h1 k (by omega)
    rw [hw'] at this
    unfold KnowsWord
    cases hf : (d.fetchRunes (decodeRunes w)).2 with
    | ok i => exact ⟨i, rfl⟩
    | err _ => rw [hf] at this; cases this
    | panic => rw [hf] at this; cases this
    | diverge => rw [hf] at this; cases this
  · have hk : 0 < id.toNat ∧ id.toNat < (dictOf hs).nodes.length := by
      by_contra hc
      rw [tagSetsOf_none rs.refines.1 hc] at hst
      cases hst
    obtain ⟨k, e⟩ : ∃ k, id.toNat = k + 1 := ⟨id.toNat - 1, by omega⟩
    have hw' : wordOf s (k + 1) = w := by
      unfold wordOf; rw [← e, show UInt32.ofNat id.toNat = id by simp, hw]
    have hst' : setsOf s (k + 1) = sets := by
      unfold setsOf; rw [← e, show UInt32.ofNat id.toNat = id by simp, hst]
    have := h2 k (by omega)
    rw [hw', hst'] at this
    exact this x hx

/-! ## What the hypotheses are for -/

/-- A word with an empty reading only. -/
def mergeEmpty : List Op := [.tagID (str "NOUN") [], .addString (str "a"), .addTagSet 1 []]

/-- A word with a reading. -/
def mergeNoun : List Op := [.tagID (str "NOUN") [], .addString (str "b"), .addTagSet 1 [str "NOUN"]]

/-- C102 is false of empty readings: the word "a" has an empty reading in the one and is not in the other, and after the
merge it is a NOUN. -/
theorem not_C102_empty : ∃ ha hb a b, Room ha ∧ Run ha a ∧ Room hb ∧ Run hb b ∧
    namesAt a [97] = [[]] ∧ namesAt b [97] = [] ∧
    (mergeInto a b).map (fun m => namesAt m [97]) = some [[str "NOUN"]] :=
  ⟨mergeEmpty, mergeNoun, _, _, (by decide : Small mergeEmpty).toRoom, small_runs _ (by decide),
    (by decide : Small mergeNoun).toRoom, small_runs _ (by decide), by decide, by decide, by decide⟩

/-- A dictionary that was reloaded. -/
def mergeReloaded : List Op := [.addString (str "b"), .reload]

/-- A word that starts with NUL. -/
def mergeNul : List Op := [.addString [0, 97]]

/-- C102 is false of words that start with NUL, merged into a dictionary that was reloaded: afterwards it knows a word that
neither knew. -/
theorem not_C102_nul : ∃ ha hb a b, Room ha ∧ Run ha a ∧ Room hb ∧ Run hb b ∧
    ¬ KnowsWord a [97] ∧ ¬ KnowsWord b [97] ∧
    ∃ m, mergeInto a b = some m ∧ KnowsWord m [97] := by
  refine ⟨mergeReloaded, mergeNul, _, _, (by decide : Small mergeReloaded).toRoom, small_runs _ (by decide),
    (by decide : Small mergeNul).toRoom, small_runs _ (by decide), ?_, ?_, ?_⟩
  · rw [(small_runs mergeReloaded (by decide)).knows_iff (by decide)]; decide
  · rw [(small_runs mergeNul (by decide)).knows_iff (by decide)]; decide
  · have e : (mergeInto (execAll mergeReloaded) (execAll mergeNul)).map (fun m => (m.fetchRunes [97]).2) =
        some (.ok 2) := by decide +kernel
    obtain ⟨m, hm, e⟩ := Option.map_eq_some_iff.1 e
    exact ⟨m, hm, 2, e⟩

/-- A tag with a parent. -/
def mergeParent : List Op := [.tagID (str "NOUN") (str "POST"), .addString (str "b"), .addTagSet 1 [str "NOUN"]]

/-- What C102 does not say: the parents of the tags are those of the one merged into. -/
theorem not_C102_parent : ∃ ha hb a b, Room ha ∧ Run ha a ∧ Room hb ∧ Run hb b ∧
    b.tagSetsOf 1 = .ok [[⟨str "POST", str "NOUN"⟩]] ∧ b.word 1 = .ok (str "b") ∧
    (mergeInto a b).map (fun m => (m.word 2, m.tagSetsOf 2)) = some (.ok (str "b"), .ok [[⟨str "----", str "NOUN"⟩]]) :=
  ⟨[.tagID (str "NOUN") [], .addString (str "a")], mergeParent, _, _,
    (by decide : Small [.tagID (str "NOUN") [], .addString (str "a")]).toRoom, small_runs _ (by decide),
    (by decide : Small mergeParent).toRoom, small_runs _ (by decide), by decide, by decide, by decide⟩

/-! ## Examples -/

/-- Two dictionaries with a word, a reading and two tags in common. -/
def mergeLeft : List Op :=
  [.tagID (str "NOUN") [], .tagID (str "sing") (str "NOUN"), .addString (str "ab"), .addString (str "c"),
   .addTagSet 2 [str "sing", str "NOUN"], .addTagSet 3 [str "NOUN"], .optimize]

def mergeRight : List Op :=
  [.tagID (str "sing") (str "NOUN"), .tagID (str "VERB") [], .tagID (str "NOUN") [], .addString (str "abd"),
   .addTagSet 2 [str "VERB"], .addTagSet 2 [str "NOUN", str "sing"], .addTagSet 3 [str "VERB", str "sing"]]

theorem mergeLeft_room : Room mergeLeft := (by decide : Small mergeLeft).toRoom
theorem mergeRight_room : Room mergeRight := (by decide : Small mergeRight).toRoom

theorem mergeRight_full : ∀ k, [] ∉ (dictOf mergeRight).attached k := by
  intro k hk
  have := mem_attached.1 hk
  revert this
  rw [show (dictOf mergeRight).readings = [(2, [str "VERB"]), (2, [str "NOUN", str "sing"]),
    (3, [str "VERB", str "sing"])] by decide]
  simp

/-- Both meet the hypotheses of C102, in either order. -/
example : ∃ a b, Run mergeLeft a ∧ Run mergeRight b ∧ TextWords a ∧ TextWords b ∧ NoNulWords a ∧ NoNulWords b ∧
    MergeRoom mergeLeft a b ∧ MergeRoom mergeRight b a ∧ (∀ k, [] ∉ (dictOf mergeLeft).attached k) ∧
    (∀ k, [] ∉ (dictOf mergeRight).attached k) ∧ (∀ id sets, b.tagSetsOf id = .ok sets → [] ∉ sets) ∧
    a.nodesCount = 3 ∧ b.nodesCount = 3 ∧ namesAt a [97, 98] = [[str "NOUN", str "sing"]] ∧
    namesAt b [97, 98] = [[str "VERB"], [str "sing", str "NOUN"]] ∧
    (mergeInto a b).map (fun m => (m.nodesCount, m.wordsCount, namesAt m [97, 98])) =
      some (4, 3, [[str "VERB"], [str "NOUN", str "sing"]]) := by
  have ra := small_runs mergeLeft (by decide)
  have rb := small_runs mergeRight (by decide)
  have ta := textWords_of ra (by decide)
  have tb := textWords_of rb (by decide)
  refine ⟨_, _, ra, rb, ta, tb, noNulWords_of ra ta (by decide), noNulWords_of rb tb (by decide),
    mergeRoom_of rb tb (by decide) (by decide) (by decide) (by decide),
    mergeRoom_of ra ta (by decide) (by decide) (by decide) (by decide), ?_, ?_, ?_,
    by decide, by decide, by decide, by decide, by decide⟩
  · intro k hk
    have := mem_attached.1 hk
    revert this
    rw [show (dictOf mergeLeft).readings = [(2, [str "sing", str "NOUN"]), (3, [str "NOUN"])] by decide]
    simp
  · exact mergeRight_full
  · exact rb.shown_no_empty mergeRight_full

/-- A dictionary that is part of another. -/
def mergePart : List Op :=
  [.tagID (str "VERB") [], .tagID (str "sing") [], .addString (str "abd"), .addTagSet 3 [str "sing", str "VERB"],
   .addTagSet 2 [str "VERB"]]

example : ∃ a b, Room mergeRight ∧ Run mergeRight a ∧ Room mergePart ∧ Run mergePart b ∧ TextWords b ∧
    NulSafe mergeRight b ∧ (∀ k, [] ∉ (dictOf mergeRight).attached k) ∧ PartOf b a := by
  have ra := small_runs mergeRight (by decide)
  have rb := small_runs mergePart (by decide)
  have tb := textWords_of rb (by decide)
  exact ⟨_, _, mergeRight_room, ra, (by decide : Small mergePart).toRoom, rb, tb, .inl (by simp [NoReload, mergeRight]),
    mergeRight_full, partOf_of rb tb (by decide) (by decide) (by decide)⟩

end Verif
