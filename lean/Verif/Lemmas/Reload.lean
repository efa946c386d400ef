import Verif.Lemmas.Optimize
import Verif.Lemmas.FileFormat

/-! # Helper lemmas: saving and loading -/

namespace Verif

/-! ## Rebuilding the children maps -/

theorem rebuildStep_other (ix : Index) (e : Item × Nat) :
    (Index.rebuildStep ix e).tags = ix.tags ∧ (Index.rebuildStep ix e).tagSets = ix.tagSets ∧
    (Index.rebuildStep ix e).collectionIdx = ix.collectionIdx ∧
    (Index.rebuildStep ix e).items = ix.items ∧
    (Index.rebuildStep ix e).wordsCount = ix.wordsCount + if e.1.variants ≠ 0 then 1 else 0 := by
  refine ⟨rfl, rfl, rfl, rfl, ?_⟩
  simp only [Index.rebuildStep, Index.getChildrenIDMap]
  split <;> rfl

theorem ensureChildren_keeps_isSome {m : ID → Option IdMap} {k : ID} (id : ID) (h : (m k).isSome = true) :
    (Index.ensureChildren m id k).isSome = true := by
  unfold Index.ensureChildren
  cases hm : m id with
  | some _ => exact h
  | none =>
    simp only
    split
    · rfl
    · exact h

theorem rebuildStep_children (ix : Index) (e : Item × Nat) (p : ID) (l : Rune) :
    (Index.rebuildStep ix e).getChildrenMap p l =
      if p = e.1.parent ∧ l = e.1.letter then some (UInt32.ofNat e.2) else ix.getChildrenMap p l := by
  have h1 := getChildrenIDMap_obs ix e.1.parent
  have h2 := getChildrenIDMap_obs (ix.getChildrenIDMap e.1.parent).1 (UInt32.ofNat e.2)
  have hs : ((((ix.getChildrenIDMap e.1.parent).1.getChildrenIDMap (UInt32.ofNat e.2)).1).childrenMap
      e.1.parent).isSome = true := by
    apply ensureChildren_keeps_isSome
    obtain ⟨im, him⟩ := ensureChildren_isSome ix.childrenMap e.1.parent
    simp only [Index.getChildrenIDMap]
    rw [him]; rfl
  obtain ⟨im, him⟩ := Option.isSome_iff_exists.1 hs
  have := setChild_get _ im e.1.parent e.1.letter (UInt32.ofNat e.2) p l him
  rw [h2.children, h1.children] at this
  exact this

theorem rebuildFold_other (es : List (Item × Nat)) (ix : Index) :
    (es.foldl Index.rebuildStep ix).tags = ix.tags ∧
    (es.foldl Index.rebuildStep ix).tagSets = ix.tagSets ∧
    (es.foldl Index.rebuildStep ix).collectionIdx = ix.collectionIdx ∧
    (es.foldl Index.rebuildStep ix).items = ix.items ∧
    (es.foldl Index.rebuildStep ix).wordsCount =
      ix.wordsCount + ((es.map (·.1)).filter fun it => decide (it.variants ≠ 0)).length := by
  induction es generalizing ix with
  | nil => exact ⟨rfl, rfl, rfl, rfl, rfl⟩
  | cons e es ih =>
    obtain ⟨a1, a2, a3, a4, a5⟩ := rebuildStep_other ix e
    obtain ⟨b1, b2, b3, b4, b5⟩ := ih (Index.rebuildStep ix e)
    refine ⟨b1.trans a1, b2.trans a2, b3.trans a3, b4.trans a4, ?_⟩
    rw [List.foldl_cons, b5, a5, List.map_cons, List.filter_cons]
    by_cases hv : e.1.variants = 0
    · simp [hv]
    · simp [hv]; omega

/-- The last item with the given parent and letter wins. -/
theorem rebuildFold_children (items : List Item) (ix : Index) (p : ID) (l : Rune) :
    (∃ (k : Nat) (it : Item), items[k]? = some it ∧ p = it.parent ∧ l = it.letter ∧
      (∀ (k' : Nat) (it' : Item), items[k']? = some it' → p = it'.parent → l = it'.letter → k' ≤ k) ∧
      (items.zipIdx.foldl Index.rebuildStep ix).getChildrenMap p l = some (UInt32.ofNat k)) ∨
    ((∀ it ∈ items, ¬(p = it.parent ∧ l = it.letter)) ∧
      (items.zipIdx.foldl Index.rebuildStep ix).getChildrenMap p l = ix.getChildrenMap p l) := by
  induction items using list_reverse_induction with
  | nil => exact .inr ⟨by simp, rfl⟩
  | snoc items x ih =>
    have hz : (items ++ [x]).zipIdx = items.zipIdx ++ [(x, items.length)] := by
      rw [List.zipIdx_append]; simp
    rw [hz, List.foldl_append, List.foldl_cons, List.foldl_nil, rebuildStep_children]
    simp only
    by_cases hx : p = x.parent ∧ l = x.letter
    · rw [if_pos hx]
      refine .inl ⟨items.length, x, by simp, hx.1, hx.2, ?_, rfl⟩
      intro k' it' hk' _ _
      have := (List.getElem?_eq_some_iff.1 hk').1
      simp only [List.length_append, List.length_cons, List.length_nil] at this
      omega
    · rw [if_neg hx]
      rcases ih with ⟨k, it, h1, h2, h3, h4, h5⟩ | ⟨h1, h2⟩
      · have hk := (List.getElem?_eq_some_iff.1 h1).1
        refine .inl ⟨k, it, by rw [List.getElem?_append_left hk]; exact h1, h2, h3, ?_, h5⟩
        intro k' it' hk' e1 e2
        by_cases hlt : k' < items.length
        · rw [List.getElem?_append_left hlt] at hk'
          exact h4 k' it' hk' e1 e2
        · have := (List.getElem?_eq_some_iff.1 hk').1
          simp only [List.length_append, List.length_cons, List.length_nil] at this
          have : k' = items.length := by omega
          subst this
          rw [List.getElem?_append_right (Nat.le_refl _)] at hk'
          simp only [Nat.sub_self, List.getElem?_cons_zero, Option.some.injEq] at hk'
          subst hk'
          exact absurd ⟨e1, e2⟩ hx
      · refine .inr ⟨?_, h2⟩
        intro it hit
        rcases List.mem_append.1 hit with hit | hit
        · exact h1 it hit
        · simp only [List.mem_singleton] at hit
          subst hit
          exact hx

theorem length_filter_range {α : Type} (L : List α) (P : α → Bool) (q : Nat → Bool)
    (h : ∀ (k : Nat) (x : α), L[k]? = some x → P x = q k) :
    (L.filter P).length = ((List.range L.length).filter q).length := by
  induction L using list_reverse_induction with
  | nil => rfl
  | snoc L x ih =>
    have h1 := ih (fun k y hk => h k y (by
      rw [List.getElem?_append_left (List.getElem?_eq_some_iff.1 hk).1]; exact hk))
    have h2 := h L.length x (by simp)
    rw [List.filter_append, List.length_append, h1, List.length_append, List.length_cons,
      List.length_nil, List.range_succ, List.filter_append, List.length_append]
    congr 1
    simp only [List.filter_cons, h2, List.filter_nil]
    split <;> rfl

/-! ## Names are kept -/

theorem storedName_of_four {n : Str} (h : n.length = 4) (hs : n ≠ [0x20, 0x20, 0x20, 0x20]) :
    storedName n = n := by
  unfold storedName
  rw [if_neg]
  rintro (rfl | h')
  · simp at h
  · exact hs h'

theorem storedTag_name {t : Tag} (h : Savable t) : (storedTag t).name = t.name :=
  storedName_of_four h.1 h.2.1

theorem storedTag_names {tags : List Tag} (h : ∀ t ∈ tags, Savable t) :
    (tags.map storedTag).map (·.name) = tags.map (·.name) := by
  rw [List.map_map]
  exact List.map_congr_left fun t ht => storedTag_name (h t ht)

theorem tagsFind_congr {tags tags' : List Tag} (h : tags'.map (·.name) = tags.map (·.name)) (n : Str) :
    tagsFind tags' n = tagsFind tags n := by
  have key : ∀ l : List Tag, (l.findIdx? fun t => decide (t.name = n)) =
      (l.map (·.name)).findIdx? (fun x => decide (x = n)) := by
    intro l
    rw [List.findIdx?_map]; rfl
  unfold tagsFind
  rw [key, key, h]

theorem findAll_congr {tags tags' : List Tag} (h : tags'.map (·.name) = tags.map (·.name))
    (names : List Str) : Index.findAll tags' names = Index.findAll tags names := by
  induction names with
  | nil => rfl
  | cons n rest ih =>
    unfold Index.findAll
    rw [tagsFind_congr h, ih]

theorem TSId.congr {tags tags' : List Tag} (h : tags'.map (·.name) = tags.map (·.name))
    {sets : TagSetIndex} {names : List Str} {id : TagSetID} :
    TSId tags' sets names id ↔ TSId tags sets names id := by
  unfold TSId
  rw [findAll_congr h]

/-! ## The whole -/

theorem reload_eq {ix : Index} {d : Dict} (h : TagOK ix d) (ha : Op.reload.Allowed ix d) :
    ix.save.err = none ∧ (∀ t, Index.new.load (ix.save.bytes ++ t) = .ok (Index.loaded Index.new ix, t)) ∧
    Op.exec ix .reload = Index.loaded Index.new ix := by
  have hn : ix.NamesOK := by
    intro t ht
    rw [h.tags] at ht
    have := ha.2 t ht
    exact ⟨this.2.2, .inr this.1⟩
  have he := (save_err ix).2 hn
  have hrt := RT_load Index.new ha.1 hn
  refine ⟨he, hrt, ?_⟩
  have := hrt []
  rw [List.append_nil] at this
  simp only [Op.exec]
  rw [if_pos he, this]

theorem reload_trie {ix : Index} {d : Dict} (ht : TrieOK ix d) :
    TrieOK (Index.loaded Index.new ix) (Op.spec d .reload) := by
  let start : Index := { Index.new with
    tags := ix.tags.map storedTag, tagSets := ix.tagSets, collectionIdx := ix.collectionIdx,
    items := ix.items.trim }
  obtain ⟨f1, f2, f3, f4, f5⟩ := rebuildFold_other ix.items.trim.items.zipIdx (start.getChildrenIDMap 0).1
  have hdef : Index.loaded Index.new ix =
      ix.items.trim.items.zipIdx.foldl Index.rebuildStep (start.getChildrenIDMap 0).1 := rfl
  rw [← hdef] at f1 f2 f3 f4 f5
  have hitems : (Index.loaded Index.new ix).items = ix.items.trim := f4
  have hchild0 : ∀ p l, (start.getChildrenIDMap 0).1.getChildrenMap p l = none := by
    intro p l
    rw [(getChildrenIDMap_obs start 0).children]
    rfl
  have hlen : ix.items.trim.items.length = d.nodes.length := by
    simp only [Items.trim, List.length_take, ht.next]
    have := ht.cap
    omega
  have hget : ∀ k : Nat, k < d.nodes.length → ix.items.trim.items[k]? = ix.items.items[k]? := by
    intro k hk
    simp only [Items.trim, ht.next]
    rw [List.getElem?_take, if_pos hk]
  have hsize := ht.length_lt
  constructor
  · exact ht.root
  · exact ht.nodup
  · rw [hitems]; exact ht.next
  · rw [hitems, hlen]; exact Nat.le_refl _
  · rw [hitems, hget 0 ht.length_pos]; exact ht.item0
  · intro k hk0 hk
    rw [hitems, hget k hk]
    exact ht.item k hk0 hk
  · intro p l c
    show (Index.loaded Index.new ix).getChildrenMap p l = some c ↔
      (∃ w, d.nodes[p.toNat]? = some w ∧ d.nodes[c.toNat]? = some (w ++ [l])) ∨
      ((!(d.nodes.contains [0])) = true ∧ p = 0 ∧ l = 0 ∧ c = 0)
    have hnul : (!(d.nodes.contains [0])) = true ↔ [0] ∉ d.nodes := by simp
    rw [hnul]
    -- an item at k ≥ 1 and its word
    have hitem : ∀ (k : Nat) (it : Item), 0 < k → ix.items.trim.items[k]? = some it →
        ∃ w, d.nodes[it.parent.toNat]? = some w ∧ d.nodes[k]? = some (w ++ [it.letter]) := by
      intro k it hk0 hk
      have hkl := (List.getElem?_eq_some_iff.1 hk).1
      rw [hlen] at hkl
      obtain ⟨it', w, e1, _, _, e4, e5⟩ := ht.item k hk0 hkl
      rw [hget k hkl, e1] at hk
      obtain rfl := Option.some.inj hk
      exact ⟨w, e4, e5⟩
    -- a word with a parent comes from such an item
    have hback : ∀ (w : List Rune) (c : Nat), d.nodes[p.toNat]? = some w →
        d.nodes[c]? = some (w ++ [l]) → 0 < c ∧
        ∃ it, ix.items.trim.items[c]? = some it ∧ p = it.parent ∧ l = it.letter := by
      intro w c hw hcw
      have hcl := TrieOK.lt_next hcw
      have hc0 : 0 < c := by
        rcases Nat.eq_zero_or_pos c with rfl | h0
        · rw [ht.root] at hcw
          simp at hcw
        · exact h0
      obtain ⟨it, w', e1, _, _, e4, e5⟩ := ht.item c hc0 hcl
      rw [hcw] at e5
      have := List.append_inj' (Option.some.inj e5) rfl
      obtain ⟨rfl, hl⟩ := this
      refine ⟨hc0, it, by rw [hget c hcl]; exact e1, ?_, by simpa using hl⟩
      exact UInt32.toNat_inj.1 (ht.idx_unique hw e4)
    rw [hdef]
    rcases rebuildFold_children ix.items.trim.items (start.getChildrenIDMap 0).1 p l with
      ⟨k, it, h1, h2, h3, h4, h5⟩ | ⟨h1, h2⟩
    · rw [h5]
      have hkl := (List.getElem?_eq_some_iff.1 h1).1
      rw [hlen] at hkl
      have hkk : (UInt32.ofNat k).toNat = k := toNat_ofNat32 (by omega)
      constructor
      · intro hcc
        obtain rfl := Option.some.inj hcc
        rw [hkk]
        by_cases hk0 : k = 0
        · subst hk0
          rw [hget 0 ht.length_pos, ht.item0] at h1
          obtain rfl := Option.some.inj h1
          simp only [zeroItem] at h2 h3
          subst h2 h3
          refine .inr ⟨?_, rfl, rfl, rfl⟩
          intro hm
          obtain ⟨c', hc'⟩ := TrieOK.exists_idx hm
          obtain ⟨hpos, it', e1, e2, e3⟩ := hback [] c' ht.root hc'
          have := h4 c' it' e1 e2 e3
          omega
        · obtain ⟨w, e1, e2⟩ := hitem k it (by omega) h1
          rw [← h2, ← h3] at *
          exact .inl ⟨w, e1, e2⟩
      · rintro (⟨w, hw, hcw⟩ | ⟨hno, rfl, rfl, rfl⟩)
        · obtain ⟨hpos, it', e1, e2, e3⟩ := hback w c.toNat hw hcw
          have hle := h4 _ it' e1 e2 e3
          obtain ⟨w', g1, g2⟩ := hitem k it (by omega) h1
          rw [← h2, hw] at g1
          obtain rfl := Option.some.inj g1
          rw [← h3] at g2
          have := ht.idx_unique g2 hcw
          rw [this]
          simp
        · by_cases hk0 : k = 0
          · subst hk0; rfl
          · obtain ⟨w', g1, g2⟩ := hitem k it (by omega) h1
            rw [← h2, ← h3] at *
            have : w' = [] := by
              have hz : (0 : ID).toNat = 0 := rfl
              rw [hz, ht.root] at g1; exact (Option.some.inj g1).symm
            subst this
            exact absurd (List.mem_of_getElem? g2) hno
    · rw [h2, hchild0]
      constructor
      · intro hcc; cases hcc
      · rintro (⟨w, hw, hcw⟩ | ⟨_, rfl, rfl, rfl⟩)
        · obtain ⟨_, it', e1, e2, e3⟩ := hback w c.toNat hw hcw
          exact absurd ⟨e2, e3⟩ (h1 it' (List.mem_of_getElem? e1))
        · have h0 : ix.items.trim.items[0]? = some zeroItem := by
            rw [hget 0 ht.length_pos]; exact ht.item0
          exact absurd ⟨rfl, rfl⟩ (h1 _ (List.mem_of_getElem? h0))
  · intro hu
    simpa [Op.spec] using hu

theorem reload_spec {ix : Index} {d : Dict} (ht : TrieOK ix d) (h : TagOK ix d) (hc : Caps ix)
    (hs : ∀ t ∈ d.tags, Savable t) :
    TrieOK (Index.loaded Index.new ix) (Op.spec d .reload) ∧
    TagOK (Index.loaded Index.new ix) (Op.spec d .reload) := by
  have hnames := storedTag_names hs
  let start : Index := { Index.new with
    tags := ix.tags.map storedTag, tagSets := ix.tagSets, collectionIdx := ix.collectionIdx,
    items := ix.items.trim }
  obtain ⟨f1, f2, f3, f4, f5⟩ := rebuildFold_other ix.items.trim.items.zipIdx (start.getChildrenIDMap 0).1
  have hdef : Index.loaded Index.new ix =
      ix.items.trim.items.zipIdx.foldl Index.rebuildStep (start.getChildrenIDMap 0).1 := rfl
  rw [← hdef] at f1 f2 f3 f4 f5
  have hitems : (Index.loaded Index.new ix).items = ix.items.trim := f4
  have hchild0 : ∀ p l, (start.getChildrenIDMap 0).1.getChildrenMap p l = none := by
    intro p l
    rw [(getChildrenIDMap_obs start 0).children]
    rfl
  have hlen : ix.items.trim.items.length = d.nodes.length := by
    simp only [Items.trim, List.length_take, ht.next]
    have := ht.cap
    omega
  have hget : ∀ k : Nat, k < d.nodes.length → ix.items.trim.items[k]? = ix.items.items[k]? := by
    intro k hk
    simp only [Items.trim, ht.next]
    rw [List.getElem?_take, if_pos hk]
  have hsize := ht.length_lt
  refine ⟨reload_trie ht, ?_⟩
  constructor
  · rw [f1]
    show ix.tags.map storedTag = d.tags.map storedTag
    rw [h.tags]
  · show ((d.tags.map storedTag).map (·.name)).Nodup
    rw [hnames]; exact h.names
  · rw [f2]; exact h.sets
  · rw [f2]
    intro p s hp t hts
    show t.toNat < (d.tags.map storedTag).length
    rw [List.length_map]
    exact h.setIds p s hp t hts
  · rw [f3]; exact h.colls
  · rw [f3]; exact h.collNodup
  · intro k it hk hit
    rw [hitems, hget k hk] at hit
    obtain ⟨c, hc1, hc2⟩ := h.vars k it hk hit
    refine ⟨c, by rw [f3]; exact hc1, ?_⟩
    intro id
    rw [hc2 id, f2]
    show _ ↔ ∃ names, (k, names) ∈ d.readings ∧ TSId (d.tags.map storedTag) ix.tagSets names id
    simp only [TSId.congr hnames]
  · intro k it hk hit
    rw [hitems] at hit
    have := (List.getElem?_eq_some_iff.1 hit).1
    have hk' : d.nodes.length ≤ k := hk
    omega
  · intro k names hkn
    obtain ⟨a, b, id, hid⟩ := h.readings k names hkn
    refine ⟨a, b, id, ?_⟩
    rw [f2]
    exact (TSId.congr hnames).2 hid
  · rw [f5]
    show 0 + _ = taggedCount d
    rw [Nat.zero_add]
    have hmap : ix.items.trim.items.zipIdx.map (·.1) = ix.items.trim.items := by simp
    rw [hmap]
    unfold taggedCount
    rw [← hlen]
    apply length_filter_range
    intro k it hk
    have hkl := (List.getElem?_eq_some_iff.1 hk).1
    rw [hlen] at hkl
    rw [hget k hkl] at hk
    obtain ⟨c, hc1, hc2⟩ := h.vars k it hkl hk
    rw [Bool.eq_iff_iff]
    simp only [decide_eq_true_eq, List.any_eq_true, beq_iff_eq, ne_eq]
    rw [hc1.zero_iff hc h.colls]
    constructor
    · intro hne
      obtain ⟨id, hid⟩ := List.exists_mem_of_ne_nil _ hne
      obtain ⟨names, hn, _⟩ := (hc2 id).1 hid
      exact ⟨_, hn, rfl⟩
    · rintro ⟨⟨k', names⟩, hn, rfl⟩
      obtain ⟨_, _, id, hid⟩ := h.readings _ names hn
      have := (hc2 id).2 ⟨names, hn, hid⟩
      exact List.ne_nil_of_mem this

end Verif
