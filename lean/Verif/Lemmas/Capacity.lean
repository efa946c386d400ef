import Verif.Lemmas.Refine
import Verif.Spec.Small

/-! # Helper lemmas: small histories stay within capacity -/

namespace Verif

theorem length_prefixes {α : Type} (w : List α) : (prefixes w).length = w.length := by
  induction w with
  | nil => rfl
  | cons a w ih => simp [prefixes, ih]

theorem addAll_length_le (ws l : List (List Rune)) : (addAll ws l).length ≤ ws.length + l.length := by
  induction l generalizing ws with
  | nil => simp [addAll_nil]
  | cons a l ih =>
    rw [addAll_cons]
    have h1 := ih (addNew ws a)
    have h2 : (addNew ws a).length ≤ ws.length + 1 := by
      unfold addNew; split <;> simp
    simp only [List.length_cons]
    omega

theorem Dict.insert_length {d : Dict} (hcl : ∀ w ∈ d.nodes, ∀ p ∈ prefixes w, p ∈ d.nodes) (p : Nat)
    (rs : List Rune) : (d.insert p rs).nodes.length ≤ d.nodes.length + rs.length := by
  unfold Dict.insert
  split
  · omega
  · rename_i w hw
    split
    · omega
    · simp only
      unfold Dict.join
      split
      · have h1 := addAll_length_le d.nodes (prefixes (rs.dropWhile (· == 0)))
        rw [length_prefixes] at h1
        have h2 := (List.dropWhile_sublist (l := rs) (· == 0)).length_le
        omega
      · rw [prefixes_append, addAll_append, addAll_of_subset (hcl w (List.mem_of_getElem? hw))]
        have h1 := addAll_length_le d.nodes ((prefixes rs).map (w ++ ·))
        rw [List.length_map, length_prefixes] at h1
        omega

theorem gIndex_len {α : Type} [DecidableEq α] [LE α] [DecidableRel (α := α) (· ≤ ·)]
    [Std.Total (α := α) (· ≤ ·)] [IsTrans α (· ≤ ·)] [Std.Antisymm (α := α) (· ≤ ·)]
    (c : List (List (List α))) (x : List α) (i : Nat) :
    ((gIndex c x).1.getD i []).length ≤ (c.getD i []).length + 1 := by
  rw [gIndex_getD]
  split
  · exact gTable_length_le _ _
  · omega

theorem mem_length_getD {α : Type} {c : List (List α)} {n : Nat} (h : ∀ i, (c.getD i []).length ≤ n) :
    ∀ t ∈ c, t.length ≤ n := by
  intro t ht
  obtain ⟨i, hi, rfl⟩ := List.getElem_of_mem ht
  have := h i
  rw [List.getD_eq_getElem?_getD, List.getElem?_eq_getElem hi] at this
  simpa using this

/-- Sizes after a small history. -/
structure Sizes (ix : Index) (d : Dict) (h : List Op) : Prop where
  nodes : d.nodes.length ≤ 1 + (h.map Op.chars).sum
  tags : d.tags.length ≤ (h.filter Op.isTagID).length
  savable : ∀ t ∈ d.tags, Savable t
  setTables : ix.tagSets.length ≤ 255
  sets : ∀ i, (ix.tagSets.getD i []).length ≤ (h.filter Op.isAddTagSet).length
  collTables : ix.collectionIdx.length ≤ (h.filter Op.isAddTagSet).length
  colls : ∀ i, (ix.collectionIdx.getD i []).length ≤ (h.filter Op.isAddTagSet).length

theorem Sizes.fits {ix : Index} {d : Dict} {h : List Op} (s : Sizes ix d h) (hs : Small h) : Fits ix d := by
  have := s.nodes
  have := s.tags
  have := s.setTables
  have := s.collTables
  have h1 := hs.chars
  have h2 := hs.tags
  have h3 := hs.sets
  constructor
  · omega
  · omega
  · omega
  · intro t ht; have := mem_length_getD s.sets t ht; omega
  · omega
  · intro t ht; have := mem_length_getD s.colls t ht; omega

theorem Sizes.allowed {ix : Index} {d : Dict} {h : List Op} (s : Sizes ix d h) (hs : Small h)
    (r : Refines ix d) (op : Op) : op.Allowed ix d := by
  have e1 := s.tags
  have e2 := s.setTables
  have e3 := s.collTables
  have h1 := hs.chars
  have h2 := hs.tags
  have h3 := hs.sets
  cases op with
  | reload =>
    refine ⟨⟨?_, ?_, ?_, ?_, ?_, ?_, ?_, ?_⟩, s.savable⟩
    · rw [r.tag.tags]; omega
    · omega
    · intro t ht; have := mem_length_getD s.sets t ht; omega
    · intro t ht x hx
      obtain ⟨i, hi, rfl⟩ := List.getElem_of_mem ht
      have := r.tag.sets i
      rw [List.getD_eq_getElem?_getD, List.getElem?_eq_getElem hi] at this
      have := (this.2 x (by simpa using hx)).1
      omega
    · omega
    · intro t ht; have := mem_length_getD s.colls t ht; omega
    · intro t ht x hx
      obtain ⟨i, hi, rfl⟩ := List.getElem_of_mem ht
      have := r.tag.colls i
      rw [List.getD_eq_getElem?_getD, List.getElem?_eq_getElem hi] at this
      have := (this.2 x (by simpa using hx)).1
      omega
    · rw [r.trie.next]; exact r.trie.cap
  | _ => trivial

theorem savable_stored {t : Tag} (h : Savable t) : Savable (storedTag t) := by
  have hn := storedTag_name h
  refine ⟨by rw [hn]; exact h.1, by rw [hn]; exact h.2.1, ?_⟩
  simp only [storedTag, storedName]
  split
  · right; rfl
  · exact h.2.2

theorem Sizes.step {ix : Index} {d : Dict} {h : List Op} (s : Sizes ix d h) (hs : Small h)
    (r : Refines ix d) (op : Op) (hp : op.Plain) :
    Sizes (op.exec ix) (op.spec d) (h ++ [op]) := by
  have hcl : ∀ w ∈ d.nodes, ∀ p ∈ prefixes w, p ∈ d.nodes := by
    intro w hw
    obtain ⟨k, hk⟩ := TrieOK.exists_idx hw
    exact r.trie.prefixes_mem hk
  have hc := (s.fits hs).caps
  have ins : ∀ p rs, (d.insert p rs).tags = d.tags := by
    intro p rs; unfold Dict.insert; split
    · rfl
    · split <;> rfl
  have key : ∀ (ix' : Index) (d' : Dict), ix'.tagSets = ix.tagSets → ix'.collectionIdx = ix.collectionIdx →
      d'.tags = d.tags → d'.nodes.length ≤ d.nodes.length + op.chars → Sizes ix' d' (h ++ [op]) := by
    intro ix' d' e1 e2 e3 e4
    have f1 : ((h ++ [op]).filter Op.isTagID).length ≥ (h.filter Op.isTagID).length := by
      rw [List.filter_append, List.length_append]; omega
    have f2 : ((h ++ [op]).filter Op.isAddTagSet).length ≥ (h.filter Op.isAddTagSet).length := by
      rw [List.filter_append, List.length_append]; omega
    constructor
    · have := s.nodes
      rw [List.map_append, List.sum_append]
      simp only [List.map_cons, List.map_nil, List.sum_cons, List.sum_nil]
      omega
    · rw [e3]; exact s.tags.trans f1
    · rw [e3]; exact s.savable
    · rw [e1]; exact s.setTables
    · rw [e1]; exact fun i => (s.sets i).trans f2
    · rw [e2]; exact s.collTables.trans f2
    · rw [e2]; exact fun i => (s.colls i).trans f2
  have addGrow : ∀ id rs, (ix.addToNode id rs).1.tagSets = ix.tagSets ∧
      (ix.addToNode id rs).1.collectionIdx = ix.collectionIdx := by
    have step : ∀ (ix : Index) p r ix' c, ix.addStep p r = some (ix', c) → ix'.tagSets = ix.tagSets ∧
        ix'.collectionIdx = ix.collectionIdx := by
      intro ix p r ix' c e
      unfold Index.addStep at e
      simp only at e
      split at e
      · obtain ⟨rfl, _⟩ := Prod.mk.inj (Option.some.inj e); exact ⟨rfl, rfl⟩
      · split at e
        · cases e
        · obtain ⟨rfl, _⟩ := Prod.mk.inj (Option.some.inj e); exact ⟨rfl, rfl⟩
    have loop : ∀ (rs : List Rune) (o : ID) (ix : Index) (p : ID),
        (ix.addLoop o p rs).1.tagSets = ix.tagSets ∧
        (ix.addLoop o p rs).1.collectionIdx = ix.collectionIdx := by
      intro rs
      induction rs with
      | nil => intro o ix p; exact ⟨rfl, rfl⟩
      | cons a rest ih =>
        intro o ix p
        unfold Index.addLoop
        split
        · exact ⟨rfl, rfl⟩
        · split
          · exact ⟨rfl, rfl⟩
          · rename_i ix1 next he
            have h1 := step _ _ _ _ _ he
            split
            · exact h1
            · have h2 := ih o ix1 next
              exact ⟨h2.1.trans h1.1, h2.2.trans h1.2⟩
    exact fun id rs => loop rs id ix id
  cases op with
  | addRunes rs => exact key _ _ (addGrow 0 rs).1 (addGrow 0 rs).2 (ins _ _) (Dict.insert_length hcl _ _)
  | addString w =>
    have : (Op.exec ix (.addString w)).tagSets = ix.tagSets ∧
        (Op.exec ix (.addString w)).collectionIdx = ix.collectionIdx := by
      simp only [Op.exec, Index.addString]
      split
      · exact ⟨rfl, rfl⟩
      · exact addGrow 0 _
    exact key _ _ this.1 this.2 (ins _ _) (Dict.insert_length hcl _ _)
  | addToNode id rs => exact key _ _ (addGrow id rs).1 (addGrow id rs).2 (ins _ _) (Dict.insert_length hcl _ _)
  | fetchFromItem id rs =>
    have := fetchFromItem_obs ix id rs
    exact key _ _ this.tagSets this.collectionIdx rfl (Nat.le_add_right _ _)
  | fetchItemFromParent id rs =>
    have := fetchItemFromParent_obs ix id rs
    exact key _ _ this.tagSets this.collectionIdx rfl (Nat.le_add_right _ _)
  | fetchRunes rs =>
    have := fetchFromItem_obs ix 0 rs
    exact key _ _ this.tagSets this.collectionIdx rfl (Nat.le_add_right _ _)
  | fetchString w =>
    have := fetchFromItem_obs ix 0 (decodeRunes w)
    exact key _ _ this.tagSets this.collectionIdx rfl (Nat.le_add_right _ _)
  | tagID name parent =>
    have k := key (Op.exec ix (.tagID name parent)) d rfl rfl rfl (Nat.le_add_right _ _)
    simp only [Op.spec]
    split
    · exact k
    · obtain ⟨k1, k2, k3, k4, k5, k6, k7⟩ := k
      refine ⟨k1, ?_, ?_, k4, k5, k6, k7⟩
      · have := s.tags
        rw [List.filter_append, List.length_append, List.length_append]
        have e1 : (List.filter Op.isTagID [Op.tagID name parent]).length = 1 := rfl
        have e2 : [newTag parent name].length = 1 := rfl
        omega
      · intro t ht
        simp only [List.mem_append, List.mem_singleton] at ht
        rcases ht with ht | rfl
        · exact s.savable t ht
        · obtain ⟨p1, p2, p3⟩ := hp
          refine ⟨p1, p2, ?_⟩
          simp only [newTag]
          split
          · right; rfl
          · rename_i hne
            exact p3.imp_left fun h0 => absurd h0 hne
  | addTagSet id names =>
    have hspec : ((Op.addTagSet id names).spec d).nodes = d.nodes ∧
        ((Op.addTagSet id names).spec d).tags = d.tags := by
      simp only [Op.spec]; split <;> exact ⟨rfl, rfl⟩
    by_cases hn : names.all d.hasTag = true ∧ 0 < id.toNat ∧ id.toNat < d.nodes.length
    · obtain ⟨ids, hids⟩ := all_hasTag_iff.1 hn.1
      obtain ⟨it, w, hg, hit, _⟩ := r.trie.items_get hn.2.1 hn.2.2
      obtain ⟨coll, hcoll, _⟩ := r.tag.vars id.toNat it hn.2.2 hit
      have hget := hcoll.get hc
      have hlen : ids.length = names.length := findAll_length hids
      have hcl2 : coll.length ≤ ix.collectionIdx.length := by
        rcases hcoll with ⟨_, rfl⟩ | ⟨p, hp', _⟩
        · simp
        · have := (gGet_sorted r.tag.colls hp').2
          have := gGet_col_lt hp'
          omega
      have k := key ix ((Op.addTagSet id names).spec d) rfl rfl hspec.2
        (by rw [hspec.1]; exact Nat.le_add_right _ _)
      have f2 : ((h ++ [Op.addTagSet id names]).filter Op.isAddTagSet).length =
          (h.filter Op.isAddTagSet).length + 1 := by
        rw [List.filter_append, List.length_append]; rfl
      have e1 := s.sets
      have e2 := s.collTables
      have e3 := s.colls
      have e4 := s.setTables
      have e5 := hs.sets
      simp only [Op.Plain] at hp
      simp only [Op.exec, Index.addTagSet]
      rw [r.tag.tags, hids]
      simp only
      rw [hg]
      simp only
      rw [hget]
      simp only
      have hadd := Coll.add_ne_nil coll (ix.tagSets.index ids).2
      have hal := Coll.length_add coll (ix.tagSets.index ids).2
      refine ⟨k.nodes, k.tags, k.savable, ?_, ?_, ?_, ?_⟩
      · simp only
        by_cases hi : ids = []
        · subst hi; exact e4
        · rw [TagSetIndex.index_eq _ hi]
          simp only
          rw [gIndex_fst_length]
          have := List.length_pos_iff.2 hi
          omega
      · intro i
        simp only
        rw [f2]
        by_cases hi : ids = []
        · subst hi; exact (e1 i).trans (Nat.le_succ _)
        · rw [TagSetIndex.index_eq _ hi]
          simp only
          exact (gIndex_len _ _ _).trans (Nat.succ_le_succ (e1 i))
      · simp only
        rw [VariantsIndex.index_eq _ hadd (by omega), f2]
        simp only
        rw [gIndex_fst_length]
        omega
      · intro i
        simp only
        rw [VariantsIndex.index_eq _ hadd (by omega), f2]
        simp only
        exact (gIndex_len _ _ _).trans (Nat.succ_le_succ (e3 i))
    · simp only [Op.exec]
      rw [r.tag.addTagSet_err r.trie id names hn]
      exact key _ _ rfl rfl hspec.2 (by rw [hspec.1]; exact Nat.le_add_right _ _)
  | optimize =>
    have o := optimize_spec r.trie r.tag hc
    have k := key ix d rfl rfl rfl (Nat.le_add_right _ _)
    refine ⟨k.nodes, k.tags, k.savable, ?_, ?_, ?_, ?_⟩
    · show ix.optimize.1.tagSets.length ≤ 255
      rw [o.2.2.2.2.2.1]; exact k.setTables
    · show ∀ i, (ix.optimize.1.tagSets.getD i []).length ≤ _
      rw [o.2.2.2.2.2.1]; exact k.sets
    · exact o.2.2.2.2.2.2.1.1.trans k.collTables
    · exact fun i => (o.2.2.2.2.2.2.1.2 i).trans (k.colls i)
  | reload =>
    rw [(reload_eq r.tag (s.allowed hs r .reload)).2.2]
    have k := key (Index.loaded Index.new ix) d (rebuildFold_other _ _).2.1 (rebuildFold_other _ _).2.2.1
      rfl (Nat.le_add_right _ _)
    refine ⟨k.nodes, ?_, ?_, k.setTables, k.sets, k.collTables, k.colls⟩
    · show (d.tags.map storedTag).length ≤ _
      rw [List.length_map]; exact k.tags
    · intro t ht
      obtain ⟨t', ht', rfl⟩ := List.mem_map.1 ht
      exact savable_stored (s.savable t' ht')

theorem Small.init {h : List Op} {op : Op} (hs : Small (h ++ [op])) : Small h := by
  obtain ⟨h1, h2, h3, h4⟩ := hs
  rw [List.map_append, List.sum_append] at h1
  rw [List.filter_append, List.length_append] at h2 h3
  exact ⟨by omega, by omega, by omega, fun o ho => h4 o (List.mem_append_left _ ho)⟩

theorem run_of_small (h : List Op) (hs : Small h) :
    Run h (execAll h) ∧ Sizes (execAll h) (dictOf h) h := by
  induction h using list_reverse_induction with
  | nil =>
    refine ⟨.nil, ?_⟩
    constructor <;> simp [execAll, dictOf, Dict.empty, Index.new]
  | snoc h op ih =>
    have hs' := hs.init
    obtain ⟨r, s⟩ := ih hs'
    have e : execAll (h ++ [op]) = op.exec (execAll h) := by unfold execAll; rw [List.foldl_append]; rfl
    have s' := s.step hs' r.refines.1 op (hs.plain op (by simp))
    rw [← dictOf_append, ← e] at s'
    refine ⟨?_, s'⟩
    have hf := s'.fits hs
    rw [e] at hf ⊢
    exact Run.step op r (s.allowed hs' r.refines.1 op) hf

end Verif
