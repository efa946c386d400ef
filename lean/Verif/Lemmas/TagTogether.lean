import Verif.Lemmas.TagRaces
import Verif.Lemmas.Readings

/-! # Calls at the same time on an index that came about by calls -/

namespace Verif

variable {h : List Op} {ix : Index}

/-- Known names, an existing node: the call gets to its end. -/
theorem Run.tags (r : Run h ix) {id : ID} {names : List Str} (hn : names.all (dictOf h).hasTag = true) (h0 : 0 < id.toNat)
    (h1 : id.toNat < (dictOf h).nodes.length) : ∃ s item c, TCall.Tags ix id names s item c ∧
      CollOf ix.collectionIdx item.variants c ∧
      (∀ x, x ∈ c ↔ ∃ n, (id.toNat, n) ∈ (dictOf h).readings ∧ TSId (dictOf h).tags ix.tagSets n x) := by
  obtain ⟨s, hs⟩ := all_hasTag_iff.1 hn
  obtain ⟨it, w, hg, hit, _⟩ := r.trie.items_get h0 h1
  obtain ⟨c, hc, hm⟩ := r.tag.vars id.toNat it h1 hit
  exact ⟨s, it, c, ⟨by rw [r.tag.tags]; exact hs, hg, hc.get r.caps⟩, hc, hm⟩

theorem TCall.Tags.unique {id : ID} {names : List Str} {s s' : TagSet} {item item' : Item} {c c' : Coll}
    (t : TCall.Tags ix id names s item c) (t' : TCall.Tags ix id names s' item' c') : s' = s ∧ item' = item ∧ c' = c := by
  obtain ⟨h1, h2, h3⟩ := t
  obtain ⟨h1', h2', h3'⟩ := t'
  rw [h1] at h1'
  rw [h2] at h2'
  cases h1'
  cases h2'
  rw [h3] at h3'
  cases h3'
  exact ⟨rfl, rfl, rfl⟩

/-- The call gets to its end only with known names and an existing node. -/
theorem Run.tags_inv (r : Run h ix) {id : ID} {names : List Str} {s : TagSet} {item : Item} {c : Coll}
    (t : TCall.Tags ix id names s item c) : names.all (dictOf h).hasTag = true ∧ 0 < id.toNat ∧
      id.toNat < (dictOf h).nodes.length := by
  refine ⟨all_hasTag_iff.2 ⟨s, by rw [← r.tag.tags]; exact t.names⟩, ?_⟩
  have := t.node
  unfold Items.get at this
  split at this
  · cases this
  · split at this
    · cases this
    · rw [r.trie.next] at *
      omega

/-- No reading yet: no collection yet. -/
theorem Run.untagged_iff (r : Run h ix) {id : ID} {names : List Str} {s : TagSet} {item : Item} {c : Coll}
    (t : TCall.Tags ix id names s item c) : item.variants = 0 ↔ ∀ n, (id.toNat, n) ∉ (dictOf h).readings := by
  obtain ⟨hn, h0, h1⟩ := r.tags_inv t
  obtain ⟨s', it', c', t', hc, hm⟩ := r.tags hn h0 h1
  obtain ⟨rfl, rfl, rfl⟩ := t.unique t'
  rw [hc.zero_iff r.caps r.tag.colls]
  constructor
  · rintro rfl n hn
    obtain ⟨_, _, x, hx⟩ := r.tag.readings _ _ hn
    have := (hm x).2 ⟨n, hn, hx⟩
    cases this
  · intro hno
    refine List.eq_nil_iff_forall_not_mem.2 fun x hx => ?_
    obtain ⟨n, hn, _⟩ := (hm x).1 hx
    exact hno n hn

theorem TSId.perm_names {tags : List Tag} {sets : TagSetIndex} (hn : (tags.map (·.name)).Nodup) (hl : tags.length ≤ 256)
    {n n' : List Str} {x : TagSetID} (hp : n.Perm n') {ids' : TagSet} (hids : Index.findAll tags n' = .ok ids')
    (ht : TSId tags sets n x) : TSId tags sets n' x := by
  obtain ⟨ids, h1, h2⟩ := ht
  have hp' := (findAll_perm hn hl h1 hids).2 hp
  refine ⟨ids', hids, ?_⟩
  rcases h2 with ⟨rfl, rfl⟩ | ⟨h2, p, hp2, rfl⟩
  · exact .inl ⟨List.nil_perm.1 hp', rfl⟩
  · refine .inr ⟨fun e => h2 ?_, p, ?_, rfl⟩
    · subst e; exact List.perm_nil.1 hp'
    · rw [← sortAsc_eq_iff_perm.2 hp']; exact hp2

/-- A call that tags a word as another word is tagged already writes the word's own node only. -/
theorem Run.writes_own (r : Run h ix) {id : ID} {names : List Str} (hseen : (dictOf h).Seen id.toNat names) {l : TLoc}
    (hw : TCall.Writes ix (.addTagSet id names) l) : l = .variants id := by
  obtain ⟨⟨n0, hn0⟩, k', hk'⟩ := hseen
  have hl : (dictOf h).tags.length ≤ 256 := r.refines.2.tags
  have main : ∀ s item c, TCall.Tags ix id names s item c → item.variants ≠ 0 ∧
      (s ≠ [] → s.length ≤ ix.tagSets.length ∧ sortAsc s ∈ ix.tagSets.getD (s.length - 1) []) ∧
      TCall.column (TCall.after ix s c) < ix.collectionIdx.length ∧
      sortAsc (TCall.after ix s c) ∈ ix.collectionIdx.getD (TCall.column (TCall.after ix s c)) [] := by
    intro s item c t
    obtain ⟨hn, h0, h1⟩ := r.tags_inv t
    obtain ⟨s', it', c', t', hc, hm⟩ := r.tags hn h0 h1
    obtain ⟨rfl, rfl, rfl⟩ := t.unique t'
    have hs : Index.findAll (dictOf h).tags names = .ok s' := by rw [← r.tag.tags]; exact t'.names
    -- the reading is known
    obtain ⟨m, hmr, hmp⟩ := (hk' names).2 (.inr (List.Perm.refl _))
    obtain ⟨hk0, hk1, x, hx⟩ := r.tag.readings _ _ hmr
    have hx' : TSId (dictOf h).tags ix.tagSets names x := hx.perm_names r.tag.names hl hmp hs
    have hset : s' ≠ [] → ∃ p, gGet ix.tagSets p = some (sortAsc s') ∧ x = packTS p := by
      intro hne
      obtain ⟨ids, h1, h2⟩ := hx'
      rw [hs] at h1
      cases h1
      rcases h2 with ⟨h2, _⟩ | ⟨_, p, hp, e⟩
      · exact absurd h2 hne
      · exact ⟨p, hp, e⟩
    have hid : (ix.tagSets.index s').2 = x := by
      by_cases hne : s' = []
      · obtain ⟨ids, h1, h2⟩ := hx'
        rw [hs] at h1
        cases h1
        rcases h2 with ⟨_, h2⟩ | ⟨h2, _⟩
        · rw [h2, hne]; rfl
        · exact absurd hne h2
      · obtain ⟨p, hp, e⟩ := hset hne
        rw [TagSetIndex.index_eq _ hne, gIndex_of_present r.tag.sets hne hp, e]
    -- the collection is known
    obtain ⟨it2, w2, hit2⟩ : ∃ it w, ix.items.items[k']? = some it ∧ (dictOf h).nodes[k']? = some (w ++ [it.letter]) := by
      obtain ⟨it, w, a, _, _, _, b⟩ := r.trie.item k' hk0 hk1
      exact ⟨it, w, a, b⟩
    obtain ⟨c2, hc2, hm2⟩ := r.tag.vars k' it2 hk1 hit2.1
    have hnd : ∀ {v : VariantID} {c : Coll}, CollOf ix.collectionIdx v c → c.Nodup := by
      rintro v c (⟨_, rfl⟩ | ⟨p, hp, _⟩)
      · exact List.nodup_nil
      · exact r.tag.collNodup p c hp
    have hafter : TCall.after ix s' c' = c2 := by
      unfold TCall.after
      rw [hid]
      refine eq_of_perm_of_sorted (Coll.add_sorted (hc.sorted r.tag.colls) x) (hc2.sorted r.tag.colls)
        ((List.perm_ext_iff_of_nodup (Coll.nodup_add (hnd hc) x) (hnd hc2)).2 fun y => ?_)
      rw [Coll.mem_add, hm, hm2]
      constructor
      · rintro (⟨n, hn, hy⟩ | rfl)
        · obtain ⟨n', hn', hp⟩ := (hk' n).2 (.inl ⟨n, hn, List.Perm.refl _⟩)
          obtain ⟨_, _, z, ids, hz, _⟩ := r.tag.readings _ _ hn'
          exact ⟨n', hn', hy.perm_names r.tag.names hl hp.symm hz⟩
        · exact ⟨m, hmr, hx⟩
      · rintro ⟨n, hn, hy⟩
        rcases (hk' n).1 ⟨n, hn, List.Perm.refl _⟩ with ⟨n', hn', hp⟩ | hp
        · obtain ⟨_, _, z, ids, hz, _⟩ := r.tag.readings _ _ hn'
          exact .inl ⟨n', hn', hy.perm_names r.tag.names hl hp.symm hz⟩
        · exact .inr ((hy.perm_names r.tag.names hl hp hs).unique r.tag.sets hx')
    have hne2 : c2 ≠ [] := by rw [← hafter]; exact Coll.add_ne_nil _ _
    refine ⟨?_, ?_, ?_⟩
    · rw [Ne, r.untagged_iff t']
      exact fun hno => hno n0 hn0
    · intro hne
      obtain ⟨p, hp, e⟩ := hset hne
      have h1 := (gGet_sorted r.tag.sets hp).2
      have h2 := gGet_col_lt hp
      rw [length_sortAsc] at h1
      have e : s'.length - 1 = p.1 := by omega
      refine ⟨by omega, ?_⟩
      rw [e]
      exact gGet_mem hp
    · rw [hafter]
      rcases hc2 with ⟨_, e⟩ | ⟨p, hp, e⟩
      · exact absurd e hne2
      · have h1 := (gGet_sorted r.tag.colls hp).2
        have h2 := gGet_col_lt hp
        have h3 := r.caps.collTables
        have e : TCall.column c2 = p.1 := by
          unfold TCall.column
          rw [Nat.mod_eq_of_lt (by omega)]
          omega
        rw [e]
        refine ⟨h2, ?_⟩
        rw [sortAsc_of_sorted (gGet_sorted r.tag.colls hp).1]
        exact gGet_mem hp
  cases hw with
  | node t => rfl
  | count t h0 => exact absurd h0 (main _ _ _ t).1
  | @sets _ _ s _ _ t h0 =>
    have hne : s ≠ [] := by rintro rfl; simp at h0
    have := ((main _ _ _ t).2.1 hne).1
    omega
  | @setTables _ _ s _ _ j t h0 h1 =>
    have hne : s ≠ [] := by rintro rfl; simp at h1
    have := ((main _ _ _ t).2.1 hne).1
    omega
  | set t h0 h1 => exact absurd ((main _ _ _ t).2.1 h0).2 h1
  | colls t h0 =>
    have := (main _ _ _ t).2.2.1
    omega
  | collTables t h0 h1 =>
    have := (main _ _ _ t).2.2.1
    omega
  | coll t h0 => exact absurd (main _ _ _ t).2.2.2 h0

end Verif
