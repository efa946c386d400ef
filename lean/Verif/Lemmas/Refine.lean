import Verif.Lemmas.Reload
import Verif.Spec.Queries

/-! # Helper lemmas: every run of the index refines the dictionary specification -/

namespace Verif

structure Refines (ix : Index) (d : Dict) : Prop where
  trie : TrieOK ix d
  tag : TagOK ix d

theorem Refines.obs {ix ix' : Index} {d : Dict} (h : Refines ix d) (ho : Index.Obs ix ix') : Refines ix' d :=
  ⟨h.trie.obs ho, h.tag.grow (.of_obs ho _) (List.prefix_refl _) rfl rfl⟩

/-- What adding does, success or not. -/
theorem Refines.addToNode {ix : Index} {d : Dict} (h : Refines ix d) (id : ID) (rs : List Rune)
    (hf : (d.insert id.toNat rs).nodes.length < 4294967296) :
    Refines (ix.addToNode id rs).1 (d.insert id.toNat rs) := by
  unfold Dict.insert at hf ⊢
  cases hw : d.nodes[id.toNat]? with
  | none =>
    rw [(h.trie.addToNode_err id rs (.inl hw)).1]
    exact h
  | some w =>
    rw [hw] at hf
    simp only at hf ⊢
    by_cases hrs : rs = []
    · rw [if_pos hrs, (h.trie.addToNode_err id rs (.inr hrs)).1]
      exact h
    · rw [if_neg hrs] at hf ⊢
      obtain ⟨c, _, h2, _, h4, _⟩ := h.trie.addLoop_spec id id w rs hw hrs hf
      exact ⟨h2.congr rfl rfl rfl rfl, h.tag.grow h4 (addAll_prefix _ _) rfl rfl⟩

theorem decodeRunes_nil : decodeRunes [] = [] := by rfl

theorem Dict.insert_nil (d : Dict) (p : Nat) : d.insert p [] = d := by
  unfold Dict.insert
  cases d.nodes[p]? <;> simp

theorem Refines.addString {ix : Index} {d : Dict} (h : Refines ix d) (w : Str)
    (hf : (d.insert 0 (decodeRunes w)).nodes.length < 4294967296) :
    Refines (ix.addString w).1 (d.insert 0 (decodeRunes w)) := by
  unfold Index.addString
  split
  · rename_i hw
    have := List.length_eq_zero_iff.1 hw
    subst this
    rw [decodeRunes_nil, Dict.insert_nil]
    exact h
  · exact h.addToNode 0 _ hf

theorem Refines.step {ix : Index} {d : Dict} (h : Refines ix d) (hc : Caps ix)
    (hl : d.tags.length ≤ 256) (op : Op) (ha : op.Allowed ix d)
    (hf : (op.spec d).nodes.length < 4294967296) : Refines (op.exec ix) (op.spec d) := by
  cases op with
  | addRunes rs => exact h.addToNode 0 rs hf
  | addString w => exact h.addString w hf
  | addToNode id rs => exact h.addToNode id rs hf
  | fetchFromItem id rs => exact h.obs (fetchFromItem_obs ix id rs)
  | fetchItemFromParent id rs => exact h.obs (fetchItemFromParent_obs ix id rs)
  | fetchRunes rs => exact h.obs (fetchFromItem_obs ix 0 rs)
  | fetchString w => exact h.obs (fetchFromItem_obs ix 0 _)
  | tagID name parent =>
    refine ⟨h.trie.congr ?_ ?_ ?_ ?_, h.tag.tagID name parent⟩
    · rfl
    · rfl
    · simp only [Op.spec]; split <;> rfl
    · simp only [Op.spec]; split <;> rfl
  | addTagSet id names =>
    by_cases hn : names.all d.hasTag = true ∧ 0 < id.toNat ∧ id.toNat < d.nodes.length
    · obtain ⟨ids, hids⟩ := all_hasTag_iff.1 hn.1
      have := h.tag.addTagSet_ok h.trie hc hl id names hn.2.1 hn.2.2 hids
      have hs : (Op.addTagSet id names).spec d = { d with readings := d.readings ++ [(id.toNat, names)] } := by
        simp only [Op.spec]; rw [if_pos hn]
      rw [hs]
      exact ⟨this.2.2, this.2.1⟩
    · have hs : (Op.addTagSet id names).spec d = d := by
        simp only [Op.spec]; rw [if_neg hn]
      rw [hs]
      simp only [Op.exec]
      rw [h.tag.addTagSet_err h.trie id names hn]
      exact h
  | optimize =>
    have := optimize_spec h.trie h.tag hc
    exact ⟨this.2.1, this.2.2.1⟩
  | reload =>
    rw [(reload_eq h.tag ha).2.2]
    have := reload_spec h.trie h.tag hc ha.2
    exact ⟨this.1, this.2⟩

theorem dictOf_nil : dictOf [] = Dict.empty := rfl

theorem dictOf_append (h : List Op) (op : Op) : dictOf (h ++ [op]) = op.spec (dictOf h) := by
  unfold dictOf; rw [List.foldl_append]; rfl

theorem Fits.new : Fits Index.new Dict.empty := by
  constructor <;> simp [Dict.empty, Index.new]

/-- Everything a run guarantees. -/
theorem Run.refines {h : List Op} {ix : Index} (r : Run h ix) :
    Refines ix (dictOf h) ∧ Fits ix (dictOf h) := by
  induction r with
  | nil => exact ⟨⟨TrieOK.new, TagOK.new⟩, Fits.new⟩
  | step op _ ha hf ih =>
    refine ⟨?_, hf⟩
    rw [dictOf_append] at hf ⊢
    exact ih.1.step ih.2.caps ih.2.tags op ha hf.nodes

theorem Run.trie {h : List Op} {ix : Index} (r : Run h ix) : TrieOK ix (dictOf h) := r.refines.1.trie
theorem Run.tag {h : List Op} {ix : Index} (r : Run h ix) : TagOK ix (dictOf h) := r.refines.1.tag
theorem Run.caps {h : List Op} {ix : Index} (r : Run h ix) : Caps ix := r.refines.2.caps

theorem Run.eq {h : List Op} {ix : Index} (r : Run h ix) : ix = execAll h := by
  induction r with
  | nil => rfl
  | step op _ _ _ ih => unfold execAll; rw [List.foldl_append, ih]; rfl

theorem Run.unique {h : List Op} {ix ix' : Index} (r : Run h ix) (r' : Run h ix') : ix = ix' := by
  rw [r.eq, r'.eq]

theorem Run.snoc_inv {h : List Op} {op : Op} {ix' : Index} (r : Run (h ++ [op]) ix') :
    ∃ ix, Run h ix ∧ op.Allowed ix (dictOf h) ∧ Fits (op.exec ix) (dictOf (h ++ [op])) ∧
      ix' = op.exec ix := by
  generalize hl : h ++ [op] = l at r
  cases r with
  | nil => simp at hl
  | step op' r ha hf =>
    obtain ⟨rfl, hop⟩ := List.append_inj' hl rfl
    obtain rfl : op = op' := by simpa using hop
    exact ⟨_, r, ha, by rw [hl] at *; exact hf, rfl⟩

/-- A run passes through the state after any initial part of its history. -/
theorem Run.before {h h' : List Op} {ix' : Index} (r : Run (h ++ h') ix') : ∃ ix, Run h ix := by
  induction h' using list_reverse_induction generalizing ix' with
  | nil => rw [List.append_nil] at r; exact ⟨_, r⟩
  | snoc l op ih =>
    rw [← List.append_assoc] at r
    obtain ⟨ix, r', _⟩ := r.snoc_inv
    exact ih r'

/-! ## Facts about the specification alone -/

theorem Op.spec_nodes_prefix (d : Dict) (op : Op) : d.nodes <+: (op.spec d).nodes := by
  have hins : ∀ p rs, d.nodes <+: (d.insert p rs).nodes := by
    intro p rs
    unfold Dict.insert
    split
    · exact List.prefix_refl _
    · split
      · exact List.prefix_refl _
      · exact addAll_prefix _ _
  cases op with
  | addRunes rs => exact hins _ _
  | addString w => exact hins _ _
  | addToNode id rs => exact hins _ _
  | tagID name parent => simp only [Op.spec]; split <;> exact List.prefix_refl _
  | addTagSet id names => simp only [Op.spec]; split <;> exact List.prefix_refl _
  | _ => exact List.prefix_refl _

theorem dictOf_nodes_prefix (h h' : List Op) : (dictOf h).nodes <+: (dictOf (h ++ h')).nodes := by
  induction h' using list_reverse_induction with
  | nil => rw [List.append_nil]; exact List.prefix_refl _
  | snoc l op ih =>
    rw [← List.append_assoc, dictOf_append]
    exact ih.trans (Op.spec_nodes_prefix _ op)

theorem prefix_getElem? {α : Type} {l l' : List α} (h : l <+: l') {k : Nat} {a : α} (hk : l[k]? = some a) :
    l'[k]? = some a := by
  obtain ⟨e, rfl⟩ := h
  rw [List.getElem?_append_left (List.getElem?_eq_some_iff.1 hk).1]
  exact hk

/-- Words with a node are the prefixes of the added ones. -/
theorem Op.spec_words (d : Dict) (op : Op)
    (h : ∀ w, w ∈ d.nodes ↔ w = [] ∨ ∃ v ∈ d.words, w <+: v) :
    ∀ w, w ∈ (op.spec d).nodes ↔ w = [] ∨ ∃ v ∈ (op.spec d).words, w <+: v := by
  have hins : ∀ p rs w, w ∈ (d.insert p rs).nodes ↔ w = [] ∨ ∃ v ∈ (d.insert p rs).words, w <+: v := by
    intro p rs w
    unfold Dict.insert
    split
    · exact h w
    · split
      · exact h w
      · rename_i w' hw' _
        simp only [mem_addAll, mem_prefixes, h w, List.mem_append, List.mem_singleton]
        constructor
        · rintro ((h1 | ⟨v, hv, hp⟩) | ⟨_, hp⟩)
          · exact .inl h1
          · exact .inr ⟨v, .inl hv, hp⟩
          · exact .inr ⟨_, .inr rfl, hp⟩
        · rintro (h1 | ⟨v, hv | rfl, hp⟩)
          · exact .inl (.inl h1)
          · exact .inl (.inr ⟨v, hv, hp⟩)
          · by_cases h0 : w = []
            · exact .inl (.inl h0)
            · exact .inr ⟨h0, hp⟩
  cases op with
  | addRunes rs => exact hins _ _
  | addString w => exact hins _ _
  | addToNode id rs => exact hins _ _
  | tagID name parent => simp only [Op.spec]; split <;> exact h
  | addTagSet id names => simp only [Op.spec]; split <;> exact h
  | _ => exact h

theorem dictOf_words (h : List Op) :
    ∀ w, w ∈ (dictOf h).nodes ↔ w = [] ∨ ∃ v ∈ (dictOf h).words, w <+: v := by
  induction h using list_reverse_induction with
  | nil => simp [dictOf_nil, Dict.empty]
  | snoc l op ih => rw [dictOf_append]; exact Op.spec_words _ op ih

theorem Op.spec_nul (d : Dict) (op : Op) (h : op ≠ .reload) : (op.spec d).nul = d.nul := by
  have hins : ∀ p rs, (d.insert p rs).nul = d.nul := by
    intro p rs; unfold Dict.insert; split
    · rfl
    · split <;> rfl
  cases op with
  | addRunes rs => exact hins _ _
  | addString w => exact hins _ _
  | addToNode id rs => exact hins _ _
  | tagID name parent => simp only [Op.spec]; split <;> rfl
  | addTagSet id names => simp only [Op.spec]; split <;> rfl
  | reload => exact absurd rfl h
  | _ => rfl

theorem dictOf_nul_append (h h' : List Op) (hr : NoReload h') : (dictOf (h ++ h')).nul = (dictOf h).nul := by
  induction h' using list_reverse_induction with
  | nil => rw [List.append_nil]
  | snoc l op ih =>
    have h1 : NoReload l := fun hm => hr (List.mem_append_left _ hm)
    have h2 : op ≠ .reload := by rintro rfl; exact hr (by simp)
    rw [← List.append_assoc, dictOf_append, Op.spec_nul _ _ h2, ih h1]

theorem dictOf_nul (h : List Op) (hr : NoReload h) : (dictOf h).nul = false := by
  have := dictOf_nul_append [] h hr
  simpa [dictOf_nil, Dict.empty] using this

/-- The usual case: reaching `q` from the root means the word `q`. -/
theorem Dict.join_root {d : Dict} {q : List Rune} (h : d.nul = false ∨ NoLeadingNul q) : d.join [] q = q := by
  unfold Dict.join
  split
  · rename_i hn
    rcases h with h | h
    · rw [h] at hn; simp at hn
    · cases q with
      | nil => rfl
      | cons a l =>
        have : a ≠ 0 := by simpa [NoLeadingNul] using h
        rw [List.dropWhile_cons_of_neg (by simpa using this)]
  · rfl

theorem Dict.join_of_ne {d : Dict} {w : List Rune} (h : w ≠ []) (q : List Rune) : d.join w q = w ++ q := by
  unfold Dict.join
  rw [if_neg (by simp [h])]

end Verif
