import Verif.Lemmas.Readings

/-! # Helper lemmas: the same calls on two indexes with the same content -/

namespace Verif

/-- Two dictionaries that differ at most in the NUL flag. -/
structure Dict.Alike (a b : Dict) : Prop where
  nodes : b.nodes = a.nodes
  tags : b.tags = a.tags
  readings : b.readings = a.readings

theorem Dict.Alike.refl (d : Dict) : d.Alike d := ⟨rfl, rfl, rfl⟩

/-- The call adds no word that starts with NUL at the root. -/
def Op.NulFree : Op → Prop
  | .addRunes rs => rs.head? ≠ some 0
  | .addString w => (decodeRunes w).head? ≠ some 0
  | .addToNode id rs => id ≠ 0 ∨ rs.head? ≠ some 0
  | _ => True

theorem Dict.Alike.insert {a b : Dict} (h : a.Alike b) (p : Nat) (rs : List Rune)
    (hj : ∀ w, a.nodes[p]? = some w → b.join w rs = a.join w rs) : (a.insert p rs).Alike (b.insert p rs) := by
  unfold Dict.insert
  rw [h.nodes]
  cases hw : a.nodes[p]? with
  | none => exact h
  | some w =>
    simp only
    split
    · exact h
    · refine ⟨?_, h.tags, h.readings⟩
      simp only [hj w hw]

theorem Dict.Alike.spec {ix : Index} {a b : Dict} (ha : TrieOK ix a) (h : a.Alike b) (op : Op)
    (hop : a.nul = b.nul ∨ op.NulFree) : (op.spec a).Alike (op.spec b) := by
  have hjoin : ∀ (p : Nat) (rs : List Rune), (a.nul = b.nul ∨ p ≠ 0 ∨ rs.head? ≠ some 0) →
      ∀ w, a.nodes[p]? = some w → b.join w rs = a.join w rs := by
    intro p rs hz w hw
    rcases hz with hz | hz
    · unfold Dict.join; rw [hz]
    · by_cases hw0 : w = []
      · subst hw0
        rcases hz with hz | hz
        · exact absurd (ha.idx_unique hw ha.root) hz
        · rw [Dict.join_root (.inr hz), Dict.join_root (.inr hz)]
      · rw [Dict.join_of_ne hw0, Dict.join_of_ne hw0]
  have hht : b.hasTag = a.hasTag := by funext n; unfold Dict.hasTag; rw [h.tags]
  cases op with
  | addRunes rs =>
    exact h.insert 0 rs (hjoin 0 rs (hop.imp_right fun x => .inr x))
  | addString w =>
    exact h.insert 0 _ (hjoin 0 _ (hop.imp_right fun x => .inr x))
  | addToNode id rs =>
    exact h.insert _ rs (hjoin _ rs (hop.imp_right fun x => x.imp_left fun hx h0 =>
      hx (TrieOK.toNat_eq_zero.1 h0)))
  | tagID name parent =>
    simp only [Op.spec]
    rw [hht]
    split
    · exact h
    · exact ⟨h.nodes, by simp only [h.tags], h.readings⟩
  | addTagSet id names =>
    simp only [Op.spec]
    rw [hht, h.nodes]
    split
    · exact ⟨rfl, h.tags, by simp only [h.readings]⟩
    · exact h
  | reload => exact ⟨h.nodes, by simp only [Op.spec, h.tags], h.readings⟩
  | _ => exact h

theorem exec_tagSets_same {ix ix' : Index} {d d' : Dict} (r : Refines ix d) (hc : Caps ix) (r' : Refines ix' d')
    (hc' : Caps ix') (h : d.Alike d') (op : Op) (ha : op.Allowed ix d) (ha' : op.Allowed ix' d')
    (hs : ix'.tagSets = ix.tagSets) : (op.exec ix').tagSets = (op.exec ix).tagSets := by
  have hht : d'.hasTag = d.hasTag := by funext n; unfold Dict.hasTag; rw [h.tags]
  rw [exec_tagSets r hc op ha, exec_tagSets r' hc' op ha', hs]
  cases op with
  | addTagSet id names =>
    simp only
    rw [hht, h.nodes, h.tags]
  | _ => rfl

/-- Alike states stay alike under the same calls. -/
theorem parallel {h₁ h₂ : List Op} (h' : List Op) {ix₁ ix₂ jx₁ jx₂ : Index} (r₁ : Run h₁ ix₁) (r₂ : Run h₂ ix₂)
    (s₁ : Run (h₁ ++ h') jx₁) (s₂ : Run (h₂ ++ h') jx₂) (ha : (dictOf h₁).Alike (dictOf h₂))
    (hs : ix₂.tagSets = ix₁.tagSets)
    (hop : (dictOf h₁).nul = (dictOf h₂).nul ∨ ∀ op ∈ h', op.NulFree) :
    (dictOf (h₁ ++ h')).Alike (dictOf (h₂ ++ h')) ∧ jx₂.tagSets = jx₁.tagSets ∧
      ((dictOf h₁).nul = (dictOf h₂).nul → (dictOf (h₁ ++ h')).nul = (dictOf (h₂ ++ h')).nul) := by
  induction h' using list_reverse_induction generalizing jx₁ jx₂ with
  | nil =>
    simp only [List.append_nil] at *
    rw [← r₁.unique s₁, ← r₂.unique s₂]
    exact ⟨ha, hs, fun h => h⟩
  | snoc l op ih =>
    rw [← List.append_assoc] at s₁ s₂ ⊢
    rw [← List.append_assoc]
    obtain ⟨kx₁, t₁, a₁, _, rfl⟩ := s₁.snoc_inv
    obtain ⟨kx₂, t₂, a₂, _, rfl⟩ := s₂.snoc_inv
    obtain ⟨i1, i2, i3⟩ := ih t₁ t₂ (hop.imp_right fun h o ho => h o (List.mem_append_left _ ho))
    rw [dictOf_append, dictOf_append]
    refine ⟨?_, ?_, ?_⟩
    · refine i1.spec t₁.trie op ?_
      rcases hop with hop | hop
      · exact .inl (i3 hop)
      · exact .inr (hop op (by simp))
    · exact exec_tagSets_same t₁.refines.1 t₁.caps t₂.refines.1 t₂.caps i1 op a₁ a₂ i2
    · intro hn
      by_cases ho : op = .reload
      · subst ho
        simp only [Op.spec, i1.nodes]
      · rw [Op.spec_nul _ _ ho, Op.spec_nul _ _ ho]
        exact i3 hn

/-- No parent is the empty string: `TagID` and loading replace it. -/
theorem dictOf_parents (h : List Op) : ∀ t ∈ (dictOf h).tags, t.parent ≠ [] := by
  induction h using list_reverse_induction with
  | nil => simp [dictOf_nil, Dict.empty]
  | snoc l op ih =>
    rw [dictOf_append]
    have hins : ∀ d : Dict, ∀ p rs, (d.insert p rs).tags = d.tags := by
      intro d p rs; unfold Dict.insert; split
      · rfl
      · split <;> rfl
    cases op with
    | addRunes rs => simp only [Op.spec]; rw [hins]; exact ih
    | addString w => simp only [Op.spec]; rw [hins]; exact ih
    | addToNode id rs => simp only [Op.spec]; rw [hins]; exact ih
    | tagID name parent =>
      simp only [Op.spec]; split
      · exact ih
      · intro t ht
        rcases List.mem_append.1 ht with ht | ht
        · exact ih t ht
        · rw [List.mem_singleton] at ht
          subst ht
          unfold newTag
          simp only
          split
          · simp [emptyTagName]
          · assumption
    | addTagSet id names => simp only [Op.spec]; split <;> exact ih
    | reload =>
      intro t ht
      obtain ⟨t', _, rfl⟩ := List.mem_map.1 ht
      unfold storedTag storedName
      simp only
      split
      · simp [emptyTagName]
      · rename_i hh; exact fun h => hh (.inl h)
    | _ => exact ih

end Verif
