import Verif.Lemmas.Readings
import Verif.Lemmas.Cli

/-! # Helper lemmas: every stored tag set is a reading somebody attached -/

namespace Verif

/-- The stored set `s` is the one of a logged reading. -/
def Logged (d : Dict) (s : TagSet) : Prop :=
  ∃ k names ids, (k, names) ∈ d.readings ∧ names ≠ [] ∧ Index.findAll d.tags names = .ok ids ∧ s = sortAsc ids

theorem gGet_gIndex_inv {c : List (List TagSet)} {x s : TagSet} {p : Nat × Nat}
    (h : gGet (gIndex c x).1 p = some s) : (∃ q, gGet c q = some s) ∨ s = sortAsc x := by
  unfold gGet at h
  rw [gIndex_getD] at h
  split at h
  · rcases gTable_mem.1 (List.mem_of_getElem? h) with h | h
    · obtain ⟨i, hi⟩ := List.getElem?_of_mem h
      exact .inl ⟨(p.1, i), hi⟩
    · exact .inr h
  · exact .inl ⟨p, h⟩

theorem findAll_keep {tags tags' : List Tag} (h : ∀ n id, tagsFind tags n = some id → tagsFind tags' n = some id)
    {names : List Str} {ids : TagSet} (hf : Index.findAll tags names = .ok ids) :
    Index.findAll tags' names = .ok ids := by
  rw [findAll_ok] at *
  exact hf.imp fun _ _ e => h _ _ e

theorem readings_spec_mono (d : Dict) (op : Op) : ∀ e ∈ d.readings, e ∈ (op.spec d).readings := by
  intro e he
  cases op <;> simp only [Op.spec, Dict.insert]
  case addTagSet => split <;> simp [he]
  all_goals first
    | exact he
    | (split <;> first | exact he | (split <;> exact he))

/-- Nothing else is ever stored. -/
theorem Run.logged {h : List Op} {ix : Index} (r : Run h ix) :
    ∀ p s, gGet ix.tagSets p = some s → Logged (dictOf h) s := by
  induction r with
  | nil => intro p s h; simp [Index.new, gGet] at h
  | @step h ix op r ha hf ih =>
    have r' : Run (h ++ [op]) (op.exec ix) := Run.step op r ha hf
    have hkeep : ∀ s, Logged (dictOf h) s → Logged (dictOf (h ++ [op])) s := by
      rintro s ⟨k, names, ids, h1, h2, h3, h4⟩
      refine ⟨k, names, ids, ?_, h2, findAll_keep (fun n id => r'.find_mono n id) h3, h4⟩
      rw [dictOf_append]
      exact readings_spec_mono _ _ _ h1
    intro p s hp
    rw [exec_tagSets r.refines.1 r.caps op ha] at hp
    split at hp
    · rename_i id names _
      split at hp
      · rename_i hok
        obtain ⟨ids, hids⟩ := all_hasTag_iff.1 hok.1
        rw [hids] at hp
        simp only at hp
        by_cases hi : ids = []
        · subst hi
          exact hkeep s (ih p s hp)
        · rw [TagSetIndex.index_eq _ hi] at hp
          rcases gGet_gIndex_inv hp with ⟨q, hq⟩ | rfl
          · exact hkeep s (ih q s hq)
          · refine ⟨id.toNat, names, ids, ?_, ?_, findAll_keep (fun n id => r'.find_mono n id) hids, rfl⟩
            · rw [dictOf_append]
              simp only [Op.spec]
              rw [if_pos hok]
              exact List.mem_append_right _ (List.mem_singleton.2 rfl)
            · intro h0
              rw [h0] at hids
              exact hi (List.length_eq_zero_iff.1 (findAll_length hids))
      · exact hkeep s (ih p s hp)
    · exact hkeep s (ih p s hp)

theorem shownTags_eq {h : List Op} {ix : Index} (r : Run h ix) {p : Nat × Nat} {s : TagSet}
    (hp : gGet ix.tagSets p = some s) : shownTags ix s = s.map fun t => some (tagOf ix.tags t).name := by
  unfold shownTags
  apply List.map_congr_left
  intro t ht
  have hlt := r.tag.setIds p s hp t ht
  unfold tagOf
  rw [r.tag.tags, tagsGet_eq, List.getElem?_eq_getElem hlt]
  rfl

end Verif
