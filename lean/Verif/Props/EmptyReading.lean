import Verif.Props.Tagging

/-!
# C10 — `AddTagSet` with no tags

The property does not hold. The theorems say exactly what `TagSets` shows for a node to which an empty reading was
attached: the empty reading appears as *the first one-tag reading attached to any node of the index*; and
as long as there is none, every reading of the node is hidden.
-/

namespace Verif

/-- What is shown, once a one-tag reading exists anywhere. -/
theorem C10_shown {h : List Op} {ix : Index} (r : Run h ix) (n : ID)
    (hn : 1 ≤ n.toNat ∧ n.toNat ≤ ix.nodesCount) (x : Str) (hx : (dictOf h).firstSingle = some x) :
    ∃ L, ix.tagSetsOf n = .ok L ∧
      ExactReadings ix.tags (((dictOf h).attached n.toNat).map fun names => if names = [] then [x] else names)
        L := by
  have hpos := r.trie.length_pos
  rw [r.trie.nodesCount] at hn
  obtain ⟨c, _, hnd, hm, he⟩ := tagSetsOf_eq r.refines.1 r.caps (id := n) (by omega) (by omega)
  have hfs := r.firstSet
  rw [hx] at hfs
  simp only [Option.bind_some] at hfs
  obtain ⟨⟨k, names⟩, hmr, hnm⟩ := List.exists_of_findSome?_eq_some hx
  have hone : names = [x] := singleName_some hnm
  subst hone
  obtain ⟨_, _, _, ids, hids, _⟩ := r.tag.readings k [x] hmr
  have hall := all_hasTag_iff (d := dictOf h).2 ⟨ids, hids⟩
  simp only [List.all_cons, List.all_nil, Bool.and_true] at hall
  obtain ⟨i, hi⟩ := hasTag_iff.1 hall
  rw [hi] at hfs
  simp only [Option.map_some] at hfs
  have hfa : Index.findAll (dictOf h).tags [x] = .ok [i] := by
    rw [findAll_ok]; exact List.Forall₂.cons hi List.Forall₂.nil
  have h0 : TSId (dictOf h).tags ix.tagSets [x] 0 :=
    ⟨[i], hfa, .inr ⟨by simp, (0, 0), hfs, rfl⟩⟩
  have hempty : ∀ j, TSId (dictOf h).tags ix.tagSets [] j ↔ TSId (dictOf h).tags ix.tagSets [x] j := by
    intro j
    have he : TSId (dictOf h).tags ix.tagSets [] 0 := ⟨[], rfl, .inl ⟨rfl, rfl⟩⟩
    constructor
    · intro hj; rw [hj.unique r.tag.sets he]; exact h0
    · intro hj; rw [hj.unique r.tag.sets h0]; exact he
  have hsub : ∀ names j, TSId (dictOf h).tags ix.tagSets names j ↔
      TSId (dictOf h).tags ix.tagSets (if names = [] then [x] else names) j := by
    intro names j
    by_cases hz : names = []
    · subst hz; rw [if_pos rfl]; exact hempty j
    · rw [if_neg hz]
  refine ⟨_, he, ?_⟩
  rw [r.tag.tags]
  refine exactReadings_coll r.refines.1 r.caps r.refines.2.tags hnd ?_ ?_ ?_
  · intro hmem
    obtain ⟨names, _, hz⟩ := List.mem_map.1 hmem
    split at hz
    · cases hz
    · rename_i hne; exact hne hz
  · intro names hmem
    obtain ⟨nm, hnm, rfl⟩ := List.mem_map.1 hmem
    obtain ⟨_, _, j, hj⟩ := r.tag.readings _ nm (mem_attached.1 hnm)
    exact ⟨j, (hsub nm j).1 hj⟩
  · intro j
    rw [hm j]
    constructor
    · rintro ⟨nm, hnm, hj⟩
      exact ⟨_, List.mem_map.2 ⟨nm, hnm, rfl⟩, (hsub nm j).1 hj⟩
    · rintro ⟨_, hmem, hj⟩
      obtain ⟨nm, hnm, rfl⟩ := List.mem_map.1 hmem
      exact ⟨nm, hnm, (hsub nm j).2 hj⟩

/-- What is shown before any one-tag reading exists: nothing of what was attached, only empty entries. -/
theorem C10_hidden {h : List Op} {ix : Index} (r : Run h ix) (n : ID)
    (hn : 1 ≤ n.toNat ∧ n.toNat ≤ ix.nodesCount) (hx : (dictOf h).firstSingle = none)
    (hempty : [] ∈ (dictOf h).attached n.toNat) :
    ∃ L, ix.tagSetsOf n = .ok L ∧ L ≠ [] ∧ ∀ t ∈ L, t = [] := by
  have hpos := r.trie.length_pos
  rw [r.trie.nodesCount] at hn
  obtain ⟨c, hs, hnd, hm, he⟩ := tagSetsOf_eq r.refines.1 r.caps (id := n) (by omega) (by omega)
  have hfs := r.firstSet
  rw [hx] at hfs
  have h0 : (0 : TagSetID) ∈ c := (hm 0).2 ⟨[], hempty, [], rfl, .inl ⟨rfl, rfl⟩⟩
  refine ⟨_, he, ?_⟩
  cases c with
  | nil => simp at h0
  | cons a rest =>
    have ha : a = 0 := by
      rcases List.mem_cons.1 h0 with h | h
      · exact h.symm
      · have hle := (List.pairwise_cons.1 hs).1 0 h
        have hle' : a.toNat ≤ (0 : UInt32).toNat := hle
        have hz : (0 : UInt32).toNat = 0 := rfl
        exact UInt32.toNat_inj.1 (by omega)
    subst ha
    unfold Index.tagSetsLoop
    have hg : ix.tagSets.get 0 = none := by
      rw [TagSetIndex.get_eq]; exact hfs
    rw [hg]
    simp only
    exact ⟨by simp, fun t ht => List.eq_of_mem_replicate ht⟩

/-! ## Counterexamples -/

/-- Words "a" (node 1) and "b" (node 2); "a" is a noun, "b" gets an empty reading. -/
def emptyForeign : List Op :=
  [.tagID [78, 79, 85, 78] [], .addRunes [97], .addRunes [98], .addTagSet 1 [[78, 79, 85, 78]], .addTagSet 2 []]

/-- C10 does not hold: "b" is reported to be a noun, which nobody said. -/
theorem not_C10_foreign : Run emptyForeign (execAll emptyForeign) ∧ (dictOf emptyForeign).attached 2 = [[]] ∧
    (execAll emptyForeign).tagSetsOf 2 = .ok [[newTag [] [78, 79, 85, 78]]] :=
  ⟨small_runs _ (by decide), by decide, by decide⟩

/-- Word "a" with the reading noun+verb, then an empty reading. -/
def emptyHides : List Op :=
  [.tagID [78, 79, 85, 78] [], .tagID [86, 69, 82, 66] [], .addRunes [97],
   .addTagSet 1 [[78, 79, 85, 78], [86, 69, 82, 66]], .addTagSet 1 []]

/-- C10 does not hold: the attached reading has disappeared. -/
theorem not_C10_hidden : Run emptyHides (execAll emptyHides) ∧
    [[78, 79, 85, 78], [86, 69, 82, 66]] ∈ (dictOf emptyHides).attached 1 ∧
    (execAll emptyHides).tagSetsOf 1 = .ok [[], []] :=
  ⟨small_runs _ (by decide), by decide, by decide⟩

/-- "a" gets an empty reading; later "b" is tagged. -/
def emptyDisturbed : List Op :=
  [.tagID [78, 79, 85, 78] [], .addRunes [97], .addRunes [98], .addTagSet 1 []]

/-- Without the exclusion, C13 would not hold: tagging "b" changes the answer for "a". -/
theorem not_C10_isolation : Run (emptyDisturbed ++ [.addTagSet 2 [[78, 79, 85, 78]]])
      (execAll (emptyDisturbed ++ [.addTagSet 2 [[78, 79, 85, 78]]])) ∧
    (execAll emptyDisturbed).tagSetsOf 1 = .ok [[]] ∧
    (execAll (emptyDisturbed ++ [.addTagSet 2 [[78, 79, 85, 78]]])).tagSetsOf 1 =
      .ok [[newTag [] [78, 79, 85, 78]]] :=
  ⟨small_runs _ (by decide), by decide, by decide⟩

/-- C10, the part that holds: an empty `AddTagSet` on a node leaves the answers for all other nodes (without empty
readings themselves) alone. -/
theorem C10_partial {h : List Op} {ix ix' : Index} (r : Run h ix) (n m : ID) (hnm : n ≠ m)
    (r' : Run (h ++ [.addTagSet n []]) ix') (hm : 1 ≤ m.toNat ∧ m.toNat ≤ ix.nodesCount)
    (hne : [] ∉ (dictOf h).attached m.toNat) : ix'.tagSetsOf m = ix.tagSetsOf m := by
  refine C13 r r' ?_ m hm ?_ hne
  · unfold NoReload; simp
  · intro names; simp; intro h; exact absurd h.symm hnm

example : Run (sampleHistory ++ [.addTagSet 4 []]) (execAll (sampleHistory ++ [.addTagSet 4 []])) ∧
    [] ∉ (dictOf sampleHistory).attached 2 :=
  ⟨small_runs _ (by decide), by decide⟩

end Verif
