import Verif.Lemmas.Texts
import Verif.Lemmas.Alike

/-!
# C79 — printed texts say what was printed, and say it the same every time
-/

namespace Verif

/-- C79: different tag sets, tables of tag sets, and collections of readings have different texts. -/
theorem C79_stored : (∀ s t : List UInt8, tagSetText s = tagSetText t → s = t) ∧
    (∀ s t : List (List UInt8), tagSetTableText s = tagSetTableText t → s = t) ∧
    ∀ s t : List TagSetID, collectionText s = collectionText t → s = t :=
  ⟨fun _ _ => tagSetText_inj, fun _ _ => tagSetTableText_inj, fun _ _ => collectionText_inj⟩

/-- C79, readings: two readings of any words of an index have the same text only if they are the same, provided the names
of their tags have four bytes. (Readings of one word, or of two; `TagSets` returns registered tags by C09.) -/
theorem C79_reading_partial {h : List Op} {ix : Index} (r : Run h ix) (s t : List Tag)
    (hs : ∀ x ∈ s, x ∈ ix.tags ∧ x.name.length = 4) (ht : ∀ x ∈ t, x ∈ ix.tags ∧ x.name.length = 4)
    (he : readingText s = readingText t) : s = t := by
  have ok : ∀ s : List Tag, (∀ x ∈ s, x ∈ ix.tags ∧ x.name.length = 4) →
      ∀ a ∈ s.map (·.name), a.length = 4 ∧ a ≠ [] := by
    intro s hs a ha
    obtain ⟨x, hx, rfl⟩ := List.mem_map.1 ha
    have := (hs x hx).2
    exact ⟨this, fun h0 => by rw [h0] at this; cases this⟩
  have e := joinComma_inj (separable_length 4) _ _ (ok s hs) (ok t ht) he
  have hnd : (ix.tags.map (·.name)).Nodup := by rw [r.tag.tags]; exact r.tag.names
  clear he ok
  induction s generalizing t with
  | nil => cases t with
    | nil => rfl
    | cons y t => cases e
  | cons x s ih => cases t with
    | nil => cases e
    | cons y t =>
      obtain ⟨h1, h2⟩ := List.cons.inj e
      rw [List.inj_on_of_nodup_map hnd (hs x List.mem_cons_self).1 (ht y List.mem_cons_self).1 h1,
        ih t (fun z hz => hs z (List.mem_cons_of_mem _ hz)) (fun z hz => ht z (List.mem_cons_of_mem _ hz)) h2]

/-- C79, order: the tool prints the children of a node the same way in whatever order the map is visited, and prints one
line for each. -/
theorem C79_children (m : Rune → Option ID) (a b : List (Rune × ID)) (ha : Enumerates m a) (hb : Enumerates m b) :
    childLines a = childLines b ∧ (childLines a).length = a.length := by
  constructor
  · unfold childLines
    rw [sortAsc_strings_perm ((enumerations_perm ha hb).map _)]
  · simp [childLines, sortAsc]

/-- C79, order: the text of a map is the same in whatever order the map is visited, if it has at most one or at least ten
entries. -/
theorem C79_map_partial (m : Rune → Option ID) (a b : List (Rune × ID)) (ha : Enumerates m a) (hb : Enumerates m b)
    (hl : a.length ≤ 1 ∨ 10 ≤ a.length) : idMapText a = idMapText b := by
  have hp := enumerations_perm ha hb
  rcases hl with hl | hl
  · have : a = b := by
      match a, hl with
      | [], _ => exact hp.nil_eq
      | [x], _ => exact (List.singleton_perm.1 hp)
    rw [this]
  · unfold idMapText
    rw [if_neg (by omega), if_neg (by rw [← hp.length_eq]; omega), hp.length_eq]

/-- The same for maps to nodes. -/
theorem C79_nodeMap_partial (m : Rune → Option Str) (a b : List (Rune × Str)) (ha : Enumerates m a)
    (hb : Enumerates m b) (hl : a.length ≤ 1 ∨ 10 ≤ a.length) : nodeMapText a = nodeMapText b := by
  have hp := enumerations_perm ha hb
  rcases hl with hl | hl
  · have : a = b := by
      match a, hl with
      | [], _ => exact hp.nil_eq
      | [x], _ => exact (List.singleton_perm.1 hp)
    rw [this]
  · unfold nodeMapText
    rw [if_neg (by omega), if_neg (by rw [← hp.length_eq]; omega), hp.length_eq]

/-! ## Examples -/

example : tagSetText [1, 12] = str "TS(1,12)" ∧ tagSetTableText [[1], [2]] = str "TT(0: TS(1),1: TS(2))" ∧
    collectionText [0x10002, 0xff] = str "[10002,ff]" ∧
    idMapText [(0x61, 1), (0x62, 7)] = str "IDMap(`a`:1,`b`:7)" ∧
    childLines [(0x62, 7), (0x61, 1)] = [str "- a[97]: 1\n", str "- b[98]: 7\n"] := by decide

/-- The registered tags of the sample history have names of four bytes. -/
example : ∀ x ∈ (execAll sampleHistory).tags, x.name.length = 4 := by
  rw [sample_runs.tag.tags]; decide

/-- The children of the root of a small index, in two orders. -/
theorem twoChildren_enumerates : Enumerates (Index.getChildrenMap (execAll [.addRunes [0x61], .addRunes [0x62]]) 0)
    [(0x61, 1), (0x62, 2)] := by
  refine ⟨?_, by decide⟩
  intro k v
  have e : (Index.getChildrenMap (execAll [.addRunes [0x61], .addRunes [0x62]]) 0) k =
      if k = 0x62 then some 2 else if k = 0x61 then some 1 else none := by
    simp only [execAll, List.foldl_cons, List.foldl_nil, Op.exec]
    rfl
  rw [e]
  constructor
  · intro h
    rcases List.mem_cons.1 h with h | h
    · obtain ⟨rfl, rfl⟩ := Prod.mk.inj h; decide
    · obtain ⟨rfl, rfl⟩ := Prod.mk.inj (List.mem_singleton.1 h); decide
  · intro h
    split at h
    · rename_i h1; rw [h1, ← Option.some.inj h]; decide
    · split at h
      · rename_i h1; rw [h1, ← Option.some.inj h]; decide
      · cases h

theorem twoChildren_other : Enumerates (Index.getChildrenMap (execAll [.addRunes [0x61], .addRunes [0x62]]) 0)
    [(0x62, 2), (0x61, 1)] :=
  ⟨fun k v => by rw [← twoChildren_enumerates.mem]; simp only [List.mem_cons, List.not_mem_nil, or_false]; tauto,
    by decide⟩

/-! ## What does not hold -/

/-- C79 does not hold for the text of a map with two entries. -/
theorem not_C79_map : ∃ h ix a b, Run h ix ∧ Enumerates (ix.getChildrenMap 0) a ∧ Enumerates (ix.getChildrenMap 0) b ∧
    idMapText a ≠ idMapText b :=
  ⟨[.addRunes [0x61], .addRunes [0x62]], _, _, _, small_runs _ (by decide), twoChildren_enumerates, twoChildren_other,
    by decide⟩

/-- C79 does not hold for readings whose tags have commas in their names: a word with two readings of the same text. -/
theorem not_C79_reading : ∃ h ix s t, Run h ix ∧ ix.tagSetsOf 1 = .ok [s, t] ∧ s ≠ t ∧ readingText s = readingText t := by
  have f : ∀ (ix : Index) (d : Dict), d.nodes.length ≤ 2 → d.tags.length ≤ 3 → ix.tagSets.length ≤ 2 →
      (∀ t ∈ ix.tagSets, t.length ≤ 1) → ix.collectionIdx.length ≤ 2 → (∀ t ∈ ix.collectionIdx, t.length ≤ 1) →
      Fits ix d := fun ix d h1 h2 h3 h4 h5 h6 =>
    ⟨by omega, by omega, by omega, fun t ht => by have := h4 t ht; omega, by omega, fun t ht => by have := h6 t ht; omega⟩
  have r1 := Run.step (.tagID (str "a") []) Run.nil trivial (f _ _ (by decide) (by decide) (by decide) (by decide) (by decide) (by decide))
  have r2 := Run.step (.tagID (str "b") []) r1 trivial (f _ _ (by decide) (by decide) (by decide) (by decide) (by decide) (by decide))
  have r3 := Run.step (.tagID (str "a,b") []) r2 trivial (f _ _ (by decide) (by decide) (by decide) (by decide) (by decide) (by decide))
  have r4 := Run.step (.addString (str "x")) r3 trivial (f _ _ (by decide) (by decide) (by decide) (by decide) (by decide) (by decide))
  have r5 := Run.step (.addTagSet 1 [str "a,b"]) r4 trivial (f _ _ (by decide) (by decide) (by decide) (by decide) (by decide) (by decide))
  have r6 := Run.step (.addTagSet 1 [str "a", str "b"]) r5 trivial (f _ _ (by decide) (by decide) (by decide) (by decide) (by decide) (by decide))
  exact ⟨_, _, [⟨str "----", str "a,b"⟩], [⟨str "----", str "a"⟩, ⟨str "----", str "b"⟩], r6, by decide, by decide, by decide⟩

end Verif
