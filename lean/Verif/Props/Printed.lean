import Verif.Lemmas.Printed
import Verif.Props.Cli
import Verif.Props.Texts

/-! # C88 — what the tool prints for a node says everything about it -/

namespace Verif

/-! ## The reply about a node -/

theorem showNode_reply {ix : Index} {k id : ID} {w : Str} {it : Item} {L : List (List Tag)} {m : IdMap}
    (h : (showNode ix k).2 = .ok (.node id w it L m)) :
    ix.tagSetsOf id = .ok L ∧ ix.nodeItem id = .ok it ∧ ix.word id = .ok w := by
  unfold showNode at h
  split at h
  · split at h
    · split at h
      · rename_i h1 _ _ h2 _ _ h3
        simp only [Out.ok.injEq, Reply.node.injEq] at h
        obtain ⟨rfl, rfl, rfl, rfl, -⟩ := h
        exact ⟨h2, h3, h1⟩
      · cases h
    · cases h
  · cases h
  · cases h

theorem bind_node {α : Type} {x : Out α} {f : α → Reply} {id : ID} {w : Str} {it : Item} {L : List (List Tag)} {m : IdMap}
    (hf : ∀ a, f a ≠ .node id w it L m) : x.bind (fun a => .ok (f a)) ≠ .ok (.node id w it L m) := by
  cases x with
  | ok a => exact fun h => hf a (Out.ok.inj h)
  | err e => exact fun h => by cases h
  | panic => exact fun h => by cases h
  | diverge => exact fun h => by cases h

theorem node_reply {lib : Lib} {disk : Option Index} {ix : Index} {line : Str} {id : ID} {w : Str} {it : Item}
    {L : List (List Tag)} {m : IdMap} (h : (processInput lib disk ix line).2 = .ok (.node id w it L m)) :
    ∃ ix', Index.Obs ix ix' ∧ ix'.tagSetsOf id = .ok L ∧ ix'.nodeItem id = .ok it ∧ ix'.word id = .ok w := by
  unfold processInput at h
  simp only at h
  split at h
  · exfalso
    unfold processTag at h
    simp only at h
    split at h
    · split at h
      · cases h
      · split at h
        · split at h <;> cases h
        · split at h
          · cases h
          · exact bind_node (fun _ => by simp) h
    · cases h
  · split at h
    · exfalso
      unfold processSet at h
      simp only at h
      split at h
      · split at h
        · cases h
        · split at h
          · split at h
            · split at h
              · cases h
              · split at h
                · cases h
                · exact bind_node (fun _ => by simp) h
            · cases h
          · split at h
            · cases h
            · split at h <;> cases h
      · cases h
    · split at h
      · unfold processNode at h
        split at h
        · rename_i sub rest _
          split at h
          · cases h
          · split at h
            · cases h
            · split at h
              · have o := fetchItemFromParent_obs ix 0 (decodeRunes sub)
                generalize ix.fetchItemFromParent 0 (decodeRunes sub) = x at *
                obtain ⟨a, b⟩ := x
                cases b with
                | ok k =>
                  simp only at h
                  split at h
                  · exact ⟨a, o, showNode_reply h⟩
                  · cases h
                | err e => cases h
                | panic => cases h
                | diverge => cases h
              · split at h
                · cases h
                · split at h
                  · exact ⟨ix, .refl _, showNode_reply h⟩
                  · cases h
        · cases h
      · exfalso
        split at h
        · unfold processVar at h
          simp only at h
          split at h
          · split at h
            · cases h
            · exact bind_node (fun _ => by simp) h
          · cases h
        · split at h
          · split at h <;> cases h
          · split at h
            · cases h
            · unfold processSearch at h
              split at h
              · exact bind_node (fun _ => by split <;> simp) h
              · cases h
              · cases h
              · cases h

theorem tagSetsLoop_tags {ix : Index} {d : Dict} (r : Refines ix d) : ∀ (c : Coll), ∀ t ∈ ix.tagSetsLoop c, ∀ x ∈ t,
    x ∈ ix.tags
  | [], t, h, x, hx => by cases h
  | i :: c, t, h, x, hx => by
    unfold Index.tagSetsLoop at h
    split at h
    · rw [(List.mem_replicate.1 h).2] at hx
      cases hx
    · rename_i ids hg
      rcases List.mem_cons.1 h with rfl | h
      · obtain ⟨j, hj, rfl⟩ := List.mem_map.1 hx
        rw [TagSetIndex.get_eq] at hg
        have hlt := r.tag.setIds _ _ hg j hj
        rw [tagsGet_eq, r.tag.tags, List.getElem?_eq_getElem hlt]
        exact List.getElem_mem hlt
      · exact tagSetsLoop_tags r c t h x hx

/-- The tags shown for a node are registered, and a node without a number of readings shows none. -/
theorem reply_tags {h : List Op} {ix : Index} (r : Run h ix) {lib : Lib} {disk : Option Index} {line : Str} {id : ID}
    {w : Str} {it : Item} {L : List (List Tag)} {m : IdMap}
    (hr : (processInput lib disk ix line).2 = .ok (.node id w it L m)) :
    (∀ t ∈ L, ∀ x ∈ t, x ∈ ix.tags) ∧ (it.variants = 0 → L = []) := by
  obtain ⟨ix', o, h1, h2, -⟩ := node_reply hr
  have r' := r.refines.1.obs o
  have hc : Caps ix' := by
    have := r.refines.2.caps
    exact ⟨by rw [o.tagSets]; exact this.setTables, by rw [o.tagSets]; exact this.sets,
      by rw [o.collectionIdx]; exact this.collTables, by rw [o.collectionIdx]; exact this.colls⟩
  unfold Index.tagSetsOf at h1
  unfold Index.nodeItem at h2
  split at h1
  · cases h1
  · rename_i item hg
    unfold Items.get at hg
    split at hg
    · cases hg
    · split at hg
      · cases hg
      · rw [hg] at h2
        obtain rfl := Out.ok.inj h2
        constructor
        · cases hcoll : ix'.collectionIdx.get item.variants with
          | ok coll =>
            rw [hcoll] at h1
            obtain rfl := Out.ok.inj h1
            rw [← o.tags]
            exact tagSetsLoop_tags r' coll
          | err e => rw [hcoll] at h1; cases h1
          | panic => rw [hcoll] at h1; cases h1
          | diverge => rw [hcoll] at h1; cases h1
        · intro hv
          rw [hv] at h1
          exact (Out.ok.inj h1).symm

/-! ## C88 -/

/-- C88: two texts printed for nodes, of whatever indexes whose tags have names of four bytes (the length in which names
are stored), are the same exactly if the nodes have the same number, prefix, parent, number of readings' collection, the
same readings, by the names of the tags, and the same children; in whatever order the children are visited. The prefix
may contain anything, also line ends. -/
theorem C88 {h h' : List Op} {ix ix' : Index} (r : Run h ix) (r' : Run h' ix') (hn : ∀ t ∈ ix.tags, t.name.length = 4)
    (hn' : ∀ t ∈ ix'.tags, t.name.length = 4) (lib lib' : Lib) (disk disk' : Option Index) (line line' : Str)
    {id id' : ID} {w w' : Str} {it it' : Item} {L L' : List (List Tag)} {m m' : IdMap} {a a' : List (Rune × ID)}
    (hr : (processInput lib disk ix line).2 = .ok (.node id w it L m))
    (hr' : (processInput lib' disk' ix' line').2 = .ok (.node id' w' it' L' m'))
    (ha : Enumerates m a) (ha' : Enumerates m' a') :
    nodeText id w it L a = nodeText id' w' it' L' a' ↔
      id = id' ∧ w = w' ∧ it.parent = it'.parent ∧ it.variants = it'.variants ∧
      L.map (fun t => t.map (·.name)) = L'.map (fun t => t.map (·.name)) ∧ m = m' := by
  obtain ⟨h1, h2⟩ := reply_tags r hr
  obtain ⟨h1', h2'⟩ := reply_tags r' hr'
  constructor
  · intro e
    obtain ⟨e1, e2, e3, e4, e5, e6⟩ := nodeText_inj (fun t ht x hx => hn x (h1 t ht x hx))
      (fun t ht x hx => hn' x (h1' t ht x hx)) e
    refine ⟨e1, e2, e3, e4, ?_, ?_⟩
    · by_cases hv : it.variants = 0
      · rw [h2 hv, h2' (e4 ▸ hv)]
      · exact e5 hv
    · funext k
      cases hk : m k with
      | some v => exact ((ha'.mem k v).1 (e6.subset ((ha.mem k v).2 hk))).symm
      | none =>
        cases hk' : m' k with
        | none => rfl
        | some v =>
          rw [(ha.mem k v).1 (e6.symm.subset ((ha'.mem k v).2 hk'))] at hk
          cases hk
  · rintro ⟨rfl, rfl, e3, e4, e5, rfl⟩
    have hp := enumerations_perm ha ha'
    unfold nodeText
    rw [e3, e4]
    have hc : childrenText a = childrenText a' := by
      unfold childrenText
      rw [(C79_children m a a' ha ha').1, hp.length_eq]
    have hv : variantsText it'.variants L = variantsText it'.variants L' := by
      have : ∀ (L L' : List (List Tag)) (i : Nat),
          L.map (fun t => t.map (·.name)) = L'.map (fun t => t.map (·.name)) → readingLines i L = readingLines i L' := by
        intro L
        induction L with
        | nil =>
          intro L' i he
          cases L' with
          | nil => rfl
          | cons t L' => cases he
        | cons t L ih =>
          intro L' i he
          cases L' with
          | nil => cases he
          | cons t' L' =>
            rw [List.map_cons, List.map_cons] at he
            obtain ⟨q1, q2⟩ := List.cons.inj he
            unfold readingLines readingLine
            rw [q1, ih L' (i + 1) q2]
      unfold variantsText
      rw [this L L' 0 e5]
    rw [hc, hv]

/-- The names must have a fixed length: a word with the reading "a,b" and one with the reading "a", "b" look alike. -/
theorem not_C88_names : ∃ h ix h' ix' w it L m L', Run h ix ∧ Run h' ix' ∧
    (∀ lib disk, (processInput lib disk ix (str "node x")).2 = .ok (.node 1 w it L m)) ∧
    (∀ lib disk, (processInput lib disk ix' (str "node x")).2 = .ok (.node 1 w it L' m)) ∧ Enumerates m [] ∧
    L.map (fun t => t.map (·.name)) ≠ L'.map (fun t => t.map (·.name)) ∧
    nodeText 1 w it L [] = nodeText 1 w it L' [] := by
  have f : ∀ (ix : Index) (d : Dict), d.nodes.length ≤ 2 → d.tags.length ≤ 3 → ix.tagSets.length ≤ 2 →
      (∀ t ∈ ix.tagSets, t.length ≤ 1) → ix.collectionIdx.length ≤ 2 → (∀ t ∈ ix.collectionIdx, t.length ≤ 1) →
      Fits ix d := fun ix d h1 h2 h3 h4 h5 h6 =>
    ⟨by omega, by omega, by omega, fun t ht => by have := h4 t ht; omega, by omega, fun t ht => by have := h6 t ht; omega⟩
  have r1 := Run.step (.tagID (str "a,b") []) Run.nil trivial (f _ _ (by decide) (by decide) (by decide) (by decide) (by decide) (by decide))
  have r2 := Run.step (.addString (str "x")) r1 trivial (f _ _ (by decide) (by decide) (by decide) (by decide) (by decide) (by decide))
  have r3 := Run.step (.addTagSet 1 [str "a,b"]) r2 trivial (f _ _ (by decide) (by decide) (by decide) (by decide) (by decide) (by decide))
  have s1 := Run.step (.tagID (str "a") []) Run.nil trivial (f _ _ (by decide) (by decide) (by decide) (by decide) (by decide) (by decide))
  have s2 := Run.step (.tagID (str "b") []) s1 trivial (f _ _ (by decide) (by decide) (by decide) (by decide) (by decide) (by decide))
  have s3 := Run.step (.addString (str "x")) s2 trivial (f _ _ (by decide) (by decide) (by decide) (by decide) (by decide) (by decide))
  have s4 := Run.step (.addTagSet 1 [str "a", str "b"]) s3 trivial (f _ _ (by decide) (by decide) (by decide) (by decide) (by decide) (by decide))
  refine ⟨_, _, _, _, str "x", ⟨0, 1, 0x78, 0x10000⟩, [[⟨str "----", str "a,b"⟩]], fun _ => none,
    [[⟨str "----", str "a"⟩, ⟨str "----", str "b"⟩]], r3, s4, fun _ _ => rfl, fun _ _ => rfl, ⟨?_, ?_⟩, ?_, ?_⟩
  · intro k v
    simp
  · simp
  · decide
  · decide

/-! ## Examples -/

set_option maxRecDepth 8000 in
/-- What is printed for a node with two readings and two children. -/
example : nodeText 7 (str "ab") ⟨3, 7, 0x62, 0x20000⟩ [[⟨[], str "NOUN"⟩, ⟨[], str "nomn"⟩], [⟨[], str "VERB"⟩]]
    [(0x64, 9), (0x63, 8)] =
    str "Node:     7\nPrefix:   ab\nParent:   3\nVariants: 131072(0x20000), 2 item(s): \n- 00: (NOUN,nomn)\n- 01: (VERB)\nChildren: 2 items:\n- c[99]: 8\n- d[100]: 9\n" := by
  decide

set_option maxRecDepth 8000 in
example : nodeText 7 (str "ab") ⟨3, 7, 0x62, 0⟩ [] [] =
    str "Node:     7\nPrefix:   ab\nParent:   3\nVariants: --------\nChildren: --------\n" := by decide

/-- The hypotheses are met: node 1 of the sample index is shown, and its tags have names of four bytes. -/
example (lib : Lib) (disk : Option Index) : ∃ ix w it L, Run sampleHistory ix ∧ (∀ t ∈ ix.tags, t.name.length = 4) ∧
    (processInput lib disk ix (str "node 1")).2 = .ok (.node 1 w it L (ix.getChildrenMap 1)) := by
  obtain ⟨w, L, it, -, -, -, e⟩ := C49_node_partial sample_runs lib disk (str "node 1") (str "node") (str "1") 1 (.inl rfl)
    (by decide) (by decide) (by decide) (by rw [sample_runs.trie.nodesCount]; decide)
  exact ⟨_, w, it, L, sample_runs, by rw [sample_runs.tag.tags]; decide, e⟩

end Verif
