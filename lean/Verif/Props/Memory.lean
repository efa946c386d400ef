import Verif.Lemmas.Memory
import Verif.Props.OptimizeCost

/-!
# C106 — asking a dictionary does not make it grow

What an index holds in memory: a slot per node and some spare ones, a map of children per node that has any, and the
tables of tags, readings and combinations. The content is measured as for C98 (`Spec/Size.lean`).
-/

namespace Verif

variable {h : List Op} {ix : Index} {P : List (List Rune)} {R : List (List Str)} {S : List (List (List Str))}

/-- C106: however often a dictionary is asked, it holds no more than its content needs — a slot per beginning of a word and
16 more, a map of children per beginning of a word and one more, an entry in them per beginning of a word and one more, its
tags and readings, and a combination per call that attached a reading, of which `Optimize` leaves those in use — if each
lookup that starts at an id starts at one of a node. Missing: lookups that start at the id of no node, see `C106_stray`. -/
theorem C106_partial (r : Run h ix) (inv : Inventory (dictOf h) P R S)
    (hk : ∀ id, Asked h id → ix.get id = .ok id) :
    ix.items.items.length ≤ P.length + 16 ∧
    (∀ L : List ID, L.Nodup → (∀ id ∈ L, (ix.childrenMap id).isSome) → L.length ≤ P.length + 1) ∧
    (∀ E : List (ID × Rune), E.Nodup → (∀ e ∈ E, (ix.getChildrenMap e.1 e.2).isSome) → E.length ≤ P.length + 1) ∧
    ix.tags.length = (dictOf h).tags.length ∧
    (ix.tagSets.flatten.map List.length).Perm (R.map List.length) ∧ ix.tagSets.length = longest R ∧
    ix.collectionIdx.flatten.length ≤ taggings h ∧ ix.collectionIdx.length ≤ taggings h ∧
    (ix.optimize.1.collectionIdx.flatten.map List.length).Perm (S.map List.length) ∧
    ix.optimize.1.collectionIdx.length = longest S := by
  obtain ⟨i1, i2, i3, i4⟩ := inv.optimized r
  have hn := inv.nodes_length r
  have hs : ix.items.items.length ≤ (dictOf h).nodes.length + 15 := r.slots
  obtain ⟨k1, k2⟩ := r.stored_le
  refine ⟨by omega, fun L hL hm => ?_, fun E hE he => ?_, by rw [r.tag.tags], r.reading_lengths inv, i4, k1, k2, i1, i2⟩
  · have := count_maps r (U := []) (fun id a hge => ?_) hL hm
    · rw [hn] at this
      exact this
    · have := hk id a
      unfold Index.get at this
      rw [r.trie.next, if_pos hge] at this
      cases this
  · rw [← hn]
    exact r.trie.count_entries hE he

/-- C106: in general a map of children is held for nodes and, for an id that no node has, exactly if a lookup started there
since the dictionary was loaded. -/
theorem C106_stray (r : Run h ix) (id : ID) (hid : ix.get id ≠ .ok id) :
    (ix.childrenMap id).isSome ↔ Asked h id := by
  constructor
  · intro hm
    refine (r.mapsIn id hm).resolve_left fun hlt => hid ?_
    unfold Index.get
    rw [r.trie.next, if_neg (by omega)]
  · exact r.asked_map

/-- C106: so there are never more maps than nodes and ids asked that no node has. -/
theorem C106_maps (r : Run h ix) (inv : Inventory (dictOf h) P R S) (U : List ID)
    (hU : ∀ id, Asked h id → ix.get id ≠ .ok id → id ∈ U) (L : List ID) (hL : L.Nodup)
    (hm : ∀ id ∈ L, (ix.childrenMap id).isSome) : L.length ≤ P.length + 1 + U.length := by
  rw [← inv.nodes_length r]
  refine count_maps r (fun id a hge => hU id a ?_) hL hm
  unfold Index.get
  rw [r.trie.next, if_pos hge]
  simp

/-- C106: a dictionary just loaded holds a map for each of its nodes and for nothing else. -/
theorem C106_loaded (r : Run (h ++ [.reload]) ix) (id : ID) :
    (ix.childrenMap id).isSome ↔ ix.get id = .ok id := by
  have hn : (dictOf (h ++ [.reload])).nodes = (dictOf h).nodes := by rw [dictOf_append]; rfl
  rw [r.loaded_map, ← hn, ← r.trie.next]
  unfold Index.get
  constructor
  · intro hlt; rw [if_neg (by omega)]
  · intro e
    by_contra hge
    rw [if_pos (by omega)] at e
    cases e

/-- C106 is false for lookups that start at the id of no node: any dictionary can be asked, without a change of its content,
so that it holds a map for each of any number of ids. -/
theorem C106_grows (r : Run h ix) (ids : List ID) (rs : List Rune) (hrs : rs ≠ []) :
    ∃ ix', Run (h ++ ids.map fun id => .fetchFromItem id rs) ix' ∧
      dictOf (h ++ ids.map fun id => .fetchFromItem id rs) = dictOf h ∧
      ∀ id ∈ ids, (ix'.childrenMap id).isSome := by
  obtain ⟨ix', r', e⟩ := r.look_all rs ids
  refine ⟨ix', r', e, fun id hid => r'.asked_map ?_⟩
  obtain ⟨s, t, rfl⟩ := List.append_of_mem hid
  refine ⟨h ++ s.map fun id => .fetchFromItem id rs, _, t.map fun id => .fetchFromItem id rs, by simp, by simp, rs, hrs,
    .inl rfl⟩

/-- C106 is false: `n` lookups in an empty dictionary, and it holds `n` maps — for each number of ids there is. -/
theorem not_C106 (n : Nat) (hn : n ≤ 4294967296) : ∃ h ix, Run h ix ∧ h.length = n ∧ dictOf h = Dict.empty ∧
    ∃ L : List ID, L.Nodup ∧ L.length = n ∧ ∀ id ∈ L, (ix.childrenMap id).isSome := by
  obtain ⟨ix, r, e, hm⟩ := C106_grows Run.nil ((List.range n).map UInt32.ofNat) [97] (by simp)
  refine ⟨_, ix, r, by simp, e, _, ?_, by simp, hm⟩
  refine List.Nodup.map_on (fun a ha b hb hab => ?_) List.nodup_range
  rw [List.mem_range] at ha hb
  have := congrArg UInt32.toNat hab
  rwa [UInt32.toNat_ofNat_of_lt' (by simp only [UInt32.size]; omega),
    UInt32.toNat_ofNat_of_lt' (by simp only [UInt32.size]; omega)] at this

/-! ## The hypotheses are met -/

/-- `sizeVerb`, asked for words and from nodes. -/
def askedVerb : List Op := sizeVerb ++ [.fetchRunes [97, 120], .fetchFromItem 1 [120], .fetchItemFromParent 2 [97, 98]]

theorem askedVerb_known : ∀ id, Asked askedVerb id → (askedVerb.foldl Op.exec Index.new).get id = .ok id := by
  rintro id ⟨q, op, t, e, _, rs, _, ho⟩
  have hm : op ∈ askedVerb := by rw [e]; simp
  simp only [askedVerb, sizeVerb, sizeBase, List.mem_append, List.mem_cons, List.not_mem_nil, or_false] at hm
  rcases ho with rfl | rfl
  · have : id = 1 := by simp at hm; exact hm.1
    subst this; decide
  · have : id = 2 := by simp at hm; exact hm.1
    subst this; decide

example : ∃ ix, Run askedVerb ix ∧ ix.items.items.length ≤ 2 + 16 ∧
    (∀ L : List ID, L.Nodup → (∀ id ∈ L, (ix.childrenMap id).isSome) → L.length ≤ 2 + 1) ∧
    (ix.childrenMap 1).isSome ∧ (ix.childrenMap 2).isSome := by
  have r := small_runs askedVerb (by decide)
  have hd : dictOf askedVerb = dictOf sizeVerb := rfl
  have inv := size_inventory
  rw [← hd] at inv
  have := C106_partial r inv askedVerb_known
  exact ⟨_, r, this.1, this.2.1, by decide, by decide⟩

/-- Asking from node 7, which is not there, leaves a map. -/
example : ∃ ix, Run (sizeVerb ++ [.fetchFromItem 7 [97]]) ix ∧ ix.get 7 ≠ .ok 7 ∧ (ix.childrenMap 7).isSome := by
  have r := small_runs (sizeVerb ++ [.fetchFromItem 7 [97]]) (by decide)
  refine ⟨_, r, by decide, (C106_stray r 7 (by decide)).2 ⟨sizeVerb, _, [], rfl, by simp, [97], by simp, .inl rfl⟩⟩

end Verif
