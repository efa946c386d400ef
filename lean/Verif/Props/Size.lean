import Verif.Lemmas.Size
import Verif.Props.Layout
import Verif.Props.OrderExact

/-!
# C98 — the file of an optimized dictionary is as small as its content

`Spec/Size.lean` says how much space a dictionary needs.
-/

namespace Verif

theorem SameSets.refl (A : List (List Str)) : SameSets A A :=
  ⟨fun a ha => ⟨a, ha, List.Perm.refl _⟩, fun a ha => ⟨a, ha, List.Perm.refl _⟩⟩

theorem SameSets.trans {A B C : List (List Str)} (h : SameSets A B) (h' : SameSets B C) : SameSets A C := by
  constructor
  · intro a ha
    obtain ⟨b, hb, p⟩ := h.1 a ha
    obtain ⟨c, hc, p'⟩ := h'.1 b hb
    exact ⟨c, hc, p.trans p'⟩
  · intro c hc
    obtain ⟨b, hb, p⟩ := h'.2 c hc
    obtain ⟨a, ha, p'⟩ := h.2 b hb
    exact ⟨a, ha, p'.trans p⟩

/-- After `Optimize` the history goes on. -/
theorem Run.optimized {h : List Op} {ix : Index} (r : Run h ix) : Run (h ++ [.optimize]) ix.optimize.1 := by
  obtain ⟨_, _, _, c, _⟩ := optimize_spec r.trie r.tag r.caps
  refine Run.step .optimize r trivial ?_
  rw [dictOf_append]
  exact ⟨r.refines.2.nodes, r.refines.2.tags, c.setTables, c.sets, c.collTables, c.colls⟩

/-- C98: after `Optimize` the file is exactly as long as the content needs — whatever calls, in whatever order, have led
to it. -/
theorem C98 {h : List Op} {ix : Index} (r : Run h ix) {P : List (List Rune)} {R : List (List Str)}
    {S : List (List (List Str))} (inv : Inventory (dictOf h) P R S) (hs : ix.save.err = none) :
    ix.optimize.2 = .ok () ∧ ix.optimize.1.save.err = none ∧
    ix.optimize.1.save.bytes.length = spaceFor (dictOf h).tags.length P R S := by
  obtain ⟨ho, _, hT, _, hu, _⟩ := optimize_spec r.trie r.tag r.caps
  have r' := r.optimized
  have he : dictOf (h ++ [.optimize]) = dictOf h := by rw [dictOf_append]; rfl
  have hs' : ix.optimize.1.save.err = none := by
    rw [save_err] at hs ⊢
    unfold Index.NamesOK at hs ⊢
    rw [hT.tags, ← r.tag.tags]
    exact hs
  refine ⟨ho, hs', ?_⟩
  have inv' : Inventory (dictOf (h ++ [.optimize])) P R S := he.symm ▸ inv
  have h1 := r'.reading_lengths inv'
  have h2 := r'.combination_lengths hu inv'
  have hn : P.length = ix.optimize.1.nodesCount := by
    obtain ⟨L, l1, l2, l3⟩ := C04 r'
    rw [← l2]
    refine ((List.perm_ext_iff_of_nodup inv.beginningsOnce l1).2 fun p => ?_).length_eq
    rw [l3, inv'.beginnings]
  have hst := r'.stored
  rw [C77_size r' hs', sum_tables, sum_tables, hT.tags, ← r'.tag.sets.longest_flatten hst.2.1,
    ← r'.tag.colls.longest_flatten hst.2.2, longest_perm h1, longest_perm h2, sum_perm h1 fun n => 1 + n,
    sum_perm h2 fun n => 1 + 4 * n, ← hn]
  unfold spaceFor
  omega

/-- C98: there is something to measure by. -/
theorem C98_inventory {h : List Op} {ix : Index} (r : Run h ix) : ∃ P R S, Inventory (dictOf h) P R S := by
  obtain ⟨P, p1, _, p3⟩ := C04 r
  obtain ⟨R, r1, r2, r3⟩ := representatives List.Perm List.Perm.refl
    (((dictOf h).readings.map (·.2)).filter fun n => n ≠ [])
  have hc : ∀ w, ∃ A, SameSets ((dictOf h).combination w) A ∧ A.Pairwise fun a b => ¬ a.Perm b := by
    intro w
    obtain ⟨A, a1, a2, a3⟩ := representatives List.Perm List.Perm.refl ((dictOf h).combination w)
    exact ⟨A, ⟨a1, fun a ha => ⟨a, a2 a ha, List.Perm.refl _⟩⟩, a3⟩
  choose f f1 f2 using hc
  obtain ⟨S, s1, s2, s3⟩ := representatives SameSets SameSets.refl
    (((dictOf h).nodes.filter fun w => (dictOf h).readingsFor w ≠ []).map f)
  refine ⟨P, R, S, p3, p1, ?_, ?_, r3, ?_, ?_, s3, ?_⟩
  · intro w names hm hne
    obtain ⟨k, _, hk⟩ := mem_readingsFor.1 hm
    exact r1 names (List.mem_filter.2 ⟨List.mem_map.2 ⟨_, hk, rfl⟩, by simpa using hne⟩)
  · intro q hq
    obtain ⟨h1, h2⟩ := List.mem_filter.1 (r2 q hq)
    obtain ⟨⟨k, n⟩, he, rfl⟩ := List.mem_map.1 h1
    refine ⟨by simpa using h2, _, n, mem_readingsFor.2 ⟨k, List.getElem?_eq_getElem (r.tag.readings k n he).2.1, he⟩,
      List.Perm.refl _⟩
  · intro w hne
    obtain ⟨n, hn⟩ := List.exists_mem_of_ne_nil _ hne
    obtain ⟨k, hk, _⟩ := mem_readingsFor.1 hn
    obtain ⟨A, hA, hs⟩ := s1 (f w) (List.mem_map.2 ⟨w, List.mem_filter.2 ⟨List.mem_of_getElem? hk, by simpa using hne⟩, rfl⟩)
    exact ⟨A, hA, (f1 w).trans hs⟩
  · intro A hA
    obtain ⟨w, hw, rfl⟩ := List.mem_map.1 (s2 A hA)
    exact ⟨w, by simpa using (List.mem_filter.1 hw).2, f1 w⟩
  · intro A hA
    obtain ⟨w, _, rfl⟩ := List.mem_map.1 (s2 A hA)
    exact f2 w

/-- C98: `Optimize` never makes the file longer, and saving fails after it only if it failed before. -/
theorem C98_optimize {h : List Op} {ix : Index} (r : Run h ix) (hs : ix.save.err = none) :
    ix.optimize.1.save.err = none ∧ ix.optimize.1.save.bytes.length ≤ ix.save.bytes.length := by
  obtain ⟨_, hO, hT, _, _, he, ⟨hl, hi⟩, _⟩ := optimize_spec r.trie r.tag r.caps
  have r' := r.optimized
  have hs' : ix.optimize.1.save.err = none := by
    rw [save_err] at hs ⊢
    unfold Index.NamesOK at hs ⊢
    rw [hT.tags, ← r.tag.tags]
    exact hs
  refine ⟨hs', ?_⟩
  rw [C77_size r' hs', C77_size r hs, he, hT.tags, r.tag.tags, hO.nodesCount, r.trie.nodesCount]
  have := space_le 4 4 ix.optimize.1.collectionIdx ix.collectionIdx 1 hl hi
    (fun i s hs => ((hT.colls i).2 s hs).1) (fun i s hs => ((r.tag.colls i).2 s hs).1)
  exact Nat.add_le_add_right (Nat.add_le_add_left this _) _

/-- What a dictionary needs depends on its content alone, unless it has empty readings. -/
theorem Inventory.same {a b : Dict} (hs : SameContent a b) (ha : ∀ w, [] ∉ a.readingsFor w) {P : List (List Rune)}
    {R : List (List Str)} {S : List (List (List Str))} (inv : Inventory a P R S) : Inventory b P R S := by
  have hb : ∀ w, [] ∉ b.readingsFor w := by
    intro w hm
    obtain ⟨x, hx, p⟩ := (hs.readings w).2 _ hm
    rw [List.perm_nil.1 p] at hx
    exact ha w hx
  have hc : ∀ (d : Dict), (∀ w, [] ∉ d.readingsFor w) → ∀ w, d.combination w = d.readingsFor w := by
    intro d hd w
    unfold Dict.combination
    rw [List.map_congr_left (g := id), List.map_id]
    intro n hn
    unfold Dict.kept
    rw [if_neg (by rintro rfl; exact hd w hn)]
    rfl
  have hcomb : ∀ w, SameSets (b.combination w) (a.combination w) := by
    intro w
    rw [hc a ha, hc b hb]
    exact (hs.readings w).symm
  have hne : ∀ w, a.readingsFor w ≠ [] ↔ b.readingsFor w ≠ [] := by
    intro w
    constructor
    · intro h
      obtain ⟨n, hn⟩ := List.exists_mem_of_ne_nil _ h
      obtain ⟨m, hm, _⟩ := (hs.readings w).1 n hn
      exact List.ne_nil_of_mem hm
    · intro h
      obtain ⟨n, hn⟩ := List.exists_mem_of_ne_nil _ h
      obtain ⟨m, hm, _⟩ := (hs.readings w).2 n hn
      exact List.ne_nil_of_mem hm
  refine ⟨?_, inv.beginningsOnce, ?_, ?_, inv.readingsOnce, ?_, ?_, inv.combinationsOnce, inv.once⟩
  · intro p
    rw [inv.beginnings]
    simp only [hs.words]
  · intro w names hm hn
    obtain ⟨m, hm', p⟩ := (hs.readings w).2 names hm
    obtain ⟨q, hq, p'⟩ := inv.readings w m hm' (by rintro rfl; exact hn (List.nil_perm.1 p))
    exact ⟨q, hq, p.symm.trans p'⟩
  · intro q hq
    obtain ⟨hn, w, m, hm, p⟩ := inv.readingsOnly q hq
    obtain ⟨m', hm', p'⟩ := (hs.readings w).1 m hm
    exact ⟨hn, w, m', hm', p'.symm.trans p⟩
  · intro w h
    obtain ⟨A, hA, h'⟩ := inv.combinations w ((hne w).2 h)
    exact ⟨A, hA, (hcomb w).trans h'⟩
  · intro A hA
    obtain ⟨w, h, h'⟩ := inv.combinationsOnly A hA
    exact ⟨w, (hne w).1 h, (hcomb w).trans h'⟩

/-- C98: two optimized dictionaries of the same content without empty readings have files of the same length, whatever the
order of the calls. Missing: with empty readings (see `not_C98`). -/
theorem C98_content_partial {h₁ h₂ : List Op} {ix₁ ix₂ : Index} (r₁ : Run h₁ ix₁) (r₂ : Run h₂ ix₂)
    (hs : SameContent (dictOf h₁) (dictOf h₂)) (hn : ∀ w, [] ∉ (dictOf h₁).readingsFor w)
    (hs₁ : ix₁.save.err = none) (hs₂ : ix₂.save.err = none) :
    ix₁.optimize.1.save.bytes.length = ix₂.optimize.1.save.bytes.length := by
  obtain ⟨P, R, S, inv⟩ := C98_inventory r₁
  rw [(C98 r₁ inv hs₁).2.2, (C98 r₂ (inv.same hs hn) hs₂).2.2]
  have hnd : ∀ {h : List Op} {ix : Index}, Run h ix → (dictOf h).tags.Nodup := fun r => List.Nodup.of_map _ r.tag.names
  rw [((List.perm_ext_iff_of_nodup (hnd r₁) (hnd r₂)).2 hs.tags).length_eq]

/-- C98: no calls that give the same content (without empty readings) give a shorter file. -/
theorem C98_least {h₁ h₂ : List Op} {ix₁ ix₂ : Index} (r₁ : Run h₁ ix₁) (r₂ : Run h₂ ix₂)
    (hs : SameContent (dictOf h₁) (dictOf h₂)) (hn : ∀ w, [] ∉ (dictOf h₁).readingsFor w)
    (hs₁ : ix₁.save.err = none) (hs₂ : ix₂.save.err = none) :
    ix₁.optimize.1.save.bytes.length ≤ ix₂.save.bytes.length :=
  C98_content_partial r₁ r₂ hs hn hs₁ hs₂ ▸ (C98_optimize r₂ hs₂).2

/-! ## What does not hold -/

/-- The words "a" and "b" and two tags. -/
def sizeBase : List Op :=
  [.tagID (str "NOUN") [], .tagID (str "VERB") [], .addRunes [97], .addRunes [98]]

/-- "a" is a noun, then also a verb; "b" a noun. -/
def sizeNoun : List Op :=
  sizeBase ++ [.addTagSet 1 [str "NOUN"], .addTagSet 1 [str "VERB"], .addTagSet 2 [str "NOUN"]]

/-- "a" is a verb, then also a noun; "b" a noun. -/
def sizeVerb : List Op :=
  sizeBase ++ [.addTagSet 1 [str "VERB"], .addTagSet 1 [str "NOUN"], .addTagSet 2 [str "NOUN"]]

/-- "a" has the empty reading and is a noun; "b" is a verb. -/
def sizeEmptyNoun : List Op :=
  sizeBase ++ [.addTagSet 1 [str "NOUN"], .addTagSet 1 [], .addTagSet 2 [str "VERB"]]

/-- The same, "b" first. -/
def sizeEmptyVerb : List Op :=
  sizeBase ++ [.addTagSet 2 [str "VERB"], .addTagSet 1 [str "NOUN"], .addTagSet 1 []]

theorem sameContent_of_small {a b : Dict} (hw : a.words = b.words) (ht : a.tags = b.tags) (hn : a.nodes = b.nodes)
    (hr : ∀ e, e ∈ a.readings ↔ e ∈ b.readings) : SameContent a b := by
  refine ⟨by simp [hw], by simp [ht], fun w => ?_⟩
  have : ∀ names, names ∈ a.readingsFor w ↔ names ∈ b.readingsFor w := by
    intro names
    simp only [mem_readingsFor, hn, hr]
  exact ⟨fun n h => ⟨n, (this n).1 h, List.Perm.refl _⟩, fun n h => ⟨n, (this n).2 h, List.Perm.refl _⟩⟩

theorem size_same : SameContent (dictOf sizeNoun) (dictOf sizeVerb) ∧
    SameContent (dictOf sizeEmptyNoun) (dictOf sizeEmptyVerb) := by
  constructor
  · refine sameContent_of_small rfl rfl rfl fun e => ?_
    have e1 : (dictOf sizeNoun).readings = [(1, [str "NOUN"]), (1, [str "VERB"]), (2, [str "NOUN"])] := by decide
    have e2 : (dictOf sizeVerb).readings = [(1, [str "VERB"]), (1, [str "NOUN"]), (2, [str "NOUN"])] := by decide
    rw [e1, e2]
    simp only [List.mem_cons, List.not_mem_nil, or_false]
    exact or_left_comm
  · refine sameContent_of_small rfl rfl rfl fun e => ?_
    have e1 : (dictOf sizeEmptyNoun).readings = [(1, [str "NOUN"]), (1, []), (2, [str "VERB"])] := by decide
    have e2 : (dictOf sizeEmptyVerb).readings = [(2, [str "VERB"]), (1, [str "NOUN"]), (1, [])] := by decide
    rw [e1, e2]
    simp only [List.mem_cons, List.not_mem_nil, or_false]
    rw [← or_assoc, or_comm]

/-- C98 fails without `Optimize`: the same content, told in another order, takes more space. -/
theorem not_C98_unoptimized : ∃ h₁ h₂ ix₁ ix₂, Run h₁ ix₁ ∧ Run h₂ ix₂ ∧ SameContent (dictOf h₁) (dictOf h₂) ∧
    (∀ w, [] ∉ (dictOf h₁).readingsFor w) ∧ ix₁.save.err = none ∧ ix₂.save.err = none ∧
    ix₁.save.bytes.length < ix₂.save.bytes.length := by
  refine ⟨sizeNoun, sizeVerb, _, _, small_runs _ (by decide), small_runs _ (by decide), size_same.1, ?_, by decide,
    by decide, by decide⟩
  intro w hm
  obtain ⟨k, _, hk⟩ := mem_readingsFor.1 hm
  have e1 : (dictOf sizeNoun).readings = [(1, [str "NOUN"]), (1, [str "VERB"]), (2, [str "NOUN"])] := by decide
  rw [e1] at hk
  simp only [List.mem_cons, List.not_mem_nil, or_false, Prod.mk.injEq] at hk
  rcases hk with ⟨_, h⟩ | ⟨_, h⟩ | ⟨_, h⟩ <;> cases h

/-- C98 fails with empty readings, even after `Optimize`: an empty reading is kept as the first one-tag reading, and takes
no space if the word has that one as well. -/
theorem not_C98 : ∃ h₁ h₂ ix₁ ix₂, Run h₁ ix₁ ∧ Run h₂ ix₂ ∧ SameContent (dictOf h₁) (dictOf h₂) ∧
    ix₁.save.err = none ∧ ix₂.save.err = none ∧
    ix₁.optimize.1.save.bytes.length < ix₂.optimize.1.save.bytes.length :=
  ⟨sizeEmptyNoun, sizeEmptyVerb, _, _, small_runs _ (by decide), small_runs _ (by decide), size_same.2, by decide,
    by decide, by decide⟩

/-! ## The hypotheses are met -/

/-- `sizeVerb`: two words, two readings, the combinations {verb, noun} and {noun}. -/
theorem size_inventory : Inventory (dictOf sizeVerb) [[97], [98]] [[str "VERB"], [str "NOUN"]]
    [[[str "VERB"], [str "NOUN"]], [[str "NOUN"]]] := by
  have hr : (dictOf sizeVerb).readings = [(1, [str "VERB"]), (1, [str "NOUN"]), (2, [str "NOUN"])] := by decide
  have ha : (dictOf sizeVerb).readingsFor [97] = [[str "VERB"], [str "NOUN"]] := by decide
  have hb : (dictOf sizeVerb).readingsFor [98] = [[str "NOUN"]] := by decide
  have hn : (dictOf sizeVerb).nodes = [[], [97], [98]] := by decide
  have hc : (dictOf sizeVerb).combination [97] = [[str "VERB"], [str "NOUN"]] := by decide
  have hd : (dictOf sizeVerb).combination [98] = [[str "NOUN"]] := by decide
  have only : ∀ w, (dictOf sizeVerb).readingsFor w ≠ [] → w = [97] ∨ w = [98] := by
    intro w hw
    obtain ⟨n, hm⟩ := List.exists_mem_of_ne_nil _ hw
    obtain ⟨k, hk, he⟩ := mem_readingsFor.1 hm
    rw [hr] at he
    rw [hn] at hk
    simp only [List.mem_cons, List.not_mem_nil, or_false, Prod.mk.injEq] at he
    rcases he with ⟨rfl, _⟩ | ⟨rfl, _⟩ | ⟨rfl, _⟩
    · exact .inl (Option.some.inj hk).symm
    · exact .inl (Option.some.inj hk).symm
    · exact .inr (Option.some.inj hk).symm
  have differ : ¬ [str "VERB"].Perm [str "NOUN"] := by decide
  refine ⟨?_, by decide, ?_, ?_, ?_, ?_, ?_, ?_, ?_⟩
  · intro p
    have hw : (dictOf sizeVerb).words = [[97], [98]] := by decide
    rw [hw]
    simp only [List.mem_cons, List.not_mem_nil, or_false, exists_eq_or_imp, exists_eq_left]
    constructor
    · rintro (rfl | rfl)
      · exact ⟨by decide, .inl (List.prefix_refl _)⟩
      · exact ⟨by decide, .inr (List.prefix_refl _)⟩
    · rintro ⟨h0, h1 | h1⟩
      · rcases List.prefix_cons_iff.1 h1 with rfl | ⟨t, rfl, ht⟩
        · exact absurd rfl h0
        · rw [List.prefix_nil.1 ht]; exact .inl rfl
      · rcases List.prefix_cons_iff.1 h1 with rfl | ⟨t, rfl, ht⟩
        · exact absurd rfl h0
        · rw [List.prefix_nil.1 ht]; exact .inr rfl
  · intro w names hm _
    refine ⟨names, ?_, List.Perm.refl _⟩
    rcases only w (List.ne_nil_of_mem hm) with rfl | rfl
    · rw [ha] at hm; exact hm
    · rw [hb] at hm; exact List.mem_cons_of_mem _ hm
  · intro q hq
    exact ⟨by rintro rfl; revert hq; decide, [97], q, by rw [ha]; exact hq, List.Perm.refl _⟩
  · exact .cons (fun b hb => by rw [List.mem_singleton.1 hb]; exact differ) (.cons (fun b hb => by cases hb) .nil)
  · intro w hw
    rcases only w hw with rfl | rfl
    · exact ⟨[[str "VERB"], [str "NOUN"]], .head _, by rw [hc]; exact SameSets.refl _⟩
    · exact ⟨[[str "NOUN"]], .tail _ (.head _), by rw [hd]; exact SameSets.refl _⟩
  · intro A hA
    simp only [List.mem_cons, List.not_mem_nil, or_false] at hA
    rcases hA with rfl | rfl
    · exact ⟨[97], by rw [ha]; decide, by rw [hc]; exact SameSets.refl _⟩
    · exact ⟨[98], by rw [hb]; decide, by rw [hd]; exact SameSets.refl _⟩
  · refine .cons (fun B hB => ?_) (.cons (fun b hb => by cases hb) .nil)
    rw [List.mem_singleton.1 hB]
    intro hs
    obtain ⟨b, hb, p⟩ := hs.1 [str "VERB"] (by simp)
    rw [List.mem_singleton.1 hb] at p
    exact differ p
  · intro A hA
    simp only [List.mem_cons, List.not_mem_nil, or_false] at hA
    rcases hA with rfl | rfl
    · exact .cons (fun b hb => by rw [List.mem_singleton.1 hb]; exact differ) (.cons (fun b hb => by cases hb) .nil)
    · exact .cons (fun b hb => by cases hb) .nil

example : ∃ ix, Run sizeVerb ix ∧ ix.save.err = none ∧
    spaceFor (dictOf sizeVerb).tags.length [[97], [98]] [[str "VERB"], [str "NOUN"]]
      [[[str "VERB"], [str "NOUN"]], [[str "NOUN"]]] = 114 ∧ ix.save.bytes.length = 119 ∧
    ix.optimize.1.save.bytes.length = 114 :=
  ⟨_, small_runs _ (by decide), by decide, by decide, by decide, by decide⟩

end Verif
