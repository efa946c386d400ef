import Verif.Lemmas.OptimizeWhen
import Verif.Props.Size
import Verif.Lemmas.Copy

/-!
# C105 — how much work `Optimize` is

One would expect work in proportion to the dictionary. The steps of the loops are counted (`Model/OptimizeCost.lean`), the
content is measured as for C98 (`Spec/Size.lean`): `P` are the words and their beginnings, `R` the readings, `S` the
combinations of readings, and `taggings h` are the calls that attached a reading.
-/

namespace Verif

variable {h : List Op} {ix : Index} {P : List (List Rune)} {R : List (List Str)} {S : List (List (List Str))}

/-- The steps are those of `Optimize` itself. -/
theorem C105_counted (ix : Index) : ix.optimizeT.1 = ix.optimize := optimizeT_fst ix

theorem Inventory.nodes_length (r : Run h ix) (inv : Inventory (dictOf h) P R S) :
    (dictOf h).nodes.length = P.length + 1 := by
  have hn : P.length = ix.nodesCount := by
    obtain ⟨L, l1, l2, l3⟩ := C04 r
    rw [← l2]
    refine ((List.perm_ext_iff_of_nodup inv.beginningsOnce l1).2 fun p => ?_).length_eq
    rw [l3, inv.beginnings]
  have := r.trie.nodesCount
  have := r.trie.length_pos
  omega

/-- What is stored after `Optimize`. -/
theorem Inventory.optimized (r : Run h ix) (inv : Inventory (dictOf h) P R S) :
    (ix.optimize.1.collectionIdx.flatten.map List.length).Perm (S.map List.length) ∧
    ix.optimize.1.collectionIdx.length = longest S ∧
    ix.tagSets.flatten.length = R.length ∧ ix.tagSets.length = longest R := by
  obtain ⟨ho, _, hT, _, hu, _⟩ := optimize_spec r.trie r.tag r.caps
  have r' := r.optimized
  have he : dictOf (h ++ [.optimize]) = dictOf h := by rw [dictOf_append]; rfl
  have inv' : Inventory (dictOf (h ++ [.optimize])) P R S := he.symm ▸ inv
  have h1 := r.reading_lengths inv
  have h2 := r'.combination_lengths hu inv'
  have hst := r.stored
  have hst' := r'.stored
  refine ⟨h2, ?_, ?_, ?_⟩
  · rw [← r'.tag.colls.longest_flatten hst'.2.2, longest_perm h2]
  · rw [← List.length_map (f := List.length), h1.length_eq, List.length_map]
  · rw [← r.tag.sets.longest_flatten hst.2.1, longest_perm h1]

/-- C105: the work grows in proportion to the content, to the calls that attached a reading, and to the square of the
number of different combinations. Missing: work in proportion to the content alone, which `C105_grows` rules out. -/
theorem C105_partial (r : Run h ix) (inv : Inventory (dictOf h) P R S) :
    ix.optimizeT.2 ≤ 2 * P.length + 6 * taggings h + R.length + longest R + 2 * longest S + S.length +
      S.length * (S.length + 1) * (longest S + 1) + 32 := by
  obtain ⟨i1, i2, i3, i4⟩ := inv.optimized r
  have hn := inv.nodes_length r
  have hs : ix.items.items.length ≤ (dictOf h).nodes.length + 15 := r.slots
  obtain ⟨k1, k2⟩ := r.stored_le
  have hk := knownID_length_le ix.collectionIdx
  have hS : ix.optimize.1.collectionIdx.flatten.length = S.length := by
    rw [← List.length_map (f := List.length), i1.length_eq, List.length_map]
  by_cases hu : (ix.collectionIdx.knownID.filter fun id => (Index.usedCollections ix.items.items id).isNone).length = 0
  · unfold Index.optimizeT VariantsIndex.knownIDT
    simp only [tables_sum]
    rw [if_pos hu]
    simp only
    omega
  · obtain ⟨acc, c2, c3, e, hb, hinv, hfst, e2, e3⟩ := optimizeT_busy r hu
    have hnd : (acc.map (·.1)).Nodup := by
      rw [hfst]; exact (run_nodup r).filter _
    have hacc := hinv.acc_le r.tag.colls r.caps.collTables r.caps.colls hnd
    have hb4 := (optimizeBuildT_cost r.tag.colls r.caps.collTables r.caps.colls _ _ (run_known r) [] [] (buildInv_nil _) hb).2.2.2
      S.length (fun i => by rw [← hS]; exact col_le_flatten _ i)
    have hc3 := replaceAllT_cost (Index.usedCollections ix.items.items) acc ix.items.items
    have hus := users_le ix.items.items (acc.map (·.1)) hnd
    rw [List.map_map] at hus
    have hus' : (acc.map fun ab => ((Index.usedCollections ix.items.items ab.1).getD []).length).sum ≤ ix.items.items.length := hus
    rw [← e2, ← hfst, List.length_map, i2, List.length_nil] at hb4
    rw [← e3] at hc3
    have hm : acc.length * (S.length * (longest S + 1) + longest S) ≤
        S.length * (S.length * (longest S + 1) + longest S) := Nat.mul_le_mul_right _ (by omega)
    have hx : S.length * (S.length + 1) * (longest S + 1) =
        S.length * (S.length * (longest S + 1) + longest S) + S.length := by
      rw [Nat.mul_assoc, Nat.add_mul, Nat.one_mul, ← Nat.add_assoc, Nat.mul_add, Nat.mul_one]
    rw [e, i2, i3, i4, hS]
    omega

/-- C105: if `Optimize` changes what would be saved, each two different combinations with the same number of readings
are compared. -/
theorem C105_grows (r : Run h ix) (inv : Inventory (dictOf h) P R S)
    (hc : ix.optimize.1.save.bytes ≠ ix.save.bytes) (m : Nat) :
    (S.filter fun A => A.length = m).length * ((S.filter fun A => A.length = m).length - 1) ≤ 2 * ix.optimizeT.2 := by
  obtain ⟨i1, _⟩ := inv.optimized r
  obtain ⟨_, _, hT, _⟩ := optimize_spec r.trie r.tag r.caps
  have hu : (ix.collectionIdx.knownID.filter fun id => (Index.usedCollections ix.items.items id).isNone).length ≠ 0 := by
    intro h0
    apply hc
    unfold Index.optimize
    simp only
    rw [if_pos h0]
  obtain ⟨acc, c2, c3, e, hb, hinv, hfst, e2, e3⟩ := optimizeT_busy r hu
  have hb3 := (optimizeBuildT_cost r.tag.colls r.caps.collTables r.caps.colls _ _ (run_known r) [] [] (buildInv_nil _) hb).2.2.1
    (m - 1)
  have hcount : (S.filter fun A => A.length = m).length ≤ (ix.optimize.1.collectionIdx.getD (m - 1) []).length := by
    have hS : (S.filter fun A => A.length = m).length = (S.map List.length).countP (· = m) := by
      rw [List.countP_map, List.countP_eq_length_filter]; rfl
    have hC : (ix.optimize.1.collectionIdx.flatten.map List.length).countP (· = m) =
        (ix.optimize.1.collectionIdx.flatten.filter fun c => c.length = m).length := by
      rw [List.countP_map, List.countP_eq_length_filter]; rfl
    rw [hS, ← i1.countP_eq, hC]
    refine (List.subperm_of_subset (hT.colls.nodup_flatten.filter _) ?_).length_le
    intro c hcm
    obtain ⟨h1, h2⟩ := List.mem_filter.1 hcm
    obtain ⟨p, hp⟩ := mem_flatten_gGet.1 h1
    have hl := (gGet_sorted hT.colls hp).2
    have h2 : c.length = m := by simpa using h2
    have : m - 1 = p.1 := by omega
    rw [this]
    exact gGet_mem hp
  have hmono : ∀ a b : Nat, a ≤ b → a * (a - 1) ≤ b * (b - 1) := fun a b hab => Nat.mul_le_mul hab (by omega)
  refine (hmono _ _ hcount).trans (hb3.trans ?_)
  simp only [List.getD_nil, List.length_nil, Nat.zero_mul, Nat.zero_add]
  rw [← e2, e]
  omega

theorem sameSets_length {A B : List (List Str)} (hs : SameSets A B) (ha : A.Pairwise fun a b => ¬ a.Perm b)
    (hb : B.Pairwise fun a b => ¬ a.Perm b) : A.length = B.length := by
  have half : ∀ {A B : List (List Str)}, A.Pairwise (fun a b => ¬ a.Perm b) → (∀ a ∈ A, ∃ b ∈ B, a.Perm b) →
      A.length ≤ B.length := by
    intro A
    induction A with
    | nil => intro B _ _; simp
    | cons a A ih =>
      intro B hp hm
      obtain ⟨h1, h2⟩ := List.pairwise_cons.1 hp
      obtain ⟨b, hb, pb⟩ := hm a (by simp)
      obtain ⟨s, t, rfl⟩ := List.append_of_mem hb
      have := ih (B := s ++ t) h2 fun x hx => by
        obtain ⟨y, hy, py⟩ := hm x (by simp [hx])
        refine ⟨y, ?_, py⟩
        rcases List.mem_append.1 hy with hy | hy
        · exact List.mem_append_left _ hy
        · rcases List.mem_cons.1 hy with rfl | hy
          · exact absurd (pb.trans py.symm) (h1 x hx)
          · exact List.mem_append_right _ hy
      simp only [List.length_append, List.length_cons] at this ⊢
      omega
  exact Nat.le_antisymm (half ha hs.1) (half hb fun b hb => let ⟨a, ha, p⟩ := hs.2 b hb; ⟨a, ha, p.symm⟩)

/-- C105, in terms of words: `n` words with `m` readings each, no two of them with the same ones, and `Optimize` takes at
least `n (n - 1) / 2` steps, if it changes anything. -/
theorem C105_words (r : Run h ix) (hc : ix.optimize.1.save.bytes ≠ ix.save.bytes) (m : Nat) (W : List (List Rune))
    (hd : W.Pairwise fun v w => ¬ SameSets ((dictOf h).combination v) ((dictOf h).combination w))
    (hm : ∀ w ∈ W, (dictOf h).readingsFor w ≠ [] ∧ ((dictOf h).combination w).length = m ∧
      ((dictOf h).combination w).Pairwise fun a b => ¬ a.Perm b) :
    W.length * (W.length - 1) ≤ 2 * ix.optimizeT.2 := by
  obtain ⟨P, R, S, inv⟩ := C98_inventory r
  have hle : W.length ≤ (S.filter fun A => A.length = m).length := by
    have key : ∀ (W : List (List Rune)) (T : List (List (List Str))),
        W.Pairwise (fun v w => ¬ SameSets ((dictOf h).combination v) ((dictOf h).combination w)) →
        (∀ w ∈ W, ∃ A ∈ T, SameSets ((dictOf h).combination w) A) → W.length ≤ T.length := by
      intro W
      induction W with
      | nil => intro T _ _; simp
      | cons w W ih =>
        intro T hp hm
        obtain ⟨h1, h2⟩ := List.pairwise_cons.1 hp
        obtain ⟨A, hA, hs⟩ := hm w (by simp)
        obtain ⟨s, t, rfl⟩ := List.append_of_mem hA
        have := ih (s ++ t) h2 fun x hx => by
          obtain ⟨B, hB, hs'⟩ := hm x (by simp [hx])
          refine ⟨B, ?_, hs'⟩
          rcases List.mem_append.1 hB with hB | hB
          · exact List.mem_append_left _ hB
          · rcases List.mem_cons.1 hB with rfl | hB
            · exact absurd (hs.trans hs'.symm) (h1 x hx)
            · exact List.mem_append_right _ hB
        simp only [List.length_append, List.length_cons] at this ⊢
        omega
    refine key _ _ hd fun w hw => ?_
    obtain ⟨h1, h2, h3⟩ := hm w hw
    obtain ⟨A, hA, hs⟩ := inv.combinations w h1
    refine ⟨A, List.mem_filter.2 ⟨hA, ?_⟩, hs⟩
    have := sameSets_length hs h3 (inv.once A hA)
    simp only [decide_eq_true_eq]
    omega
  exact (Nat.mul_le_mul hle (by omega)).trans (C105_grows r inv hc m)

/-- C105: if a word once had a combination of readings that no word has now, and `Optimize` has not been called since,
`Optimize` makes the file shorter. -/
theorem C105_left {q t : List Op} (r : Run (q ++ t) ix) (ho : .optimize ∉ t) (hs : ix.save.err = none) (w : List Rune)
    (hw : (dictOf q).readingsFor w ≠ [])
    (hno : ∀ v, ¬ SameSets ((dictOf (q ++ t)).combination v) (((dictOf q).readingsFor w).map (dictOf (q ++ t)).kept)) :
    ix.optimize.1.save.bytes.length < ix.save.bytes.length := by
  obtain ⟨jx, rq⟩ := r.before
  obtain ⟨n, hn⟩ := List.exists_mem_of_ne_nil _ hw
  obtain ⟨k, hk, hr⟩ := mem_readingsFor.1 hn
  obtain ⟨_, hkn, i, hi⟩ := rq.tag.readings k n hr
  have hki : k < jx.items.items.length := Nat.lt_of_lt_of_le hkn rq.trie.cap
  obtain ⟨c, hc, hm⟩ := rq.tag.vars k _ hkn (List.getElem?_eq_getElem hki)
  have hic : i ∈ c := (hm i).2 ⟨n, hr, hi⟩
  have hat : ∀ n, n ∈ (dictOf q).readingsFor w ↔ (k, n) ∈ (dictOf q).readings := by
    intro n
    rw [readingsFor_eq rq.trie.nodup hk, mem_attached]
  have hA : ∀ n ∈ (dictOf q).readingsFor w, ∃ i, TSId (dictOf (q ++ t)).tags ix.tagSets n i := by
    intro n hn
    obtain ⟨_, _, i, hi⟩ := rq.tag.readings k n ((hat n).1 hn)
    exact ⟨i, rq.tsid_mono r hi⟩
  have hc2 : ∀ i, i ∈ c ↔ ∃ n ∈ (dictOf q).readingsFor w, TSId (dictOf (q ++ t)).tags ix.tagSets n i := by
    intro i
    rw [hm]
    constructor
    · rintro ⟨n, hn, hi⟩; exact ⟨n, (hat n).2 hn, rq.tsid_mono r hi⟩
    · rintro ⟨n, hn, hi⟩
      obtain ⟨_, _, j, hj⟩ := rq.tag.readings k n ((hat n).1 hn)
      rw [TSId.unique r.tag.sets hi (rq.tsid_mono r hj)]
      exact ⟨n, (hat n).1 hn, hj⟩
  rcases hc with ⟨_, rfl⟩ | ⟨p, hp, _⟩
  · cases hic
  · have hp' := rq.keeps_colls r ho p c hp
    refine optimize_shorter r hs hp' fun it hit hv => ?_
    obtain ⟨k', v, hv', hm'⟩ := r.user hp' hit hv
    exact hno v ((r.same_coll hA hc2 hv' hm').1 fun _ => Iff.rfl)

/-- C105: that is the only reason: `Optimize` changes what would be saved exactly if, since it was called last, some word had
a combination of readings that no word has now. -/
theorem C105_exact (r : Run h ix) (hs : ix.save.err = none) :
    ix.optimize.1.save.bytes ≠ ix.save.bytes ↔
    ∃ q t, h = q ++ t ∧ .optimize ∉ t ∧ ∃ w, (dictOf q).readingsFor w ≠ [] ∧
      ∀ v, ¬ SameSets ((dictOf h).combination v) (((dictOf q).readingsFor w).map (dictOf h).kept) := by
  constructor
  · intro hc
    have hu : ∃ id ∈ ix.collectionIdx.knownID, ∀ it ∈ ix.items.items, it.variants ≠ id := by
      by_contra hn
      push Not at hn
      apply hc
      have hnil : (ix.collectionIdx.knownID.filter
          fun id => (Index.usedCollections ix.items.items id).isNone).length = 0 := by
        rw [List.length_eq_zero_iff, List.filter_eq_nil_iff]
        intro id hid
        obtain ⟨q, c, rfl, hq⟩ := run_known r id hid
        have hb := gGet_bounds r.caps.collTables r.caps.colls hq
        have := used_isSome.2 ⟨packV_ne_zero hb.1, hn _ hid⟩
        cases hx : Index.usedCollections ix.items.items (packV q) with
        | none => rw [hx] at this; cases this
        | some _ => simp
      unfold Index.optimize
      simp only
      rw [if_pos hnil]
    obtain ⟨id, hid, hu⟩ := hu
    obtain ⟨p, c, rfl, hp⟩ := run_known r id hid
    obtain ⟨q, t, rfl, ht, k, hm⟩ := r.combined p c hp
    have hne : (dictOf q).attached k ≠ [] := by
      have := (gGet_sorted r.tag.colls hp).2
      cases c with
      | nil => simp at this
      | cons a _ =>
        obtain ⟨n, hn, _⟩ := (hm a).1 (by simp)
        exact List.ne_nil_of_mem hn
    obtain ⟨n, hn⟩ := List.exists_mem_of_ne_nil _ hne
    obtain ⟨jx, rq⟩ := r.before
    obtain ⟨_, hkn, _⟩ := rq.tag.readings k n (mem_attached.1 hn)
    have hw := List.getElem?_eq_getElem hkn
    rw [← readingsFor_eq rq.trie.nodup hw] at hne hm
    refine ⟨q, t, rfl, ht, _, hne, fun v hv => ?_⟩
    obtain ⟨b, hb⟩ := List.exists_mem_of_ne_nil _ hne
    obtain ⟨a, ha, _⟩ := hv.2 _ (List.mem_map.2 ⟨b, hb, rfl⟩)
    obtain ⟨n', hn', _⟩ := List.mem_map.1 ha
    obtain ⟨k', hk', hr'⟩ := mem_readingsFor.1 hn'
    obtain ⟨_, hkn', i', hi'⟩ := r.tag.readings k' n' hr'
    have hki : k' < ix.items.items.length := Nat.lt_of_lt_of_le hkn' r.trie.cap
    obtain ⟨c', hc', hm'⟩ := r.tag.vars k' _ hkn' (List.getElem?_eq_getElem hki)
    have hA : ∀ n ∈ (dictOf q).readingsFor (dictOf q).nodes[k], ∃ i, TSId (dictOf (q ++ t)).tags ix.tagSets n i := by
      intro n hn
      rw [readingsFor_eq rq.trie.nodup hw] at hn
      obtain ⟨_, _, i, hi⟩ := rq.tag.readings k n (mem_attached.1 hn)
      exact ⟨i, rq.tsid_mono r hi⟩
    have hcc := (r.same_coll hA hm hk' hm').2 hv
    have hic : i' ∈ c' := (hm' i').2 ⟨n', hr', hi'⟩
    rcases hc' with ⟨_, rfl⟩ | ⟨p', hp', hv'⟩
    · cases hic
    · have g1 := (gGet_sorted r.tag.colls hp).1
      have g2 := (gGet_sorted r.tag.colls hp').1
      have : c' = c := eq_of_sorted_nodup g2 g1 (r.tag.collNodup p' c' hp') (r.tag.collNodup p c hp) hcc
      subst this
      obtain rfl := gGet_inj r.tag.colls hp hp'
      exact hu _ (List.getElem_mem hki) hv'
  · rintro ⟨q, t, rfl, ho, w, hw, hno⟩ he
    have := C105_left r ho hs w hw hno
    rw [he] at this
    exact Nat.lt_irrefl _ this

/-- C105: so as long as `Optimize` has not been called, it changes what would be saved exactly if some word once had a
combination of readings that no word has now. -/
theorem C105_when (m : Room h) (ho : .optimize ∉ h) :
    (execAll h).optimize.1.save.bytes ≠ (execAll h).save.bytes ↔
    ∃ q t, h = q ++ t ∧ ∃ w, (dictOf q).readingsFor w ≠ [] ∧
      ∀ v, ¬ SameSets ((dictOf h).combination v) (((dictOf q).readingsFor w).map (dictOf h).kept) := by
  obtain ⟨r, o⟩ := run_of_room h m
  have hs : (execAll h).save.err = none := by
    rw [save_err]
    intro t ht
    rw [r.tag.tags] at ht
    have := o.savable t ht
    exact ⟨this.2.2, .inr this.1⟩
  rw [C105_exact r hs]
  constructor
  · rintro ⟨q, t, h1, _, h2⟩; exact ⟨q, t, h1, h2⟩
  · rintro ⟨q, t, rfl, h2⟩; exact ⟨q, t, rfl, fun hm => ho (List.mem_append_right _ hm), h2⟩

/-- C105: when `Optimize` has been called, calling it again is work in proportion to the content. -/
theorem C105_again (r : Run h ix) (inv : Inventory (dictOf h) P R S) :
    ix.optimize.1.optimizeT.2 ≤ P.length + longest S + 2 * S.length + 16 := by
  obtain ⟨i1, i2, _, _⟩ := inv.optimized r
  obtain ⟨ho, _, hT, _, hu, _⟩ := optimize_spec r.trie r.tag r.caps
  have r' := r.optimized
  have he : dictOf (h ++ [.optimize]) = dictOf h := by rw [dictOf_append]; rfl
  have hn := inv.nodes_length r
  have hs : ix.optimize.1.items.items.length ≤ (dictOf (h ++ [.optimize])).nodes.length + 15 := r'.slots
  have hS : ix.optimize.1.collectionIdx.flatten.length = S.length := by
    rw [← List.length_map (f := List.length), i1.length_eq, List.length_map]
  have hk := knownID_length_le ix.optimize.1.collectionIdx
  rw [he] at hs
  rw [optimizeT_idle r' hu, i2, hS]
  omega

/-! ## The hypotheses are met -/

/-- "a" is a noun, then also a verb; "b" a verb, "c" an adjective, "d" a preposition. -/
def costlyEntries : List Op :=
  [.tagID (str "NOUN") [], .tagID (str "VERB") [], .tagID (str "ADJF") [], .tagID (str "PREP") [],
   .addRunes [97], .addRunes [98], .addRunes [99], .addRunes [100],
   .addTagSet 1 [str "NOUN"], .addTagSet 1 [str "VERB"], .addTagSet 2 [str "VERB"], .addTagSet 3 [str "ADJF"],
   .addTagSet 4 [str "PREP"]]

/-- `costlyEntries` takes 64 steps, 3 of them to compare the readings of "b", "c" and "d" with one another; done again, it takes 18. -/
example : ∃ ix, Run costlyEntries ix ∧ ix.optimize.1.save.bytes ≠ ix.save.bytes ∧
    3 * (3 - 1) ≤ 2 * ix.optimizeT.2 ∧ ix.optimizeT.2 = 64 ∧ ix.optimize.1.optimizeT.2 = 18 := by
  have r := small_runs costlyEntries (by decide)
  have hc : (costlyEntries.foldl Op.exec Index.new).optimize.1.save.bytes ≠
      (costlyEntries.foldl Op.exec Index.new).save.bytes := by decide
  refine ⟨_, r, hc, C105_words r hc 1 [[98], [99], [100]] ?_ ?_, by decide, by decide⟩
  · have e1 : (dictOf costlyEntries).combination [98] = [[str "VERB"]] := by decide
    have e2 : (dictOf costlyEntries).combination [99] = [[str "ADJF"]] := by decide
    have e3 : (dictOf costlyEntries).combination [100] = [[str "PREP"]] := by decide
    have one : ∀ a b : List Str, ¬ a.Perm b → ¬ SameSets [a] [b] := by
      intro a b hab hs
      obtain ⟨x, hx, p⟩ := hs.1 a (by simp)
      rw [List.mem_singleton.1 hx] at p
      exact hab p
    refine .cons (fun w hw => ?_) (.cons (fun w hw => ?_) (.cons (fun w hw => by cases hw) .nil))
    · rcases List.mem_cons.1 hw with rfl | hw
      · rw [e1, e2]; exact one _ _ (by decide)
      · rw [List.mem_singleton.1 hw, e1, e3]; exact one _ _ (by decide)
    · rw [List.mem_singleton.1 hw, e2, e3]; exact one _ _ (by decide)
  · intro w hw
    simp only [List.mem_cons, List.not_mem_nil, or_false] at hw
    rcases hw with rfl | rfl | rfl <;> exact ⟨by decide, by decide, by decide⟩

/-- What has made `costlyEntries` change: "a" was only a noun, and now nothing is. -/
example : Room costlyEntries ∧ .optimize ∉ costlyEntries ∧ ∃ q t, costlyEntries = q ++ t ∧ ∃ w, (dictOf q).readingsFor w ≠ [] ∧
    ∀ v, ¬ SameSets ((dictOf costlyEntries).combination v) (((dictOf q).readingsFor w).map (dictOf costlyEntries).kept) := by
  have m : Room costlyEntries := (by decide : Small costlyEntries).toRoom
  have ho : Op.optimize ∉ costlyEntries := by simp [costlyEntries]
  exact ⟨m, ho, (C105_when m ho).1 (by decide)⟩

/-- With the readings attached in this order, each combination a word had is one that some word has, and `Optimize` changes
nothing. -/
def cheapEntries : List Op :=
  [.tagID (str "NOUN") [], .tagID (str "VERB") [], .addRunes [97], .addRunes [98],
   .addTagSet 1 [str "VERB"], .addTagSet 2 [str "VERB"], .addTagSet 2 [str "NOUN"]]

example : ∀ q t, cheapEntries = q ++ t → ∀ w, (dictOf q).readingsFor w ≠ [] →
    ∃ v, SameSets ((dictOf cheapEntries).combination v) (((dictOf q).readingsFor w).map (dictOf cheapEntries).kept) := by
  intro q t e w hw
  by_contra hn
  push Not at hn
  exact (C105_when (by decide : Small cheapEntries).toRoom (by simp [cheapEntries])).2 ⟨q, t, e, w, hw, hn⟩ (by decide)

set_option maxRecDepth 8000 in
/-- What was before the last `Optimize` does not matter; what comes after does: when "b" gets a second reading, no word is only
a verb any more. -/
example :
    (∃ ix, Run (costlyEntries ++ [.optimize]) ix ∧ ix.save.err = none ∧ ix.optimize.1.save.bytes = ix.save.bytes) ∧
    ∃ ix, Run (costlyEntries ++ [.optimize, .addTagSet 2 [str "NOUN"]]) ix ∧ ix.save.err = none ∧
      ix.optimize.1.save.bytes ≠ ix.save.bytes :=
  ⟨⟨_, small_runs _ (by decide), by decide, by decide⟩, ⟨_, small_runs _ (by decide), by decide, by decide⟩⟩

/-- `sizeVerb` meets the bounds. -/
example : ∃ ix, Run sizeVerb ix ∧ ix.optimizeT.2 ≤ 2 * 2 + 6 * 3 + 2 + 1 + 2 * 2 + 2 + 2 * (2 + 1) * (2 + 1) + 32 ∧
    ix.optimize.1.optimizeT.2 ≤ 2 + 2 + 2 * 2 + 16 :=
  ⟨_, small_runs _ (by decide), C105_partial (small_runs _ (by decide)) size_inventory,
    C105_again (small_runs _ (by decide)) size_inventory⟩

end Verif
