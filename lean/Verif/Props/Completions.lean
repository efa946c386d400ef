import Verif.Lemmas.Completions
import Verif.Lemmas.Copy
import Verif.Lemmas.Output
import Verif.Props.Size
import Verif.Props.Tagging

/-!
# C100 — walking the children of a word finds everything that begins with it

The program is in `Spec/Completions.lean`.
-/

namespace Verif

theorem Run.starts {h : List Op} {ix : Index} (r : Run h ix) {w : List Rune} {n : ID} (hs : StartsAt ix w n)
    (hz : NoReload h ∨ w ≠ [] ∧ NoLeadingNul w) :
    (dictOf h).nodes[n.toNat]? = some w ∧ ((dictOf h).nul = false ∨ w ≠ []) ∧
      ∀ v, (dictOf h).join [] (w ++ v) = w ++ v := by
  have hj : ∀ v, (dictOf h).join [] (w ++ v) = w ++ v := by
    intro v
    refine Dict.join_root ?_
    rcases hz with hz | ⟨h0, hz⟩
    · exact .inl (dictOf_nul h hz)
    · refine .inr ?_
      cases w with
      | nil => exact absurd rfl h0
      | cons a w => simpa [NoLeadingNul] using hz
  refine ⟨?_, ?_, hj⟩
  · rcases hs with ⟨rfl, rfl⟩ | hs
    · exact r.trie.root
    · have := ((r.trie.fetchRoot_iff w n).1 hs).2
      have hj0 := hj []
      rw [List.append_nil] at hj0
      rwa [hj0] at this
  · rcases hz with hz | hz
    · exact .inl (dictOf_nul h hz)
    · exact .inr hz.1

/-- C100: from a word that is found, or from the root, the walk ends, and it has visited the node itself and the nodes
of the words that begin with the word, each once. The order in which the maps are visited does not matter. Missing: the
root, and words that begin with the character NUL, of an index that was loaded from a file (`not_C100`). -/
theorem C100_partial {h : List Op} {ix : Index} (r : Run h ix) {order : ID → List (Rune × ID)}
    (ho : VisitsChildren ix order) {w : List Rune} {n : ID} (hs : StartsAt ix w n)
    (hz : NoReload h ∨ w ≠ [] ∧ NoLeadingNul w) :
    ∃ L, (∀ depth, ix.nodesCount < depth → completions order depth n = some L) ∧ L.Nodup ∧
      ∀ x, x ∈ L ↔ x = n ∨ ∃ v, v ≠ [] ∧ (ix.fetchRunes (w ++ v)).2 = .ok x := by
  obtain ⟨hw, hn, hj⟩ := r.starts hs hz
  have hpos := r.trie.length_pos
  obtain ⟨L, hL, hd, hm, _⟩ := r.trie.completions ho (dictOf h).nodes.length n w hw hn (by omega)
  refine ⟨L, fun depth hdep => ?_, hd, fun x => ?_⟩
  · rw [r.trie.nodesCount] at hdep
    have := hL (depth - (dictOf h).nodes.length)
    rwa [show (dictOf h).nodes.length + (depth - (dictOf h).nodes.length) = depth by omega] at this
  · rw [hm]
    constructor
    · rintro ⟨u, hu, v, rfl⟩
      by_cases hv : v = []
      · subst hv
        rw [List.append_nil] at hu
        exact .inl (UInt32.toNat_inj.1 (r.trie.idx_unique hu hw))
      · exact .inr ⟨v, hv, (r.trie.fetchRoot_iff _ _).2 ⟨by simp [hv], by rw [hj]; exact hu⟩⟩
    · rintro (rfl | ⟨v, _, hv⟩)
      · exact ⟨w, hw, List.prefix_refl _⟩
      · have := ((r.trie.fetchRoot_iff _ _).1 hv).2
        rw [hj] at this
        exact ⟨_, this, List.prefix_append _ _⟩

/-- If the children are visited in the order of their characters — whatever order that is — the words come in dictionary
order. -/
theorem C100_ordered {h : List Op} {ix : Index} (r : Run h ix) {order : ID → List (Rune × ID)}
    (ho : VisitsChildren ix order) {w : List Rune} {n : ID} (hs : StartsAt ix w n)
    (hz : NoReload h ∨ w ≠ [] ∧ NoLeadingNul w) {lt : Rune → Rune → Prop}
    (hlt : ∀ id, (order id).Pairwise fun a b => lt a.1 b.1) {depth : Nat} {L : List ID}
    (hL : completions order depth n = some L) :
    L.Pairwise fun x y => ∀ u v, StartsAt ix (w ++ u) x → StartsAt ix (w ++ v) y → LexBefore lt (w ++ u) (w ++ v) := by
  obtain ⟨hw, hn, hj⟩ := r.starts hs hz
  have hpos := r.trie.length_pos
  obtain ⟨L', hL', _, _, hp⟩ := r.trie.completions ho (dictOf h).nodes.length n w hw hn (by omega)
  have e : L = L' := by
    have h1 := completions_mono order (m := (dictOf h).nodes.length) hL
    rw [Nat.add_comm, hL' depth] at h1
    exact (Option.some.inj h1).symm
  subst e
  have at_ : ∀ {u : List Rune} {x : ID}, StartsAt ix (w ++ u) x → (dictOf h).nodes[x.toNat]? = some (w ++ u) := by
    intro u x hx
    rcases hx with ⟨h0, rfl⟩ | hx
    · rw [h0]; exact r.trie.root
    · have := ((r.trie.fetchRoot_iff _ _).1 hx).2
      rwa [hj] at this
  refine (hp lt hlt).imp ?_
  intro x y hxy u v hu hv
  exact hxy _ _ (at_ hu) (at_ hv)

/-- From the root the walk visits every number from 0 to `NodesCount` once, and `WordsCount` of them have readings. -/
theorem C100_root {h : List Op} {ix : Index} (r : Run h ix) (hr : NoReload h) {order : ID → List (Rune × ID)}
    (ho : VisitsChildren ix order) : ∃ L, (∀ depth, ix.nodesCount < depth → completions order depth 0 = some L) ∧
      L.Perm ((List.range (ix.nodesCount + 1)).map UInt32.ofNat) ∧
      ((L.erase 0).filter fun x => ix.tagSetsOf x ≠ .ok []).length = ix.wordsCount := by
  have hpos := r.trie.length_pos
  have hlt := r.trie.length_lt
  have hnc := r.trie.nodesCount
  obtain ⟨L, hL, hd, hm, _⟩ := r.trie.completions ho (dictOf h).nodes.length 0 [] r.trie.root (.inl (dictOf_nul h hr)) (by omega)
  have hin : ∀ x : ID, x ∈ L ↔ x.toNat < (dictOf h).nodes.length := by
    intro x
    rw [hm]
    constructor
    · rintro ⟨v, hv, _⟩; exact TrieOK.lt_next hv
    · intro hx; exact ⟨_, List.getElem?_eq_getElem hx, List.nil_prefix⟩
  refine ⟨L, fun depth hdep => ?_, ?_, ?_⟩
  · have := hL (depth - (dictOf h).nodes.length)
    rwa [show (dictOf h).nodes.length + (depth - (dictOf h).nodes.length) = depth by omega] at this
  · rw [List.perm_ext_iff_of_nodup hd]
    · intro x
      rw [hin, List.mem_map]
      constructor
      · intro hx
        exact ⟨x.toNat, List.mem_range.2 (by omega), UInt32.ofNat_toNat⟩
      · rintro ⟨k, hk, rfl⟩
        rw [List.mem_range] at hk
        rw [toNat_ofNat_lt (by omega)]
        omega
    · refine List.Nodup.map_on ?_ List.nodup_range
      intro a ha b hb hab
      rw [List.mem_range] at ha hb
      have := congrArg UInt32.toNat hab
      rwa [toNat_ofNat_lt (by omega), toNat_ofNat_lt (by omega)] at this
  · obtain ⟨M, hMd, hMl, hM⟩ := C12 r
    rw [← hMl, ← List.length_map (f := UInt32.toNat)]
    refine List.Perm.length_eq ((List.perm_ext_iff_of_nodup ?_ hMd).2 ?_)
    · exact ((hd.erase 0).filter _).map fun a b hab => UInt32.toNat_inj.1 hab
    · intro k
      rw [hM, List.mem_map]
      constructor
      · rintro ⟨x, hx, rfl⟩
        rw [List.mem_filter, hd.mem_erase_iff, hin, decide_eq_true_eq] at hx
        have h0 : 0 < x.toNat := Nat.pos_of_ne_zero fun h0 => hx.1.1 (UInt32.toNat_inj.1 h0)
        obtain ⟨h1, h2⟩ := r.shown_at h0 hx.1.2
        rw [UInt32.ofNat_toNat] at h1
        rw [h1] at hx
        exact fun ha => hx.2 (by rw [h2.empty_iff.2 ha])
      · intro ha
        obtain ⟨names, hn⟩ := List.exists_mem_of_ne_nil _ ha
        obtain ⟨h0, h1, _⟩ := r.tag.readings _ _ (mem_attached.1 hn)
        refine ⟨UInt32.ofNat k, ?_, toNat_ofNat_lt (by omega)⟩
        obtain ⟨h2, h3⟩ := r.shown_at h0 h1
        rw [List.mem_filter, hd.mem_erase_iff, hin, toNat_ofNat_lt (by omega), decide_eq_true_eq, h2]
        refine ⟨⟨?_, h1⟩, fun he => ha (h3.empty_iff.1 ?_)⟩
        · intro he
          have := congrArg UInt32.toNat he
          rw [toNat_ofNat_lt (by omega)] at this
          simp at this; omega
        · injection he

/-- From the root the walk ends exactly if the root is not its own child under the character NUL. -/
theorem C100_exact {h : List Op} {ix : Index} (r : Run h ix) {order : ID → List (Rune × ID)}
    (ho : VisitsChildren ix order) :
    (∃ depth L, completions order depth 0 = some L) ↔ ix.getChildrenMap 0 0 ≠ some 0 := by
  constructor
  · rintro ⟨depth, L, hL⟩ h0
    rw [completions_loop ho h0] at hL
    cases hL
  · intro h0
    have hn : (dictOf h).nul = false := by
      cases hn : (dictOf h).nul with
      | false => rfl
      | true => exact absurd ((r.trie.child 0 0 0).2 (.inr ⟨hn, rfl, rfl, rfl⟩)) h0
    obtain ⟨L, hL, _⟩ := r.trie.completions ho (dictOf h).nodes.length 0 [] r.trie.root (.inl hn) (by omega)
    exact ⟨_, L, hL 0⟩

/-- C100 does not hold: after saving and loading the root is its own child, and the walk from it goes on forever. -/
theorem not_C100 : ∃ ix, Run [.addString (str "ab"), .reload] ix ∧ ix.nodesCount = 2 ∧ ∀ order, VisitsChildren ix order →
    ∀ depth, completions order depth 0 = none :=
  have r := small_runs [.addString (str "ab"), .reload] (by decide)
  ⟨_, r, by decide, fun _ ho depth => completions_loop (c := 0) ho (by decide) depth⟩

/-! ## The hypotheses are met -/

/-- The maps of children can be visited. -/
theorem visits_exists (ix : Index) : ∃ order, VisitsChildren ix order :=
  ⟨fun id => (enumerable_of 4294967296 _ int32_surj (ix.getChildrenMap id)).choose,
    fun id => (enumerable_of 4294967296 _ int32_surj (ix.getChildrenMap id)).choose_spec⟩

/-- The maps can be visited in the order of the code points. -/
theorem visits_sorted (ix : Index) : ∃ order, VisitsChildren ix order ∧
    ∀ id, (order id).Pairwise fun a b => a.1.toInt < b.1.toInt := by
  obtain ⟨order, ho⟩ := visits_exists ix
  refine ⟨fun id => (order id).mergeSort fun a b => decide (a.1.toInt ≤ b.1.toInt), fun id => ⟨fun k v => ?_, ?_⟩, fun id => ?_⟩
  · rw [List.mem_mergeSort, (ho id).mem]
  · exact (((List.mergeSort_perm _ _).map _).nodup_iff).2 (ho id).once
  · have h1 := List.pairwise_mergeSort (le := fun a b : Rune × ID => decide (a.1.toInt ≤ b.1.toInt))
      (by intro a b c; simp only [decide_eq_true_eq]; omega) (by intro a b; simp only [Bool.or_eq_true, decide_eq_true_eq]; omega)
      (order id)
    have h2 : ((order id).mergeSort fun a b => decide (a.1.toInt ≤ b.1.toInt)).Pairwise fun a b => a.1 ≠ b.1 :=
      List.pairwise_map.1 ((((List.mergeSort_perm _ _).map _).nodup_iff).2 (ho id).once)
    refine (h1.and h2).imp fun {a b} hab => ?_
    have h3 : a.1.toInt ≠ b.1.toInt := fun e => hab.2 (Int32.toInt_inj.1 e)
    have h4 := of_decide_eq_true hab.1
    omega

/-- Words with common beginnings, with readings. -/
def walkSample : List Op :=
  [.addString (str "ab"), .addString (str "b"), .addString (str "acd"), .addString (str "abba"), .tagID (str "NOUN") [],
   .addTagSet 2 [str "NOUN"], .addTagSet 5 [str "NOUN"]]

example : ∃ ix order, Run walkSample ix ∧ NoReload walkSample ∧ VisitsChildren ix order ∧ StartsAt ix [97, 98] 2 ∧
    StartsAt ix [] 0 ∧ ix.wordsCount = 2 ∧ ix.nodesCount = 7 :=
  have r := small_runs walkSample (by decide)
  have ⟨o, ho⟩ := visits_exists (execAll walkSample)
  ⟨_, o, r, by simp [NoReload, walkSample], ho, .inr (by decide), .inl ⟨rfl, rfl⟩, by decide, by decide⟩

/-- After loading, from a word. -/
example : ∃ ix order, Run (walkSample ++ [.reload]) ix ∧ VisitsChildren ix order ∧ StartsAt ix [97] 1 ∧ NoLeadingNul [97] := by
  have r := small_runs (walkSample ++ [.reload]) (by decide)
  obtain ⟨o, ho⟩ := visits_exists (execAll (walkSample ++ [.reload]))
  exact ⟨_, o, r, ho, .inr ((r.trie.fetchRoot_iff _ _).2 (by decide)), by unfold NoLeadingNul; decide⟩

end Verif
