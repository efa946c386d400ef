import Verif.Spec.Merge
import Verif.Props.Copy

/-! # Helper lemmas: merging a dictionary into another -/

namespace Verif

/-! ## The calls of a merge -/

/-- The nodes after merging the nodes `1 … n`. -/
def mergedNodes (dn sn : List (List Rune)) (n : Nat) : List (List Rune) :=
  dn ++ (sn.take (n + 1)).filter fun w => decide (w ∉ dn)

/-- The calls that merge node `k`; `N` are the nodes in the end. -/
def mergeBlock (s : Index) (N : List (List Rune)) (k : Nat) : List Op :=
  .addString (wordOf s k) ::
    (setsOf s k).map fun x => .addTagSet (UInt32.ofNat (N.idxOf (decodeRunes (wordOf s k)))) (tagNames x)

/-- The calls that merge the tags and the nodes `1 … n`. -/
def mergeCalls (s : Index) (N : List (List Rune)) (n : Nat) : List Op :=
  (s.tags.map fun t => .tagID t.name t.parent) ++ (List.range n).flatMap fun i => mergeBlock s N (i + 1)

theorem mergeCalls_succ (s : Index) (N : List (List Rune)) (n : Nat) :
    mergeCalls s N (n + 1) = mergeCalls s N n ++ mergeBlock s N (n + 1) := by
  unfold mergeCalls
  rw [List.range_succ, List.flatMap_append, ← List.append_assoc]
  simp

theorem mergeCalls_prefix (s : Index) (N : List (List Rune)) {n m : Nat} (h : n ≤ m) :
    mergeCalls s N n <+: mergeCalls s N m := by
  induction m with
  | zero =>
    have : n = 0 := by omega
    subst this; exact List.prefix_refl _
  | succ m ih =>
    rcases Nat.lt_or_ge m n with h1 | h1
    · have : n = m + 1 := by omega
      subst this; exact List.prefix_refl _
    · exact (ih h1).trans (by rw [mergeCalls_succ]; exact List.prefix_append _ _)

/-! ## What the calls build -/

theorem dict_tagIDs_after (h : List Op) (T : List Tag) (hn : (T.map (·.name)).Nodup) (hp : ∀ t ∈ T, t.parent ≠ []) :
    dictOf (h ++ T.map fun t => Op.tagID t.name t.parent) =
      { dictOf h with tags := (dictOf h).tags ++ T.filter fun t => !((dictOf h).tags.any fun t' => t'.name == t.name) } := by
  induction T using list_reverse_induction with
  | nil => simp
  | snoc T t ih =>
    rw [List.map_append, List.map_cons, List.map_nil, ← List.append_assoc, dictOf_append,
      ih (by rw [List.map_append] at hn; exact (List.nodup_append.1 hn).1) (fun t ht => hp t (by simp [ht]))]
    have hnew : newTag t.parent t.name = t := by
      unfold newTag
      rw [if_neg (hp t (by simp))]
    have hhas : ({ dictOf h with tags := (dictOf h).tags ++ T.filter fun t => !((dictOf h).tags.any fun t' => t'.name == t.name) } : Dict).hasTag t.name =
        (dictOf h).tags.any fun t' => t'.name == t.name := by
      unfold Dict.hasTag
      simp only
      rw [List.any_append]
      have : (T.filter fun t => !((dictOf h).tags.any fun t' => t'.name == t.name)).any (fun t' => t'.name == t.name) = false := by
        rw [List.any_eq_false]
        intro t' ht'
        simp only [beq_iff_eq]
        intro e
        rw [List.map_append, List.nodup_append] at hn
        exact hn.2.2 t'.name (List.mem_map.2 ⟨t', List.mem_of_mem_filter ht', rfl⟩) t.name (by simp) e
      rw [this, Bool.or_false]
    simp only [Op.spec, hhas, hnew]
    rw [List.filter_append]
    by_cases ha : ((dictOf h).tags.any fun t' => t'.name == t.name) = true
    · rw [if_pos ha]
      simp [ha]
    · rw [if_neg ha]
      simp only [Bool.not_eq_true] at ha
      simp [ha]

/-- A merge in progress. -/
structure Merging (hd : List Op) (d s : Index) (ds : Dict) : Prop where
  run : Run hd d
  src : CopySource s ds
  nul : ∀ w ∈ ds.nodes, (dictOf hd).join [] w = w
  room : (mergedNodes (dictOf hd).nodes ds.nodes ds.nodes.length).length < 4294967296

theorem mergedNodes_grow {s : Index} {ds : Dict} (c : CopySource s ds) {dn : List (List Rune)} {n : Nat} {w : List Rune}
    (hw : ds.nodes[n + 1]? = some w) : w ≠ [] ∧
      addAll (mergedNodes dn ds.nodes n) (prefixes w) = mergedNodes dn ds.nodes (n + 1) := by
  obtain ⟨hne, hg⟩ := c.grow hw
  refine ⟨hne, ?_⟩
  have hsub : ∀ p ∈ prefixes w, p ∈ ds.nodes.take (n + 2) := by
    intro p hp
    rw [← hg, mem_addAll]; exact .inr hp
  have htake : ds.nodes.take (n + 2) = ds.nodes.take (n + 1) ++ [w] := by
    rw [List.take_add_one (i := n + 1), hw]; rfl
  have hnot : w ∉ ds.nodes.take (n + 1) := by
    intro hin
    obtain ⟨j, hj, hjw⟩ := List.getElem_of_mem hin
    rw [List.getElem_take] at hjw
    rw [List.length_take] at hj
    have := c.trie.idx_unique (i := j) (j := n + 1) (w := w)
      (by rw [List.getElem?_eq_getElem (by omega), hjw]) hw
    omega
  obtain ⟨v, r, e⟩ : ∃ v r, w = v ++ [r] := ⟨w.dropLast, w.getLast hne, (List.dropLast_append_getLast hne).symm⟩
  have hmem : ∀ p ∈ prefixes v, p ∈ mergedNodes dn ds.nodes n := by
    intro p hp
    have hpw : p ∈ prefixes w := by rw [e, prefixes_concat]; exact List.mem_append_left _ hp
    have hpne : p ≠ w := by
      rintro rfl
      have := (mem_prefixes.1 hp).2.length_le
      rw [e, List.length_append, List.length_singleton] at this
      omega
    have := hsub p hpw
    rw [htake, List.mem_append, List.mem_singleton] at this
    unfold mergedNodes
    rw [List.mem_append]
    by_cases hd : p ∈ dn
    · exact .inl hd
    · exact .inr (List.mem_filter.2 ⟨this.resolve_right hpne, by simpa using hd⟩)
  have hcons : prefixes w = prefixes v ++ [w] := by rw [e, prefixes_concat]
  rw [hcons, addAll_append, addAll_of_subset hmem, addAll_cons, addAll_nil]
  unfold mergedNodes
  rw [show n + 1 + 1 = n + 2 by omega, htake, List.filter_append]
  by_cases hd : w ∈ dn
  · rw [addNew_of_mem (List.mem_append_left _ hd)]
    simp [hd]
  · rw [addNew_of_not_mem]
    · simp [hd]
    · rw [List.mem_append]
      rintro (h | h)
      · exact hd h
      · exact hnot (List.mem_of_mem_filter h)

namespace Merging

variable {hd : List Op} {d s : Index} {ds : Dict}

theorem root_mem (g : Merging hd d s ds) : [] ∈ (dictOf hd).nodes := List.mem_of_getElem? g.run.trie.root

/-- The nodes in the end. -/
def all (hd : List Op) (ds : Dict) : List (List Rune) := mergedNodes (dictOf hd).nodes ds.nodes ds.nodes.length

theorem all_eq (_ : Merging hd d s ds) (n : Nat) (hn : ds.nodes.length ≤ n + 1) :
    mergedNodes (dictOf hd).nodes ds.nodes n = all hd ds := by
  unfold all mergedNodes
  rw [List.take_of_length_le (by omega), List.take_of_length_le (by omega)]

theorem prefix_all (_ : Merging hd d s ds) (n : Nat) : mergedNodes (dictOf hd).nodes ds.nodes n <+: all hd ds := by
  unfold all mergedNodes
  rw [List.prefix_append_right_inj]
  refine List.IsPrefix.filter _ ?_
  rw [List.take_of_length_le (i := ds.nodes.length + 1) (by omega)]
  exact List.take_prefix _ _

theorem mem_all (_ : Merging hd d s ds) {w : List Rune} : w ∈ all hd ds ↔ w ∈ (dictOf hd).nodes ∨ w ∈ ds.nodes := by
  unfold all mergedNodes
  rw [List.take_of_length_le (i := ds.nodes.length + 1) (by omega), List.mem_append, List.mem_filter]
  by_cases h : w ∈ (dictOf hd).nodes <;> simp [h]

theorem idx (_ : Merging hd d s ds) {w : List Rune} (hw : w ∈ all hd ds) :
    (all hd ds).idxOf w < (all hd ds).length ∧ (all hd ds)[(all hd ds).idxOf w]? = some w := by
  have := List.idxOf_lt_length_iff.2 hw
  exact ⟨this, by rw [List.getElem?_eq_getElem this]; simp⟩

theorem idx_pos (g : Merging hd d s ds) {w : List Rune} (hw : w ≠ []) : 0 < (all hd ds).idxOf w := by
  rw [Nat.pos_iff_ne_zero]
  intro h
  have hroot : (all hd ds)[0]? = some [] := by
    unfold all mergedNodes
    rw [List.getElem?_append_left (by have := g.run.trie.length_pos; omega)]
    exact g.run.trie.root
  by_cases hm : w ∈ all hd ds
  · have := (g.idx hm).2
    rw [h, hroot] at this
    exact hw (Option.some.inj this).symm
  · rw [List.idxOf_eq_length hm] at h
    rw [List.length_eq_zero_iff.1 h] at hroot
    cases hroot

end Merging

theorem merged_hasTag {a b : Dict} {T : List Tag} (hb : b.tags = a.tags ++
    T.filter (fun t => !(a.tags.any fun t' => t'.name == t.name))) {t : Tag} (ht : t ∈ T) : b.hasTag t.name = true := by
  unfold Dict.hasTag
  rw [hb, List.any_append, Bool.or_eq_true]
  by_cases h : (a.tags.any fun t' => t'.name == t.name) = true
  · exact .inl h
  · right
    rw [List.any_eq_true]
    exact ⟨t, List.mem_filter.2 ⟨ht, by simpa using h⟩, by simp⟩

/-- The dictionary built by the calls of a merge. -/
theorem Merging.dict {hd : List Op} {d s : Index} {ds : Dict} (g : Merging hd d s ds) (n : Nat) (hn : n < ds.nodes.length) :
    (dictOf (hd ++ mergeCalls s (Merging.all hd ds) n)).nodes = mergedNodes (dictOf hd).nodes ds.nodes n ∧
    (dictOf (hd ++ mergeCalls s (Merging.all hd ds) n)).tags = (dictOf hd).tags ++
      s.tags.filter (fun t => !((dictOf hd).tags.any fun t' => t'.name == t.name)) ∧
    (dictOf (hd ++ mergeCalls s (Merging.all hd ds) n)).nul = (dictOf hd).nul ∧
    (dictOf (hd ++ mergeCalls s (Merging.all hd ds) n)).readings = (dictOf hd).readings ++
      (List.range n).flatMap fun i => (setsOf s (i + 1)).map fun x =>
        ((Merging.all hd ds).idxOf (decodeRunes (wordOf s (i + 1))), tagNames x) := by
  have c := g.src
  induction n with
  | zero =>
    have e : mergeCalls s (Merging.all hd ds) 0 = s.tags.map fun t => Op.tagID t.name t.parent := by
      unfold mergeCalls; simp
    rw [e, dict_tagIDs_after _ _ (by rw [c.tags]; exact c.names) (by rw [c.tags]; exact c.parents)]
    refine ⟨?_, rfl, rfl, by simp⟩
    unfold mergedNodes
    rw [List.take_add_one (i := 0), c.trie.root]
    simp [g.root_mem]
  | succ n ih =>
    obtain ⟨i1, i2, i3, i4⟩ := ih (by omega)
    obtain ⟨w, hw⟩ : ∃ w, ds.nodes[n + 1]? = some w := ⟨_, List.getElem?_eq_getElem hn⟩
    obtain ⟨_, hdec⟩ := c.wordOf_eq hw
    obtain ⟨hne, hgrow⟩ := mergedNodes_grow c (dn := (dictOf hd).nodes) hw
    have hwm : w ∈ Merging.all hd ds := g.mem_all.2 (.inr (List.mem_of_getElem? hw))
    have e1 : dictOf (hd ++ mergeCalls s (Merging.all hd ds) n ++ [Op.addString (wordOf s (n + 1))]) =
        { dictOf (hd ++ mergeCalls s (Merging.all hd ds) n) with
          nodes := mergedNodes (dictOf hd).nodes ds.nodes (n + 1),
          words := (dictOf (hd ++ mergeCalls s (Merging.all hd ds) n)).words ++ [w] } := by
      rw [dictOf_append]
      simp only [Op.spec, Dict.insert]
      rw [hdec, i1]
      have hr : (mergedNodes (dictOf hd).nodes ds.nodes n)[0]? = some [] := by
        unfold mergedNodes
        rw [List.getElem?_append_left (by have := g.run.trie.length_pos; omega)]
        exact g.run.trie.root
      rw [hr]
      simp only
      rw [if_neg hne]
      have hj : (dictOf (hd ++ mergeCalls s (Merging.all hd ds) n)).join [] w = w := by
        have := g.nul w (List.mem_of_getElem? hw)
        unfold Dict.join at this ⊢; rw [i3]; exact this
      rw [hj, hgrow]
    have e2 : hd ++ mergeCalls s (Merging.all hd ds) (n + 1) =
        (hd ++ mergeCalls s (Merging.all hd ds) n ++ [Op.addString (wordOf s (n + 1))]) ++
        (setsOf s (n + 1)).map fun x =>
          Op.addTagSet (UInt32.ofNat ((Merging.all hd ds).idxOf (decodeRunes (wordOf s (n + 1))))) (tagNames x) := by
      rw [mergeCalls_succ]; simp [mergeBlock]
    have hroom := g.room
    have hidx : (Merging.all hd ds).idxOf w < (mergedNodes (dictOf hd).nodes ds.nodes (n + 1)).length := by
      have hm : w ∈ mergedNodes (dictOf hd).nodes ds.nodes (n + 1) := by
        rw [← hgrow, mem_addAll]; exact .inr (mem_prefixes.2 ⟨hne, List.prefix_refl _⟩)
      obtain ⟨t, ht⟩ := g.prefix_all (n + 1)
      rw [← ht, List.idxOf_append_of_mem hm]
      exact List.idxOf_lt_length_iff.2 hm
    have hle := (g.prefix_all (n + 1)).length_le
    rw [e2, hdec, dict_attach _ _ (by unfold Merging.all at hle hidx ⊢; omega) _ (g.idx_pos hne)
      (by rw [e1]; exact hidx) ?_, e1]
    · refine ⟨rfl, i2, i3, ?_⟩
      show (dictOf (hd ++ mergeCalls s (Merging.all hd ds) n)).readings ++ _ = _
      rw [i4, List.range_succ, List.flatMap_append]
      simp [hdec]
    · rw [e1]
      intro x hx t ht
      refine merged_hasTag i2 ?_
      rw [c.tags]; exact c.known _ x hx t ht

theorem grouped_none {β : Type} (f : Nat → Nat) (S : Nat → List β) (n k : Nat) (h : ∀ i, i < n → f i ≠ k) :
    ((((List.range n).flatMap fun i => (S i).map fun x => (f i, x)).filter (fun e => decide (e.1 = k))).map (·.2)) = [] := by
  rw [List.map_eq_nil_iff, List.filter_eq_nil_iff]
  intro e he
  obtain ⟨i, hi, he⟩ := List.mem_flatMap.1 he
  obtain ⟨x, _, rfl⟩ := List.mem_map.1 he
  simpa using h i (List.mem_range.1 hi)

theorem grouped_one {β : Type} (f : Nat → Nat) (S : Nat → List β) (n j : Nat) (hj : j < n)
    (h : ∀ i, i < n → f i = f j → i = j) :
    ((((List.range n).flatMap fun i => (S i).map fun x => (f i, x)).filter (fun e => decide (e.1 = f j))).map (·.2)) = S j := by
  induction n with
  | zero => omega
  | succ n ih =>
    rw [List.range_succ, List.flatMap_append, List.filter_append, List.map_append]
    simp only [List.flatMap_cons, List.flatMap_nil, List.append_nil]
    by_cases e : j = n
    · subst e
      rw [grouped_none f S j (f j) (fun i hi he => absurd (h i (by omega) he) (by omega)), List.nil_append,
        List.filter_eq_self.2]
      · rw [List.map_map]; exact List.map_id _
      · intro e he
        obtain ⟨x, _, rfl⟩ := List.mem_map.1 he
        simp
    · rw [ih (by omega) (fun i hi he => h i (by omega) he)]
      have : ((S n).map fun x => (f n, x)).filter (fun e => decide (e.1 = f j)) = [] := by
        rw [List.filter_eq_nil_iff]
        intro y hy
        obtain ⟨x, _, rfl⟩ := List.mem_map.1 hy
        simp only [decide_eq_true_eq]
        exact fun he => e (h n (by omega) he).symm
      rw [this]; simp

namespace Merging

variable {hd : List Op} {d s : Index} {ds : Dict}

theorem idx_inj (g : Merging hd d s ds) {v w : List Rune} (hv : v ∈ all hd ds)
    (e : (all hd ds).idxOf v = (all hd ds).idxOf w) (hw : w ∈ all hd ds) : v = w := by
  have h1 := (g.idx hv).2
  have h2 := (g.idx hw).2
  rw [e, h2] at h1
  exact (Option.some.inj h1).symm

theorem src_mem (g : Merging hd d s ds) {j : Nat} {w : List Rune} (hw : ds.nodes[j]? = some w) : w ∈ all hd ds :=
  g.mem_all.2 (.inr (List.mem_of_getElem? hw))

theorem readings_append (g : Merging hd d s ds) (n : Nat) (hn : n < ds.nodes.length) (k : Nat) :
    (dictOf (hd ++ mergeCalls s (all hd ds) n)).attached k = (dictOf hd).attached k ++
      ((((List.range n).flatMap fun i => ((setsOf s (i + 1)).map tagNames).map fun x =>
        ((all hd ds).idxOf (decodeRunes (wordOf s (i + 1))), x)).filter (fun e => decide (e.1 = k))).map (·.2)) := by
  unfold Dict.attached
  rw [(g.dict n hn).2.2.2, List.filter_append, List.map_append]
  simp only [List.map_map]
  rfl

/-- The readings of a word of the source after the merge. -/
theorem attached_src (g : Merging hd d s ds) (n : Nat) (hn : n < ds.nodes.length) {j : Nat} {w : List Rune} (h0 : 0 < j)
    (h1 : j ≤ n) (hw : ds.nodes[j]? = some w) :
    (dictOf (hd ++ mergeCalls s (all hd ds) n)).attached ((all hd ds).idxOf w) =
      (dictOf hd).attached ((all hd ds).idxOf w) ++ (setsOf s j).map tagNames := by
  rw [g.readings_append n hn]
  congr 1
  have e := (g.src.wordOf_eq hw).2
  obtain ⟨i, rfl⟩ : ∃ i, j = i + 1 := ⟨j - 1, by omega⟩
  have := grouped_one (fun i => (all hd ds).idxOf (decodeRunes (wordOf s (i + 1)))) (fun i => (setsOf s (i + 1)).map tagNames)
    n i (by omega) ?_
  · rw [show (all hd ds).idxOf (decodeRunes (wordOf s (i + 1))) = (all hd ds).idxOf w by rw [e]] at this
    exact this
  · intro k hk he
    obtain ⟨v, hv⟩ : ∃ v, ds.nodes[k + 1]? = some v := ⟨_, List.getElem?_eq_getElem (by omega)⟩
    have e' := (g.src.wordOf_eq hv).2
    rw [e, e'] at he
    have := g.idx_inj (g.src_mem hv) he (g.src_mem hw)
    subst this
    have := g.src.trie.idx_unique hv hw
    omega

/-- The readings of a word that is not one of the source after the merge. -/
theorem attached_other (g : Merging hd d s ds) (n : Nat) (hn : n < ds.nodes.length) (k : Nat)
    (h : ∀ (j : Nat) (w : List Rune), 0 < j → j ≤ n → ds.nodes[j]? = some w → (all hd ds).idxOf w ≠ k) :
    (dictOf (hd ++ mergeCalls s (all hd ds) n)).attached k = (dictOf hd).attached k := by
  rw [g.readings_append n hn, grouped_none, List.append_nil]
  intro i hi
  obtain ⟨v, hv⟩ : ∃ v, ds.nodes[i + 1]? = some v := ⟨_, List.getElem?_eq_getElem (by omega)⟩
  rw [(g.src.wordOf_eq hv).2]
  exact h (i + 1) v (by omega) (by omega) hv

theorem attached_cases (g : Merging hd d s ds) (n : Nat) (hn : n < ds.nodes.length) (k : Nat) :
    (dictOf (hd ++ mergeCalls s (all hd ds) n)).attached k = (dictOf hd).attached k ∨
    ∃ j w, 0 < j ∧ j ≤ n ∧ ds.nodes[j]? = some w ∧ (all hd ds).idxOf w = k ∧
      (dictOf (hd ++ mergeCalls s (all hd ds) n)).attached k = (dictOf hd).attached k ++ (setsOf s j).map tagNames := by
  by_cases h : ∃ j w, 0 < j ∧ j ≤ n ∧ ds.nodes[j]? = some w ∧ (all hd ds).idxOf w = k
  · obtain ⟨j, w, h0, h1, hw, rfl⟩ := h
    exact .inr ⟨j, w, h0, h1, hw, rfl, g.attached_src n hn h0 h1 hw⟩
  · exact .inl (g.attached_other n hn k fun j w h0 h1 hw e => h ⟨j, w, h0, h1, hw, e⟩)

end Merging


/-! ## The program makes these calls -/

theorem Merging.mergeNodes_eq {hd hs : List Op} {d s : Index} (rs : Run hs s) (g : Merging hd d s (dictOf hs)) (N : Nat)
    (hN : N < (dictOf hs).nodes.length) {ix' : Index}
    (r' : Run (hd ++ mergeCalls s (Merging.all hd (dictOf hs)) N) ix') (n : Nat) (hn : n ≤ N) :
    mergeNodes d s n = some (execAll (hd ++ mergeCalls s (Merging.all hd (dictOf hs)) n)) := by
  have c := g.src
  have hlt := rs.trie.length_lt
  induction n with
  | zero =>
    have e : mergeCalls s (Merging.all hd (dictOf hs)) 0 = s.tags.map fun t => Op.tagID t.name t.parent := by
      unfold mergeCalls; simp
    rw [e]
    unfold mergeNodes
    rw [copyTags_eq, g.run.eq]
    unfold execAll
    rw [List.foldl_append]
  | succ n ih =>
    obtain ⟨w, hw⟩ : ∃ w, (dictOf hs).nodes[n + 1]? = some w := ⟨_, List.getElem?_eq_getElem (by omega)⟩
    obtain ⟨hword, hdec⟩ := c.wordOf_eq hw
    obtain ⟨hne, hgrow⟩ := mergedNodes_grow c (dn := (dictOf hd).nodes) hw
    obtain ⟨hsets, _⟩ := rs.shown_at (k := n + 1) (by omega) (by omega)
    unfold mergeNodes
    rw [ih (by omega), Option.bind_some]
    unfold copyNode
    rw [hword, hsets]
    simp only
    obtain ⟨rest, erest⟩ := mergeCalls_prefix s (Merging.all hd (dictOf hs)) hn
    rw [← erest, ← List.append_assoc] at r'
    obtain ⟨ix1, r1⟩ := r'.before
    have e2 : hd ++ mergeCalls s (Merging.all hd (dictOf hs)) (n + 1) =
        (hd ++ mergeCalls s (Merging.all hd (dictOf hs)) n ++ [Op.addString (wordOf s (n + 1))]) ++
        (setsOf s (n + 1)).map fun x => Op.addTagSet (UInt32.ofNat ((Merging.all hd (dictOf hs)).idxOf w)) (tagNames x) := by
      rw [mergeCalls_succ]; simp [mergeBlock, hdec]
    have hexec := r1.eq
    rw [e2] at r1
    obtain ⟨ix2, r2⟩ := r1.before
    obtain ⟨ix3, r3⟩ := r2.before
    obtain rfl := r2.eq
    obtain rfl := r3.eq
    obtain ⟨d1, d2, d3, _⟩ := g.dict n (by omega)
    have hroot : (mergedNodes (dictOf hd).nodes (dictOf hs).nodes n)[0]? = some [] := by
      unfold mergedNodes
      rw [List.getElem?_append_left (by have := g.run.trie.length_pos; omega)]
      exact g.run.trie.root
    have hj : (dictOf (hd ++ mergeCalls s (Merging.all hd (dictOf hs)) n)).join [] w = w := by
      have := g.nul w (List.mem_of_getElem? hw)
      unfold Dict.join at this ⊢; rw [d3]; exact this
    have hnodes : (dictOf (hd ++ mergeCalls s (Merging.all hd (dictOf hs)) n ++ [Op.addString (wordOf s (n + 1))])).nodes =
        mergedNodes (dictOf hd).nodes (dictOf hs).nodes (n + 1) := by
      rw [dictOf_append]
      simp only [Op.spec, Dict.insert]
      rw [hdec, d1, hroot]
      simp only
      rw [if_neg hne, hj, hgrow]
    have htags : (dictOf (hd ++ mergeCalls s (Merging.all hd (dictOf hs)) n ++ [Op.addString (wordOf s (n + 1))])).tags =
        (dictOf (hd ++ mergeCalls s (Merging.all hd (dictOf hs)) n)).tags := by
      rw [dictOf_append]
      simp only [Op.spec, Dict.insert]
      split
      · rfl
      · split <;> rfl
    have hm : w ∈ mergedNodes (dictOf hd).nodes (dictOf hs).nodes (n + 1) := by
      rw [← hgrow, mem_addAll]; exact .inr (mem_prefixes.2 ⟨hne, List.prefix_refl _⟩)
    have hidx : (Merging.all hd (dictOf hs)).idxOf w < (mergedNodes (dictOf hd).nodes (dictOf hs).nodes (n + 1)).length ∧
        (mergedNodes (dictOf hd).nodes (dictOf hs).nodes (n + 1))[(Merging.all hd (dictOf hs)).idxOf w]? = some w := by
      obtain ⟨t, ht⟩ := g.prefix_all (n + 1)
      rw [← ht, List.idxOf_append_of_mem hm]
      have := List.idxOf_lt_length_iff.2 hm
      exact ⟨this, by rw [List.getElem?_eq_getElem this]; simp⟩
    have hle := (g.prefix_all (n + 1)).length_le
    have hroom := g.room
    have hroom' : (mergedNodes (dictOf hd).nodes (dictOf hs).nodes (n + 1)).length < 4294967296 := by
      unfold Merging.all at hle; omega
    have hadd := addString_to r3 (wordOf s (n + 1)) _ (by rw [hdec]; exact hne) (by rw [hdec]; exact hj)
      (by rw [hnodes]; exact hroom') (by rw [hnodes, hdec]; exact hidx.2)
    have hatt := attachAll_eq ((Merging.all hd (dictOf hs)).idxOf w) (by omega) (g.idx_pos hne) _ _ r1
      (by rw [hnodes]; exact hidx.1)
      (fun x hx t ht => by
        unfold Dict.hasTag
        rw [htags]
        exact merged_hasTag d2 (by rw [c.tags]; exact c.known _ x hx t ht))
    have hex : execAll (hd ++ mergeCalls s (Merging.all hd (dictOf hs)) n ++ [Op.addString (wordOf s (n + 1))]) =
        ((execAll (hd ++ mergeCalls s (Merging.all hd (dictOf hs)) n)).addString (wordOf s (n + 1))).1 := by
      unfold execAll; rw [List.foldl_append]; rfl
    rw [hex] at hatt
    generalize (execAll (hd ++ mergeCalls s (Merging.all hd (dictOf hs)) n)).addString (wordOf s (n + 1)) = g' at *
    obtain ⟨g1, g2⟩ := g'
    simp only at hadd
    subst hadd
    simp only
    rw [hatt, hexec]


/-! ## Words and readings by lookup -/

theorem Run.knows_iff {h : List Op} {ix : Index} (r : Run h ix) {w : List Rune} (hj : (dictOf h).join [] w = w) :
    KnowsWord ix w ↔ w ≠ [] ∧ w ∈ (dictOf h).nodes := by
  unfold KnowsWord
  constructor
  · rintro ⟨id, hid⟩
    rw [r.trie.fetchRoot_iff, hj] at hid
    exact ⟨hid.1, List.mem_of_getElem? hid.2⟩
  · rintro ⟨h1, h2⟩
    obtain ⟨id, hid⟩ := r.trie.exists_id h2
    exact ⟨id, by rw [r.trie.fetchRoot_iff, hj]; exact ⟨h1, hid⟩⟩

theorem Run.fetch_at {h : List Op} {ix : Index} (r : Run h ix) {k : Nat} {w : List Rune} (hk : (dictOf h).nodes[k]? = some w)
    (hw : w ≠ []) (hj : (dictOf h).join [] w = w) : (ix.fetchRunes w).2 = .ok (UInt32.ofNat k) := by
  have hlt := r.trie.length_lt
  have h1 := TrieOK.lt_next hk
  rw [r.trie.fetchRoot_iff, hj, toNat_ofNat_lt (by omega)]
  exact ⟨hw, hk⟩

theorem Run.pos_of {h : List Op} {ix : Index} (r : Run h ix) {k : Nat} {w : List Rune} (hk : (dictOf h).nodes[k]? = some w)
    (hw : w ≠ []) : 0 < k := by
  rw [Nat.pos_iff_ne_zero]
  rintro rfl
  rw [r.trie.root] at hk
  exact hw (Option.some.inj hk).symm

theorem Run.namesAt_eq {h : List Op} {ix : Index} (r : Run h ix) {k : Nat} {w : List Rune} (hk : (dictOf h).nodes[k]? = some w)
    (hw : w ≠ []) (hj : (dictOf h).join [] w = w) : namesAt ix w = (setsOf ix k).map tagNames := by
  unfold namesAt
  rw [r.fetch_at hk hw hj]
  simp only
  rw [(r.shown_at (r.pos_of hk hw) (TrieOK.lt_next hk)).1]

theorem namesAt_unknown {ix : Index} {w : List Rune} (h : ¬ KnowsWord ix w) : namesAt ix w = [] := by
  unfold namesAt
  cases hf : (ix.fetchRunes w).2 with
  | ok id => exact absurd ⟨id, hf⟩ h
  | _ => rfl

/-- Without empty readings, what is attached is what is shown. -/
theorem Run.exact_at {h : List Op} {ix : Index} (r : Run h ix) {k : Nat} (h0 : 0 < k) (h1 : k < (dictOf h).nodes.length)
    (hne : [] ∉ (dictOf h).attached k) : ExactReadings (dictOf h).tags ((dictOf h).attached k) (setsOf ix k) := by
  have hlt := r.trie.length_lt
  have e : (UInt32.ofNat k).toNat = k := toNat_ofNat_lt (by omega)
  obtain ⟨L, hL, hx⟩ := exactReadings_of r.refines.1 r.caps r.refines.2.tags (id := UInt32.ofNat k)
    (by rw [e]; exact h0) (by rw [e]; exact h1) (by rw [e]; exact hne)
  rw [e] at hx
  rw [(r.shown_at h0 h1).1] at hL
  cases hL
  exact hx

theorem ExactReadings.sameSets {T : List Tag} {A : List (List Str)} {L : List (List Tag)} (h : ExactReadings T A L) :
    SameSets A (L.map tagNames) := by
  constructor
  · intro a ha
    obtain ⟨t, ht, hp⟩ := h.complete a ha
    exact ⟨_, List.mem_map.2 ⟨t, ht, rfl⟩, hp.symm⟩
  · intro b hb
    obtain ⟨t, ht, rfl⟩ := List.mem_map.1 hb
    obtain ⟨a, ha, hp⟩ := h.sound t ht
    exact ⟨a, ha, hp.symm⟩

theorem Run.attached_none {h : List Op} {ix : Index} (r : Run h ix) {k : Nat}
    (hk : ¬ (0 < k ∧ k < (dictOf h).nodes.length)) : (dictOf h).attached k = [] := by
  rw [List.eq_nil_iff_forall_not_mem]
  intro x hx
  obtain ⟨k0, k1, _⟩ := r.tag.readings k x (mem_attached.1 hx)
  exact hk ⟨k0, k1⟩

theorem sameSets_append {A B C : List (List Str)} (h : SameSets A B) : SameSets (A ++ C) (B ++ C) := by
  constructor
  · intro a ha
    rw [List.mem_append] at ha
    rcases ha with ha | ha
    · obtain ⟨b, hb, hp⟩ := h.1 a ha
      exact ⟨b, List.mem_append_left _ hb, hp⟩
    · exact ⟨a, List.mem_append_right _ ha, List.Perm.refl _⟩
  · intro b hb
    rw [List.mem_append] at hb
    rcases hb with hb | hb
    · obtain ⟨a, ha, hp⟩ := h.2 b hb
      exact ⟨a, List.mem_append_left _ ha, hp⟩
    · exact ⟨b, List.mem_append_right _ hb, List.Perm.refl _⟩

namespace Merging

variable {hd : List Op} {d s : Index} {ds : Dict}

theorem idx_old (_ : Merging hd d s ds) {w : List Rune} (hw : w ∈ (dictOf hd).nodes) :
    (all hd ds).idxOf w = (dictOf hd).nodes.idxOf w ∧ (all hd ds).idxOf w < (dictOf hd).nodes.length ∧
      (dictOf hd).nodes[(all hd ds).idxOf w]? = some w := by
  have e : (all hd ds).idxOf w = (dictOf hd).nodes.idxOf w := by
    unfold all mergedNodes
    rw [List.idxOf_append_of_mem hw]
  have := List.idxOf_lt_length_iff.2 hw
  rw [e]
  exact ⟨rfl, this, by rw [List.getElem?_eq_getElem this]; simp⟩

theorem idx_new (_ : Merging hd d s ds) {w : List Rune} (hw : w ∉ (dictOf hd).nodes) :
    (dictOf hd).nodes.length ≤ (all hd ds).idxOf w := by
  unfold all mergedNodes
  rw [List.idxOf_append_of_notMem hw]
  omega

/-- The readings a word of the source had in the target. -/
theorem names_dst (g : Merging hd d s ds) {w : List Rune} (hw : w ≠ []) (hj : (dictOf hd).join [] w = w) :
    ((dictOf hd).attached ((all hd ds).idxOf w) = [] ↔ namesAt d w = []) ∧
    ([] ∉ (dictOf hd).attached ((all hd ds).idxOf w) →
      SameSets ((dictOf hd).attached ((all hd ds).idxOf w)) (namesAt d w)) := by
  by_cases hm : w ∈ (dictOf hd).nodes
  · obtain ⟨_, h1, h2⟩ := g.idx_old hm
    have h0 := g.run.pos_of h2 hw
    have hs := (g.run.shown_at h0 h1).2
    rw [g.run.namesAt_eq h2 hw hj]
    refine ⟨?_, fun hne => (g.run.exact_at h0 h1 hne).sameSets⟩
    rw [List.map_eq_nil_iff]
    exact hs.empty_iff.symm
  · have h1 := g.idx_new hm
    have e : (dictOf hd).attached ((all hd ds).idxOf w) = [] := g.run.attached_none (by omega)
    have e' : namesAt d w = [] := namesAt_unknown fun h => hm ((g.run.knows_iff hj).1 h).2
    rw [e, e']
    exact ⟨by simp, fun _ => SameSets.refl _⟩

end Merging

/-! ## Counting -/

theorem count_by_index {α : Type} (p : Nat → Bool) (q : α → Bool) (l : List α)
    (h : ∀ i x, l[i]? = some x → p i = q x) : ((List.range l.length).filter p).length = (l.filter q).length := by
  induction l using list_reverse_induction with
  | nil => rfl
  | snoc l x ih =>
    rw [List.length_append, List.length_singleton, List.range_succ, List.filter_append, List.filter_append,
      List.length_append, List.length_append, ih]
    · congr 1
      have := h l.length x (by simp)
      by_cases hx : q x = true
      · simp [hx, this]
      · simp [hx, this]
    · intro i y hy
      refine h i y ?_
      rw [List.getElem?_append_left (by
        by_contra hc
        rw [List.getElem?_eq_none (by omega)] at hy
        cases hy)]
      exact hy

theorem CopySource.word_at {s : Index} {ds : Dict} (c : CopySource s ds) {i : Nat} {v : List Rune} (hv : ds.nodes[i]? = some v)
    {w : Str} (hw : s.word (UInt32.ofNat i) = .ok w) : decodeRunes w = v := by
  obtain ⟨h1, h2⟩ := c.wordOf_eq hv
  rw [h1] at hw
  cases hw
  exact h2

theorem CopySource.id_at {s : Index} {ds : Dict} (c : CopySource s ds) {id : ID} {w : Str} (hw : s.word id = .ok w)
    (hl : id.toNat < ds.nodes.length) : ds.nodes[id.toNat]? = some (decodeRunes w) := by
  rw [List.getElem?_eq_getElem hl]
  have := c.word_at (i := id.toNat) (List.getElem?_eq_getElem hl) (w := w) (by simpa using hw)
  rw [this]

theorem Merging.newWords_length {hd : List Op} {d s : Index} {ds : Dict} (run : Run hd d) (c : CopySource s ds)
    (nul : ∀ w ∈ ds.nodes, (dictOf hd).join [] w = w) (hN : s.nodesCount = ds.nodes.length - 1) :
    (newWords d s).length = (ds.nodes.filter fun w => decide (w ∉ (dictOf hd).nodes)).length := by
  have hroot := c.trie.root
  obtain ⟨tl, e⟩ : ∃ tl, ds.nodes = [] :: tl := by
    cases hn : ds.nodes with
    | nil => rw [hn] at hroot; cases hroot
    | cons a tl =>
      rw [hn] at hroot
      exact ⟨tl, by rw [Option.some.inj hroot]⟩
  have hin : [] ∈ (dictOf hd).nodes := List.mem_of_getElem? run.trie.root
  have e2 : ds.nodes.filter (fun w => decide (w ∉ (dictOf hd).nodes)) =
      tl.filter fun w => decide (w ∉ (dictOf hd).nodes) := by
    rw [e, List.filter_cons]
    simp [hin]
  rw [e2]
  unfold newWords
  rw [hN, show ds.nodes.length - 1 = tl.length by rw [e]; rfl]
  refine count_by_index _ _ tl fun i x hx => ?_
  have hx' : ds.nodes[i + 1]? = some x := by rw [e]; exact hx
  have hxne := (c.grow hx').1
  obtain ⟨h1, h2⟩ := c.wordOf_eq hx'
  have key : (∃ w, s.word (UInt32.ofNat (i + 1)) = .ok w ∧ ¬ KnowsWord d (decodeRunes w)) ↔ x ∉ (dictOf hd).nodes := by
    rw [h1]
    have hk := run.knows_iff (nul x (List.mem_of_getElem? hx'))
    constructor
    · rintro ⟨w, hw, hn⟩
      cases hw
      rw [h2, hk] at hn
      exact fun hm => hn ⟨hxne, hm⟩
    · intro hn
      exact ⟨_, rfl, by rw [h2, hk]; exact fun hc => hn hc.2⟩
  rw [decide_eq_decide]
  exact key


/-! ## The merge has room -/

theorem merging_of {hd hs : List Op} {d s : Index} (rd : Run hd d) (rs : Run hs s) (ht : TextWords s)
    (hz : NulSafe hd s) (hr : d.nodesCount + (newWords d s).length < 4294967295) : Merging hd d s (dictOf hs) := by
  have c := rs.copySource (parents_ne hs) ht
  have hlt := rs.trie.length_lt
  have hpos := rd.trie.length_pos
  have hpos' := rs.trie.length_pos
  have nul : ∀ w ∈ (dictOf hs).nodes, (dictOf hd).join [] w = w := by
    intro w hw
    by_cases hne : w = []
    · subst hne; unfold Dict.join; split <;> rfl
    rcases hz with hz | hz
    · exact Dict.join_root (.inl (dictOf_nul hd hz))
    · obtain ⟨k, hk, e⟩ := List.getElem_of_mem hw
      have e' : (dictOf hs).nodes[k]? = some w := by rw [List.getElem?_eq_getElem hk, e]
      obtain ⟨h1, h2⟩ := c.wordOf_eq e'
      have hkp := rs.pos_of e' hne
      have := hz (UInt32.ofNat k) _ (by rw [toNat_ofNat_lt (by omega)]; exact hkp)
        (by rw [toNat_ofNat_lt (by omega), rs.trie.nodesCount]; omega) h1
      rw [h2] at this
      exact Dict.join_root (.inr this)
  refine ⟨rd, c, nul, ?_⟩
  unfold mergedNodes
  rw [List.take_of_length_le (i := (dictOf hs).nodes.length + 1) (by omega), List.length_append,
    ← Merging.newWords_length rd c nul rs.trie.nodesCount]
  rw [rd.trie.nodesCount] at hr
  omega

theorem merge_room {hd hs : List Op} {d s : Index} (md : Room hd) (ms : Room hs) (rs : Run hs s) (mr : MergeRoom hd d s)
    (he : ∀ k, [] ∉ (dictOf hd).attached k) (g : Merging hd d s (dictOf hs)) (n : Nat) (hn : n < (dictOf hs).nodes.length) :
    Room (hd ++ mergeCalls s (Merging.all hd (dictOf hs)) n) := by
  have hlt := rs.trie.length_lt
  have c := g.src
  obtain ⟨d1, d2, d3, d4⟩ := g.dict n hn
  have hroom := g.room
  have hat : ∀ {j : Nat} {w : List Rune}, 0 < j → (dictOf hs).nodes[j]? = some w →
      s.word (UInt32.ofNat j) = .ok (wordOf s j) ∧ s.tagSetsOf (UInt32.ofNat j) = .ok (setsOf s j) ∧
      decodeRunes (wordOf s j) = w ∧ w ≠ [] := by
    intro j w h0 hw
    obtain ⟨h1, h2⟩ := c.wordOf_eq hw
    refine ⟨h1, (rs.shown_at h0 (TrieOK.lt_next hw)).1, h2, ?_⟩
    rintro rfl
    have := c.trie.idx_unique hw c.trie.root
    omega
  constructor
  · rw [d1]
    have := (g.prefix_all n).length_le
    unfold Merging.all at this
    omega
  · rw [d2, ← g.run.tag.tags]; exact mr.tags
  · intro op hop
    rw [List.mem_append] at hop
    rcases hop with hop | hop
    · exact md.plain op hop
    unfold mergeCalls at hop
    rw [List.mem_append, List.mem_map, List.mem_flatMap] at hop
    rcases hop with ⟨t, ht, rfl⟩ | ⟨i, hi, hop⟩
    · rw [c.tags] at ht
      obtain ⟨r0, o⟩ := run_of_room hs ms
      have := o.savable t ht
      exact ⟨this.1, this.2.1, this.2.2⟩
    · rw [List.mem_range] at hi
      unfold mergeBlock at hop
      rw [List.mem_cons, List.mem_map] at hop
      rcases hop with rfl | ⟨x, hx, rfl⟩
      · trivial
      · obtain ⟨_, _, _, e, he, hp⟩ := rs.copied (k := i + 1) (by omega) (by omega) hx
        show (tagNames x).length ≤ 255
        rw [← hp.length_eq]
        exact readings_plain ms.plain e he
  · obtain ⟨L, l1, l2, l3⟩ := mr.readings
    refine ⟨L, l1, ?_⟩
    intro e hm
    rw [d4, List.mem_append] at hm
    rcases hm with hm | hm
    · exact l2 e hm
    · obtain ⟨i, hi, hm⟩ := List.mem_flatMap.1 hm
      obtain ⟨x, hx, rfl⟩ := List.mem_map.1 hm
      rw [List.mem_range] at hi
      exact l3 _ _ (rs.shown_at (k := i + 1) (by omega) (by omega)).1 x hx
  · intro k
    rcases g.attached_cases n hn k with e | ⟨j, w, h0, h1, hw, rfl, e⟩
    · rw [e]; exact md.perWord k
    · rw [e]
      obtain ⟨a1, a2, a3, hne⟩ := hat h0 hw
      obtain ⟨L, l1, l2⟩ := mr.perWord _ _ _ a1 a2
      rw [a3] at l2
      refine ⟨L, l1, ?_⟩
      have hs := (g.names_dst hne (g.nul w (List.mem_of_getElem? hw))).2 (he _)
      intro names hm
      obtain ⟨b, hb, hp⟩ := (sameSets_append (C := (setsOf s j).map tagNames) hs).1 names hm
      obtain ⟨l, hl, hp'⟩ := l2 b hb
      exact ⟨l, hl, hp'.trans hp.symm⟩
  · obtain ⟨L, l1, l2, l3⟩ := mr.sets
    refine ⟨L, l1, ?_⟩
    intro q hq k hne
    rcases List.prefix_or_prefix_of_prefix hq (List.prefix_append hd _) with hq' | ⟨q', rfl⟩
    · exact l2 q hq' k hne
    · have hold := attached_mono (dictOf_readings_prefix hd q') k
      obtain ⟨rest, er⟩ := hq
      have hnew := attached_mono (dictOf_readings_prefix (hd ++ q') rest) k
      rw [er] at hnew
      obtain ⟨p, ep⟩ := hold
      rw [← ep] at hnew hne ⊢
      rcases g.attached_cases n hn k with e | ⟨j, w, h0, h1, hw, rfl, e⟩
      · rw [e] at hnew
        have hp : p = [] := by
          have := hnew.length_le
          rw [List.length_append] at this
          exact List.length_eq_zero_iff.1 (by omega)
        rw [hp, List.append_nil] at hne ⊢
        exact l2 hd (List.prefix_refl _) k hne
      · obtain ⟨a1, a2, a3, hwne⟩ := hat h0 hw
        rw [e, List.prefix_append_right_inj, List.prefix_map_iff] at hnew
        obtain ⟨x, hx, rfl⟩ := hnew
        by_cases hx0 : x = []
        · subst hx0
          rw [List.map_nil, List.append_nil] at hne ⊢
          exact l2 hd (List.prefix_refl _) _ hne
        obtain ⟨A, hA, hs⟩ := l3 _ _ _ a1 a2 x hx hx0
        rw [a3] at hs
        have hs' := (g.names_dst hwne (g.nul w (List.mem_of_getElem? hw))).2 (he _)
        exact ⟨A, hA, hs.trans (sameSets_append hs').symm⟩

end Verif
