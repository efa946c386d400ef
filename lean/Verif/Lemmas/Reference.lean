import Verif.Props.ReadingOrder
import Verif.Spec.Reference

/-! # Helper lemmas: the answers of the reference implementation -/

namespace Verif

/-! ## Words -/

theorem TrieOK.number {ix : Index} {d : Dict} (h : TrieOK ix d) {id : ID} {w : List Rune}
    (hw : d.nodes[id.toNat]? = some w) : d.number w = id := by
  obtain ⟨hlt, rfl⟩ := List.getElem?_eq_some_iff.1 hw
  unfold Dict.number
  rw [List.Nodup.idxOf_getElem h.nodup _ hlt]
  exact UInt32.toNat_inj.1 (by rw [UInt32.toNat_ofNat', Nat.mod_eq_of_lt id.toNat_lt])

theorem prefixes_getLastD (w : List Rune) : (prefixes w).getLastD [] = w := by
  induction w using list_reverse_induction with
  | nil => rfl
  | snoc l a _ => rw [prefixes_concat]; simp

theorem longest_eq {ix : Index} {d : Dict} (h : TrieOK ix d) {pre post : List Rune} {r : Rune} (hp : pre ∈ d.nodes)
    (hn : pre ++ [r] ∉ d.nodes) : d.longest (pre ++ r :: post) = pre := by
  obtain ⟨k, hk⟩ := TrieOK.exists_idx hp
  unfold Dict.longest
  rw [prefixes_append, List.filter_append]
  have h1 : (prefixes pre).filter (· ∈ d.nodes) = prefixes pre :=
    List.filter_eq_self.2 fun x hx => by simpa using h.prefixes_mem hk x hx
  have h2 : ((prefixes (r :: post)).map (pre ++ ·)).filter (· ∈ d.nodes) = [] := by
    rw [List.filter_eq_nil_iff]
    intro x hx
    obtain ⟨y, hy, rfl⟩ := List.mem_map.1 hx
    obtain ⟨hy0, hy1⟩ := mem_prefixes.1 hy
    simp only [decide_eq_true_eq]
    intro hm
    obtain ⟨k', hk'⟩ := TrieOK.exists_idx hm
    refine hn (h.closed hk' _ ?_)
    cases y with
    | nil => exact absurd rfl hy0
    | cons a y =>
      obtain ⟨rfl, -⟩ := List.cons_prefix_cons.1 hy1
      exact ⟨y, by simp⟩
  rw [h1, h2, List.append_nil, prefixes_getLastD]

theorem noItem_eq (n : ID) : Index.noItemText n = str "no item: " ++ str (toString n.toNat) := by
  simp [Index.noItemText, str]

theorem fetch_ref {ix : Index} {d : Dict} (h : TrieOK ix d) (p : ID) (rs : List Rune) :
    (ix.fetchFromItem p rs).2 = d.find p rs ∧ (ix.fetchItemFromParent p rs).2 = d.find p rs := by
  cases rs with
  | nil => exact ⟨rfl, rfl⟩
  | cons r rest =>
    unfold Dict.find
    cases hp : d.nodes[p.toNat]? with
    | none =>
      have := h.fetch_none hp r rest
      rw [noItem_eq] at this
      exact this
    | some w =>
      rw [h.fetchItemFromParent_eq p w _ hp, and_self]
      simp only
      rcases h.fetchFromItem_spec p w (r :: rest) hp (by simp) with ⟨id, h1, h2⟩ | ⟨pre, c, post, h1, h2, h3, h4, h5⟩
      · rw [h2, if_pos (List.mem_of_getElem? h1), h.number h1]
      · rw [h5, h1]
        have hno : pre ++ c :: post ∉ d.nodes := by
          intro hm
          obtain ⟨k, hk⟩ := TrieOK.exists_idx hm
          exact h4 (h.closed hk _ ⟨post, by simp⟩)
        rw [if_neg hno, longest_eq h h3 h4]
        simp

theorem add_ref {ix : Index} {d : Dict} (h : TrieOK ix d) (p : ID) (rs : List Rune)
    (hf : (d.insert p.toNat rs).nodes.length < 4294967296) : (ix.addToNode p rs).2 = d.add p rs := by
  unfold Dict.add
  by_cases hrs : rs = []
  · subst hrs
    rw [if_pos rfl]
    rfl
  · rw [if_neg hrs]
    cases hp : d.nodes[p.toNat]? with
    | none =>
      rcases (h.addToNode_err p rs (.inl hp)).2 with e | e
      · cases rs with
        | nil => exact absurd rfl hrs
        | cons r rest =>
          have hlen := List.getElem?_eq_none_iff.1 hp
          have h0 := h.length_pos
          unfold Index.addToNode Index.addLoop
          rw [if_pos ⟨by rintro rfl; rw [show (0 : ID).toNat = 0 from rfl] at hlen; omega,
            by rw [h.items_get_none (by omega)]; rfl⟩]
      · exact e
    | some w =>
      have hi : d.insert p.toNat rs = { d with nodes := addAll d.nodes (prefixes (d.join w rs)), words := d.words ++ [d.join w rs] } := by
        unfold Dict.insert
        rw [hp]
        simp only
        rw [if_neg hrs]
      rw [hi] at hf ⊢
      obtain ⟨id, h1, h2, h3, -⟩ := h.addLoop_spec p p w rs hp hrs hf
      unfold Index.addToNode
      rw [h1]
      simp only
      have := h2.number (id := id) h3
      exact congrArg Out.ok this.symm

theorem child_ref {ix : Index} {d : Dict} (h : TrieOK ix d) (id : ID) (c : Rune) : ix.getChildrenMap id c =
    match d.nodes[id.toNat]? with
    | some w => if d.join w [c] ∈ d.nodes then some (d.number (d.join w [c])) else none
    | none => none := by
  cases hp : d.nodes[id.toNat]? with
  | none =>
    simp only
    cases hc : ix.getChildrenMap id c with
    | none => rfl
    | some k =>
      rcases (h.child id c k).1 hc with ⟨w, h1, -⟩ | ⟨-, rfl, -, -⟩
      · rw [hp] at h1; cases h1
      · rw [show (0 : ID).toNat = 0 from rfl, h.root] at hp; cases hp
  | some w =>
    simp only
    split
    · rename_i hm
      obtain ⟨k, hk⟩ := h.exists_id hm
      rw [(h.child_some hp c k).2 hk, h.number hk]
    · rename_i hm
      exact (h.child_none hp c).2 hm

theorem word_ref {ix : Index} {d : Dict} (h : TrieOK ix d) (id : ID) : ix.word id = .ok (match d.nodes[id.toNat]? with
    | some w => encodeRunes w
    | none => str "no item: " ++ str (toString id.toNat)) := by
  cases hp : d.nodes[id.toNat]? with
  | some w => exact h.word_eq hp
  | none =>
    have hlen := List.getElem?_eq_none_iff.1 hp
    have h0 := h.length_pos
    unfold Index.word Index.wordFuel
    rw [if_neg (by rintro rfl; rw [show (0 : ID).toNat = 0 from rfl] at hlen; omega), h.items_get_none (by omega)]
    simp only
    rw [noItem_eq]

/-! ## Tags -/

theorem findAll_ref (tags : List Tag) (names : List Str) (d : Dict) (hd : d.tags = tags) :
    match names.find? fun n => !d.hasTag n with
    | some n => Index.findAll tags names = .error n
    | none => ∃ ids, Index.findAll tags names = .ok ids := by
  induction names with
  | nil => exact ⟨[], rfl⟩
  | cons a rest ih =>
    rw [List.find?_cons]
    cases hf : tagsFind tags a with
    | none =>
      have : d.hasTag a = false := by
        rw [← Bool.not_eq_true, hasTag_iff, hd, hf]; simp
      rw [this]
      simp only [Bool.not_false]
      unfold Index.findAll
      rw [hf]
    | some i =>
      have : d.hasTag a = true := by rw [hasTag_iff, hd]; exact ⟨i, hf⟩
      rw [this]
      simp only [Bool.not_true]
      unfold Index.findAll
      rw [hf]
      simp only
      cases hr : rest.find? fun n => !d.hasTag n with
      | some n => rw [hr] at ih; simp only at ih ⊢; rw [ih]; rfl
      | none => rw [hr] at ih; simp only at ih ⊢; obtain ⟨ids, e⟩ := ih; exact ⟨i :: ids, by rw [e]; rfl⟩

theorem tagID_ref (tags : List Tag) (name parent : Str) :
    (tagsIndex tags name parent).2 = UInt8.ofNat (tags.findIdx fun t => t.name == name) := by
  unfold tagsIndex
  cases hf : tagsFind tags name with
  | none =>
    simp only
    rw [List.findIdx_eq_length_of_false]
    intro t ht
    simpa using tagsFind_none.1 hf t ht
  | some id =>
    simp only
    unfold tagsFind at hf
    obtain ⟨i, hi, rfl⟩ := Option.map_eq_some_iff.1 hf
    congr 1
    rw [List.findIdx?_eq_some_iff_getElem] at hi
    obtain ⟨h1, h2, h3⟩ := hi
    symm
    rw [List.findIdx_eq h1]
    refine ⟨by simpa using h2, ?_⟩
    intro j hj
    have := h3 j hj
    simpa using this

/-! ## Readings -/

theorem count_flatMap_replicate (names : List Str) (n : Str) : ∀ (ms : List Str), ms.Nodup →
    (ms.flatMap fun m => List.replicate (names.count m) m).count n = if n ∈ ms then names.count n else 0
  | [], _ => rfl
  | m :: ms, h => by
    rw [List.nodup_cons] at h
    rw [List.flatMap_cons, List.count_append, count_flatMap_replicate names n ms h.2, List.count_replicate]
    by_cases e : m = n
    · subst e
      rw [if_neg h.1]; simp
    · have e' : n ≠ m := fun h => e h.symm
      simp [e, e']

theorem inOrder_perm {d : Dict} (hn : (d.tags.map (·.name)).Nodup) {names : List Str}
    (hr : ∀ x ∈ names, x ∈ d.tags.map (·.name)) : (tagNames (d.inOrder names)).Perm names := by
  have e : tagNames (d.inOrder names) = (d.tags.map (·.name)).flatMap fun m => List.replicate (names.count m) m := by
    unfold tagNames Dict.inOrder
    rw [List.map_flatMap, List.flatMap_map]
    simp
  rw [e, List.perm_iff_count]
  intro n
  rw [count_flatMap_replicate _ _ _ hn]
  split
  · rfl
  · rename_i h
    exact (List.count_eq_zero.2 fun hm => h (hr n hm)).symm

theorem inOrder_congr (d : Dict) {a b : List Str} (h : a.Perm b) : d.inOrder a = d.inOrder b := by
  unfold Dict.inOrder
  congr 1
  funext t
  rw [h.count_eq]

theorem inOrder_mem {d : Dict} {names : List Str} : ∀ x ∈ d.inOrder names, x ∈ d.tags := by
  intro x hx
  unfold Dict.inOrder at hx
  obtain ⟨t, ht, h⟩ := List.mem_flatMap.1 hx
  rw [(List.mem_replicate.1 h).2]
  exact ht

theorem inOrder_sorted {d : Dict} (hn : (d.tags.map (·.name)).Nodup) (names : List Str) :
    (d.inOrder names).Pairwise fun a b => d.tags.idxOf a ≤ d.tags.idxOf b := by
  unfold Dict.inOrder
  rw [List.pairwise_flatMap]
  constructor
  · intro t _
    rw [List.pairwise_replicate]
    exact .inr (Nat.le_refl _)
  · rw [List.pairwise_iff_getElem]
    intro i j hi hj hij x hx y hy
    rw [(List.mem_replicate.1 hx).2, (List.mem_replicate.1 hy).2, List.Nodup.idxOf_getElem (hn.of_map _) _ hi,
      List.Nodup.idxOf_getElem (hn.of_map _) _ hj]
    exact Nat.le_of_lt hij

instance (d : Dict) : Std.Total d.before := ⟨fun a b => by unfold Dict.before; omega⟩
instance (d : Dict) : IsTrans (List Tag) d.before := ⟨fun a b c => by unfold Dict.before; omega⟩

/-- The sorted list of the different readings is exactly what must be shown. -/
theorem sorted_exact {d : Dict} (hn : (d.tags.map (·.name)).Nodup) {A : List (List Str)}
    (hr : ∀ a ∈ A, ∀ x ∈ a, x ∈ d.tags.map (·.name)) (hu : ∀ a ∈ A, ∃ e ∈ d.readings, e.2 = a) :
    ExactReadings d.tags A ((A.map d.inOrder).dedup.insertionSort d.before) ∧
      Arranged d ((A.map d.inOrder).dedup.insertionSort d.before) := by
  have hmem : ∀ t, t ∈ (A.map d.inOrder).dedup.insertionSort d.before ↔ ∃ a ∈ A, d.inOrder a = t := by
    intro t
    rw [List.mem_insertionSort, List.mem_dedup, List.mem_map]
  have hnd : ((A.map d.inOrder).dedup.insertionSort d.before).Nodup :=
    (List.perm_insertionSort d.before _).nodup_iff.2 (List.nodup_dedup _)
  have hsame : ∀ a ∈ A, ∀ b ∈ A, (tagNames (d.inOrder a)).Perm (tagNames (d.inOrder b)) → d.inOrder a = d.inOrder b :=
    fun a ha b hb h => inOrder_congr d (((inOrder_perm hn (hr a ha)).symm.trans h).trans (inOrder_perm hn (hr b hb)))
  refine ⟨⟨?_, ?_, ?_, ?_⟩, ⟨?_, ?_⟩⟩
  · intro a ha
    exact ⟨d.inOrder a, (hmem _).2 ⟨a, ha, rfl⟩, inOrder_perm hn (hr a ha)⟩
  · intro t ht
    obtain ⟨a, ha, rfl⟩ := (hmem t).1 ht
    exact ⟨a, ha, inOrder_perm hn (hr a ha)⟩
  · refine List.Pairwise.imp_of_mem ?_ hnd
    intro s t hs ht hne hp
    obtain ⟨a, ha, rfl⟩ := (hmem s).1 hs
    obtain ⟨b, hb, rfl⟩ := (hmem t).1 ht
    exact hne (hsame a ha b hb hp)
  · intro t ht
    obtain ⟨a, _, rfl⟩ := (hmem t).1 ht
    exact inOrder_mem
  · refine List.Pairwise.imp_of_mem ?_ ((List.pairwise_insertionSort d.before _).and hnd)
    rintro s t hs ht ⟨hb, hne⟩
    obtain ⟨a, ha, rfl⟩ := (hmem s).1 hs
    obtain ⟨b, hb', rfl⟩ := (hmem t).1 ht
    rcases hb with h1 | ⟨h1, h2⟩
    · exact .inl h1
    · refine .inr ⟨h1, Nat.lt_of_le_of_ne h2 fun e => hne (hsame a ha b hb' ?_)⟩
      have found : ∀ a ∈ A, ∃ (hlt : d.firstUse (tagNames (d.inOrder a)) < d.readings.length),
          (d.readings[d.firstUse (tagNames (d.inOrder a))]).2.Perm (tagNames (d.inOrder a)) := by
        intro a ha
        obtain ⟨e, he, rfl⟩ := hu a ha
        have hlt : d.firstUse (tagNames (d.inOrder e.2)) < d.readings.length :=
          List.findIdx_lt_length_of_exists ⟨e, he, by simpa using (inOrder_perm hn (hr _ ha)).symm⟩
        refine ⟨hlt, ?_⟩
        exact of_decide_eq_true (List.findIdx_getElem (w := hlt))
      obtain ⟨l1, p1⟩ := found a ha
      obtain ⟨l2, p2⟩ := found b hb'
      simp only [e] at p1
      exact p1.symm.trans p2
  · intro t ht
    obtain ⟨a, _, rfl⟩ := (hmem t).1 ht
    exact inOrder_sorted hn a

theorem oneEach_different {d : Dict} (hn : (d.tags.map (·.name)).Nodup) {A D : List (List Str)}
    (hr : ∀ a ∈ A, ∀ x ∈ a, x ∈ d.tags.map (·.name)) (h : OneEach A D) :
    D.length = ((A.map d.inOrder).dedup).length := by
  rw [← List.length_map (f := d.inOrder)]
  refine List.Perm.length_eq ((List.perm_ext_iff_of_nodup ?_ (List.nodup_dedup _)).2 fun t => ?_)
  · refine List.pairwise_map.2 (List.Pairwise.imp_of_mem ?_ h.once)
    intro a b ha hb hne e
    exact hne ((inOrder_perm hn (hr a (h.sub a ha))).symm.trans (by rw [e]; exact inOrder_perm hn (hr b (h.sub b hb))))
  · rw [List.mem_dedup, List.mem_map, List.mem_map]
    constructor
    · rintro ⟨a, ha, rfl⟩
      exact ⟨a, h.sub a ha, rfl⟩
    · rintro ⟨a, ha, rfl⟩
      obtain ⟨b, hb, hp⟩ := h.complete a ha
      exact ⟨b, hb, (inOrder_congr d hp).symm⟩

/-- What `TagSets` answers. -/
theorem shown_ref {h : List Op} {ix : Index} (r : Run h ix) (n : ID) (hn : 1 ≤ n.toNat ∧ n.toNat ≤ ix.nodesCount) :
    ix.tagSetsOf n = .ok ((dictOf h).shown n.toNat) := by
  obtain ⟨L, hL, hsh, harr⟩ := C112_exact r n hn
  rw [hL]
  congr 1
  rw [r.tag.tags] at hsh
  have hreg : ∀ e ∈ (dictOf h).readings, ∀ x ∈ e.2, x ∈ (dictOf h).tags.map (·.name) := by
    intro e he x hx
    obtain ⟨_, _, _, ids, hids, _⟩ := r.tag.readings e.1 e.2 he
    have hall := all_hasTag_iff (d := dictOf h).2 ⟨ids, hids⟩
    rw [List.all_eq_true] at hall
    obtain ⟨i, hi⟩ := hasTag_iff.1 (hall x hx)
    by_contra hc
    rw [tagsFind_none'.2 hc] at hi
    cases hi
  have hreg' : ∀ a ∈ (dictOf h).attached n.toNat, ∀ x ∈ a, x ∈ (dictOf h).tags.map (·.name) :=
    fun a ha => hreg _ (mem_attached.1 ha)
  have hused : ∀ a ∈ (dictOf h).attached n.toNat, ∃ e ∈ (dictOf h).readings, e.2 = a :=
    fun a ha => ⟨_, mem_attached.1 ha, rfl⟩
  unfold Dict.shown
  cases hx : (dictOf h).firstSingle with
  | some x =>
    rw [hx] at hsh harr
    simp only [Shown] at hsh
    simp only
    have ha : Arranged (dictOf h) L := by
      rcases harr with ha | ⟨h1, -⟩
      · exact ha
      · cases h1
    obtain ⟨⟨k, names⟩, hmr, hnm⟩ := List.exists_of_findSome?_eq_some hx
    have hone : names = [x] := singleName_some hnm
    subst hone
    have key := sorted_exact (d := dictOf h) r.tag.names
      (A := ((dictOf h).attached n.toNat).map fun names => if names = [] then [x] else names) (by
        intro a ha y hy
        obtain ⟨b, hb, rfl⟩ := List.mem_map.1 ha
        split at hy
        · exact hreg _ hmr y hy
        · exact hreg' b hb y hy) (by
        intro a ha
        obtain ⟨b, hb, rfl⟩ := List.mem_map.1 ha
        split
        · exact ⟨_, hmr, rfl⟩
        · exact hused b hb)
    rw [List.map_map] at key
    exact C112_unique r.tag.names hsh key.1 ha key.2
  | none =>
    rw [hx] at hsh
    simp only [Shown] at hsh
    simp only
    split
    · rename_i he
      obtain ⟨D, h1, rfl⟩ := hsh.2 he
      rw [List.map_const', List.map_const', oneEach_different r.tag.names hreg' h1]
    · rename_i he
      have key := sorted_exact (d := dictOf h) r.tag.names hreg' hused
      have ha : Arranged (dictOf h) L := by
        rcases harr with ha | ⟨-, h1, -⟩
        · exact ha
        · exact absurd h1 he
      exact C112_unique r.tag.names (hsh.1 he) key.1 ha key.2

end Verif
