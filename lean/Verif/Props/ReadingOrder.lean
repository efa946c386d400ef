import Verif.Lemmas.ReadingOrder
import Verif.Props.Exact

/-!
# C112: the order in which readings are shown

`Arranged` and `Dict.firstUse` are in `Spec/ReadingOrder.lean`. Together with what is shown (C09, C10) the arrangement
determines the whole answer of `TagSets` (`C112_unique`).
-/

namespace Verif

/-- C112: readings with fewer tags come first, those with equally many in the order in which the combinations were first
used anywhere in the dictionary; the tags of a reading come in the order in which they were registered. -/
theorem C112 {h : List Op} {ix : Index} (r : Run h ix) (n : ID) (hn : 1 ≤ n.toNat ∧ n.toNat ≤ ix.nodesCount)
    (hne : [] ∉ (dictOf h).attached n.toNat) :
    ∃ L, ix.tagSetsOf n = .ok L ∧ ExactReadings (dictOf h).tags ((dictOf h).attached n.toNat) L ∧
      Arranged (dictOf h) L := by
  have hpos := r.trie.length_pos
  rw [r.trie.nodesCount] at hn
  obtain ⟨c, hs, hnd, hm, he⟩ := tagSetsOf_eq r.refines.1 r.caps (id := n) (by omega) (by omega)
  refine ⟨_, he, exactReadings_coll r.refines.1 r.caps r.refines.2.tags hnd hne
    (fun names hna => (r.tag.readings _ names (mem_attached.1 hna)).2.2) hm, arranged_coll r hs hnd ?_⟩
  intro i hi
  obtain ⟨names, hna, hts⟩ := (hm i).1 hi
  exact ⟨names, by rintro rfl; exact hne hna, ⟨_, mem_attached.1 hna, rfl⟩, hts⟩

/-- C112 without a condition: if empty readings were attached too, what is shown instead (C10) is arranged in the same way,
or consists of empty readings only. -/
theorem C112_exact {h : List Op} {ix : Index} (r : Run h ix) (n : ID) (hn : 1 ≤ n.toNat ∧ n.toNat ≤ ix.nodesCount) :
    ∃ L, ix.tagSetsOf n = .ok L ∧ Shown ix.tags (dictOf h).firstSingle ((dictOf h).attached n.toNat) L ∧
      (Arranged (dictOf h) L ∨
        (dictOf h).firstSingle = none ∧ [] ∈ (dictOf h).attached n.toNat ∧ ∀ t ∈ L, t = []) := by
  obtain ⟨L, hL, hsh⟩ := C10_exact r n hn
  refine ⟨L, hL, hsh, ?_⟩
  by_cases hne : [] ∈ (dictOf h).attached n.toNat
  · cases hx : (dictOf h).firstSingle with
    | none =>
      refine .inr ⟨rfl, hne, ?_⟩
      obtain ⟨L', hL', -, h0⟩ := C10_hidden r n hn hx hne
      rw [hL] at hL'
      cases hL'
      exact h0
    | some x =>
      left
      have hpos := r.trie.length_pos
      rw [r.trie.nodesCount] at hn
      obtain ⟨c, hs, hnd, hm, he⟩ := tagSetsOf_eq r.refines.1 r.caps (id := n) (by omega) (by omega)
      rw [hL] at he
      cases he
      obtain ⟨⟨k, names⟩, hmr, hnm⟩ := List.exists_of_findSome?_eq_some hx
      have hone : names = [x] := singleName_some hnm
      subst hone
      have hfs := r.firstSet
      rw [hx] at hfs
      obtain ⟨_, _, _, ids, hids, _⟩ := r.tag.readings k [x] hmr
      have hall := all_hasTag_iff (d := dictOf h).2 ⟨ids, hids⟩
      simp only [List.all_cons, List.all_nil, Bool.and_true] at hall
      obtain ⟨i, hi⟩ := hasTag_iff.1 hall
      simp only [Option.bind_some] at hfs
      rw [hi] at hfs
      have hfa : Index.findAll (dictOf h).tags [x] = .ok [i] := by
        rw [findAll_ok]; exact List.Forall₂.cons hi List.Forall₂.nil
      have h0 : TSId (dictOf h).tags ix.tagSets [x] 0 := ⟨[i], hfa, .inr ⟨by simp, (0, 0), hfs, rfl⟩⟩
      have he : TSId (dictOf h).tags ix.tagSets [] 0 := ⟨[], rfl, .inl ⟨rfl, rfl⟩⟩
      refine arranged_coll r hs hnd ?_
      intro j hj
      obtain ⟨names, hna, hts⟩ := (hm j).1 hj
      by_cases hz : names = []
      · subst hz
        exact ⟨[x], by simp, ⟨_, hmr, rfl⟩, by rw [hts.unique r.tag.sets he]; exact h0⟩
      · exact ⟨names, hz, ⟨_, mem_attached.1 hna, rfl⟩, hts⟩
  · left
    obtain ⟨L', hL', -, ha⟩ := C112 r n hn hne
    rw [hL] at hL'
    cases hL'
    exact ha

theorem idxOf_name {tags : List Tag} (hn : (tags.map (·.name)).Nodup) {x : Tag} (hx : x ∈ tags) :
    tags.idxOf x = (tags.map (·.name)).idxOf x.name := by
  obtain ⟨i, hi, rfl⟩ := List.mem_iff_getElem.1 hx
  rw [List.Nodup.idxOf_getElem (hn.of_map _) _ hi]
  have := List.Nodup.idxOf_getElem hn i (by simpa using hi)
  rw [List.getElem_map] at this
  exact this.symm

/-- Two readings of registered tags, in order of registration, with the same names. -/
theorem reading_unique {tags : List Tag} (hn : (tags.map (·.name)).Nodup) {a b : List Tag} (ha : ∀ x ∈ a, x ∈ tags)
    (hb : ∀ x ∈ b, x ∈ tags) (sa : a.Pairwise fun x y => tags.idxOf x ≤ tags.idxOf y)
    (sb : b.Pairwise fun x y => tags.idxOf x ≤ tags.idxOf y) (hp : (tagNames a).Perm (tagNames b)) : a = b := by
  have e : ∀ l : List Tag, (∀ x ∈ l, x ∈ tags) →
      l.map tags.idxOf = (tagNames l).map (tags.map (·.name)).idxOf := by
    intro l hl
    unfold tagNames
    rw [List.map_map]
    exact List.map_congr_left fun x hx => idxOf_name hn (hl x hx)
  have hi : a.map tags.idxOf = b.map tags.idxOf := by
    refine eq_of_perm_of_sorted (List.pairwise_map.2 sa) (List.pairwise_map.2 sb) ?_
    rw [e a ha, e b hb]
    exact hp.map _
  have back : ∀ l : List Tag, (∀ x ∈ l, x ∈ tags) → l.map some = (l.map tags.idxOf).map fun i => tags[i]? := by
    intro l hl
    rw [List.map_map]
    refine List.map_congr_left fun x hx => ?_
    simp only [Function.comp_apply]
    have hlt := List.idxOf_lt_length_of_mem (hl x hx)
    rw [List.getElem?_eq_getElem hlt, List.getElem_idxOf hlt]
  have : a.map some = b.map some := by rw [back a ha, back b hb, hi]
  exact List.map_injective_iff.2 (Option.some_injective _) this

/-- C112: content and arrangement determine the answer. -/
theorem C112_unique {d : Dict} (hn : (d.tags.map (·.name)).Nodup) {A : List (List Str)} {L L' : List (List Tag)}
    (h : ExactReadings d.tags A L) (h' : ExactReadings d.tags A L') (a : Arranged d L) (a' : Arranged d L') : L = L' := by
  have sub : ∀ {L L' : List (List Tag)}, ExactReadings d.tags A L → ExactReadings d.tags A L' → Arranged d L →
      Arranged d L' → ∀ t ∈ L, t ∈ L' := by
    intro L L' h h' a a' t ht
    obtain ⟨names, hna, hp⟩ := h.sound t ht
    obtain ⟨t', ht', hp'⟩ := h'.complete names hna
    rw [reading_unique hn (h.registered t ht) (h'.registered t' ht') (a.tags t ht) (a'.tags t' ht') (hp.trans hp'.symm)]
    exact ht'
  have nd : ∀ {L : List (List Tag)}, Arranged d L → L.Nodup := fun a => a.readings.imp fun h e => by
    subst e; rcases h with h | ⟨-, h⟩ <;> exact Nat.lt_irrefl _ h
  have hp : L.Perm L' := (List.perm_ext_iff_of_nodup (nd a) (nd a')).2 fun t => ⟨sub h h' a a' t, sub h' h a' a t⟩
  refine hp.eq_of_pairwise ?_ a.readings a'.readings
  rintro x y _ _ (h1 | ⟨h1, h2⟩) (h3 | ⟨h3, h4⟩) <;> omega

theorem firstUse_lt {d d' : Dict} (hp : d.readings <+: d'.readings) {a b : List Str} (hu : ∃ e ∈ d.readings, e.2.Perm a)
    (hlt : d.firstUse a < d.firstUse b) : d'.firstUse a < d'.firstUse b := by
  obtain ⟨tl, htl⟩ := hp
  obtain ⟨e, he, hea⟩ := hu
  unfold Dict.firstUse at *
  rw [← htl, List.findIdx_append, List.findIdx_append]
  have h1 : (d.readings.findIdx fun x => decide (x.2.Perm a)) < d.readings.length :=
    List.findIdx_lt_length_of_exists ⟨e, he, by simpa using hea⟩
  rw [if_pos h1]
  split
  · exact hlt
  · omega

theorem tagsFind_none' {tags : List Tag} {n : Str} : tagsFind tags n = none ↔ n ∉ tags.map (·.name) := by
  rw [tagsFind_none, List.mem_map]
  exact ⟨fun h ⟨t, ht, e⟩ => h t ht e, fun h t ht e => h ⟨t, ht, e⟩⟩

theorem idxOf_kept {h h' : List Op} {ix ix' : Index} (r : Run h ix) (r' : Run (h ++ h') ix') {n : Str}
    (hn : n ∈ (dictOf h).tags.map (·.name)) : ((dictOf (h ++ h')).tags.map (·.name)).idxOf n =
      ((dictOf h).tags.map (·.name)).idxOf n := by
  have find : ∀ {h : List Op} {ix : Index} (r : Run h ix) {id : UInt8}, tagsFind (dictOf h).tags n = some id →
      ((dictOf h).tags.map (·.name)).idxOf n = id.toNat := by
    intro h ix r id hf
    obtain ⟨t, ht, rfl⟩ := (tagsFind_some r.tag.names r.refines.2.tags).1 hf
    obtain ⟨hlt, rfl⟩ := List.getElem?_eq_some_iff.1 ht
    have := List.Nodup.idxOf_getElem r.tag.names id.toNat (by simpa using hlt)
    rwa [List.getElem_map] at this
  cases hf : tagsFind (dictOf h).tags n with
  | none => exact absurd hn (tagsFind_none'.1 hf)
  | some id => rw [find r hf, find r' (r'.find_mono n id hf)]

/-- C112, in time: whatever is called later (`Optimize`, saving and loading, further words, tags and readings), the readings
shown for a word keep their order, and so do their tags: later ones are only put in between. -/
theorem C112_kept {h h' : List Op} {ix ix' : Index} (r : Run h ix) (r' : Run (h ++ h') ix') (n : ID)
    (hn : 1 ≤ n.toNat ∧ n.toNat ≤ ix.nodesCount) (hne : [] ∉ (dictOf (h ++ h')).attached n.toNat) :
    ∃ L L', ix.tagSetsOf n = .ok L ∧ ix'.tagSetsOf n = .ok L' ∧ (L.map tagNames).Sublist (L'.map tagNames) := by
  have hpre := dictOf_readings_prefix h h'
  have hsub := (attached_mono hpre n.toNat).subset
  have hcount : ix.nodesCount ≤ ix'.nodesCount := by
    rw [r.trie.nodesCount, r'.trie.nodesCount]
    exact Nat.sub_le_sub_right (dictOf_nodes_prefix h h').length_le 1
  obtain ⟨L, hL, he, ha⟩ := C112 r n hn fun hm => hne (hsub hm)
  obtain ⟨L', hL', he', ha'⟩ := C112 r' n ⟨hn.1, by omega⟩ hne
  refine ⟨L, L', hL, hL', ?_⟩
  let idx := ((dictOf h).tags.map (·.name)).idxOf
  let idx' := ((dictOf (h ++ h')).tags.map (·.name)).idxOf
  have hreg : ∀ t ∈ L, ∀ x ∈ tagNames t, x ∈ (dictOf h).tags.map (·.name) := by
    intro t ht x hx
    obtain ⟨y, hy, rfl⟩ := List.mem_map.1 hx
    exact List.mem_map_of_mem (he.registered t ht y hy)
  have hk : ∀ x ∈ (dictOf h).tags.map (·.name), idx' x = idx x := fun x hx => idxOf_kept r r' hx
  have hreg' : ∀ t ∈ L, ∀ x ∈ tagNames t, x ∈ (dictOf (h ++ h')).tags.map (·.name) := by
    intro t ht x hx
    have h1 : idx' x = idx x := hk x (hreg t ht x hx)
    cases hf : tagsFind (dictOf h).tags x with
    | none => exact absurd (hreg t ht x hx) (tagsFind_none'.1 hf)
    | some id =>
      have := r'.find_mono x id hf
      by_contra hc
      rw [tagsFind_none'.2 hc] at this
      cases this
  -- the same reading is shown, its tags in the same order
  have hin : ∀ t ∈ L, tagNames t ∈ L'.map tagNames := by
    intro t ht
    obtain ⟨names, hna, hp⟩ := he.sound t ht
    obtain ⟨t', ht', hp'⟩ := he'.complete names (hsub hna)
    refine List.mem_map.2 ⟨t', ht', ?_⟩
    have hpp : (tagNames t').Perm (tagNames t) := hp'.trans hp.symm
    have s1 : ((tagNames t).map idx').Pairwise (· ≤ ·) := by
      rw [List.pairwise_map]
      unfold tagNames
      rw [List.pairwise_map]
      refine List.Pairwise.imp_of_mem ?_ (ha.tags t ht)
      intro a b hma hmb hab
      rw [idxOf_name r.tag.names (he.registered t ht a hma), idxOf_name r.tag.names (he.registered t ht b hmb)] at hab
      rw [hk _ (hreg t ht _ (List.mem_map_of_mem hma)), hk _ (hreg t ht _ (List.mem_map_of_mem hmb))]
      exact hab
    have s2 : ((tagNames t').map idx').Pairwise (· ≤ ·) := by
      rw [List.pairwise_map]
      unfold tagNames
      rw [List.pairwise_map]
      refine List.Pairwise.imp_of_mem ?_ (ha'.tags t' ht')
      intro a b hma hmb hab
      rw [idxOf_name r'.tag.names (he'.registered t' ht' a hma), idxOf_name r'.tag.names (he'.registered t' ht' b hmb)] at hab
      exact hab
    have heq := eq_of_perm_of_sorted s2 s1 (hpp.map idx')
    have back : ∀ l : List Str, (∀ x ∈ l, x ∈ (dictOf (h ++ h')).tags.map (·.name)) →
        l.map some = (l.map idx').map fun i => ((dictOf (h ++ h')).tags.map (·.name))[i]? := by
      intro l hl
      rw [List.map_map]
      refine List.map_congr_left fun x hx => ?_
      simp only [Function.comp_apply]
      have hlt := List.idxOf_lt_length_of_mem (hl x hx)
      change some x = ((dictOf (h ++ h')).tags.map (·.name))[((dictOf (h ++ h')).tags.map (·.name)).idxOf x]?
      rw [List.getElem?_eq_getElem hlt, List.getElem_idxOf hlt]
    refine List.map_injective_iff.2 (Option.some_injective _) ?_
    rw [back _ (hreg' t ht), back _ fun x hx => hreg' t ht x (hpp.mem_iff.1 hx), heq]
  -- both lists are sorted by the later order
  let R : List Str → List Str → Prop := fun a b => a.length < b.length ∨
    a.length = b.length ∧ (dictOf (h ++ h')).firstUse a < (dictOf (h ++ h')).firstUse b
  have anti : Std.Antisymm R := ⟨by
    rintro a b (h1 | ⟨h1, h2⟩) (h3 | ⟨h3, h4⟩) <;> omega⟩
  have o1 : (L.map tagNames).Pairwise R := by
    rw [List.pairwise_map]
    refine List.Pairwise.imp_of_mem ?_ ha.readings
    rintro a b hma hmb (h1 | ⟨h1, h2⟩)
    · left; simpa [tagNames] using h1
    · right
      refine ⟨by simpa [tagNames] using h1, firstUse_lt hpre ?_ h2⟩
      obtain ⟨names, hna, hp⟩ := he.sound a hma
      exact ⟨_, mem_attached.1 hna, hp.symm⟩
  have o2 : (L'.map tagNames).Pairwise R := by
    rw [List.pairwise_map]
    refine ha'.readings.imp ?_
    rintro a b (h1 | ⟨h1, h2⟩)
    · left; simpa [tagNames] using h1
    · right; exact ⟨by simpa [tagNames] using h1, h2⟩
  have nd : (L.map tagNames).Nodup := o1.imp fun h e => by
    subst e; rcases h with h | ⟨-, h⟩ <;> exact Nat.lt_irrefl _ h
  refine List.sublist_of_subperm_of_pairwise (List.subperm_of_subset nd ?_) o1 o2
  intro x hx
  obtain ⟨t, ht, rfl⟩ := List.mem_map.1 hx
  exact hin t ht

/-! ## An example -/

/-- "a" has the readings {C, A}, {B} and {A}, in this order; {A} is first used for "b", after {B}. -/
def orderedSample : List Op :=
  [.tagID (str "AAAA") [], .tagID (str "BBBB") [], .tagID (str "CCCC") [], .addRunes [97], .addRunes [98],
   .addTagSet 1 [str "CCCC", str "AAAA"], .addTagSet 1 [str "BBBB"], .addTagSet 2 [str "AAAA"],
   .addTagSet 1 [str "AAAA"], .optimize]

example : Run orderedSample (execAll orderedSample) ∧ (execAll orderedSample).nodesCount = 2 ∧
    [] ∉ (dictOf orderedSample).attached 1 ∧
    (execAll orderedSample).tagSetsOf 1 = .ok [[newTag [] (str "BBBB")], [newTag [] (str "AAAA")],
      [newTag [] (str "AAAA"), newTag [] (str "CCCC")]] :=
  ⟨small_runs _ (by decide), by decide, by decide, by decide⟩

end Verif
