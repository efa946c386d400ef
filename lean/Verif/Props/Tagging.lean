import Verif.Lemmas.Readings
import Verif.Lemmas.Reload
import Verif.Props.Capacity
import Verif.Props.TagCodec

/-!
# C09, C11–C16 — tags and readings

`(dictOf h).attached n` are the tag name lists successfully attached to node `n` by the history `h`
(`Spec/Readings.lean`); `C09_logged` says which calls succeed. `ix.tagSetsOf n` is the model of
`Node.TagSets`. A node to which an empty list of tags was attached is excluded here; see C10.
-/

namespace Verif

/-- Tags as OpenCorpora has them: names and parents of four bytes (no parent is `"----"`). -/
def PlainTags (tags : List Tag) : Prop :=
  ∀ t ∈ tags, t.name.length = 4 ∧ t.name ≠ fourSpaces ∧ t.parent.length = 4 ∧ t.parent ≠ fourSpaces

instance (tags : List Tag) : Decidable (PlainTags tags) := by unfold PlainTags; infer_instance

theorem PlainTags.savable {tags : List Tag} (h : PlainTags tags) : ∀ t ∈ tags, Savable t :=
  fun t ht => ⟨(h t ht).1, (h t ht).2.1, .inr (h t ht).2.2.1⟩

theorem PlainTags.stored_of {tags : List Tag} (h : PlainTags tags) {t : Tag} (ht : t ∈ tags) : storedTag t = t := by
  obtain ⟨h1, h2, h3, h4⟩ := h t ht
  unfold storedTag
  rw [storedName_of_four h1 h2, storedName_of_four h3 h4]

theorem PlainTags.stored {tags : List Tag} (h : PlainTags tags) : tags.map storedTag = tags := by
  conv => rhs; rw [← List.map_id tags]
  exact List.map_congr_left fun t ht => h.stored_of ht

/-! ## C09 -/

/-- C09: `AddTagSet` succeeds exactly when all names are registered (the node exists), and only then the reading
is attached. -/
theorem C09_logged {h : List Op} {ix : Index} (r : Run h ix) (n : ID) (names : List Str)
    (hn : 1 ≤ n.toNat ∧ n.toNat ≤ ix.nodesCount) :
    ((ix.addTagSet n names).2 = .ok () ↔ ∀ x ∈ names, ∃ t ∈ ix.tags, t.name = x) ∧
    (dictOf (h ++ [.addTagSet n names])).attached n.toNat =
      (dictOf h).attached n.toNat ++ if (ix.addTagSet n names).2 = .ok () then [names] else [] := by
  have hpos := r.trie.length_pos
  rw [r.trie.nodesCount] at hn
  have hk : 0 < n.toNat ∧ n.toNat < (dictOf h).nodes.length := by omega
  have hall : names.all (dictOf h).hasTag = true ↔ ∀ x ∈ names, ∃ t ∈ ix.tags, t.name = x := by
    rw [r.tag.tags]; unfold Dict.hasTag; simp
  have hiff : (ix.addTagSet n names).2 = .ok () ↔ names.all (dictOf h).hasTag = true := by
    constructor
    · intro he
      cases hf : Index.findAll (dictOf h).tags names with
      | ok ids => exact all_hasTag_iff.2 ⟨ids, hf⟩
      | error x =>
        unfold Index.addTagSet at he
        rw [r.tag.tags, hf] at he
        cases he
    · intro ha
      obtain ⟨ids, hids⟩ := all_hasTag_iff.1 ha
      exact (r.tag.addTagSet_ok r.trie r.caps r.refines.2.tags n names hk.1 hk.2 hids).1
  refine ⟨hiff.trans hall, ?_⟩
  rw [dictOf_append]
  simp only [Op.spec]
  by_cases ha : names.all (dictOf h).hasTag = true
  · rw [if_pos ⟨ha, hk⟩, if_pos (hiff.2 ha)]
    unfold Dict.attached
    simp
  · rw [if_neg (fun hh => ha hh.1), if_neg (fun hh => ha (hiff.1 hh)), List.append_nil]

/-- C09: `TagSets` lists exactly the attached readings, each once, with the registered tags. -/
theorem C09 {h : List Op} {ix : Index} (r : Run h ix) (n : ID) (hn : 1 ≤ n.toNat ∧ n.toNat ≤ ix.nodesCount)
    (hne : [] ∉ (dictOf h).attached n.toNat) :
    ∃ L, ix.tagSetsOf n = .ok L ∧ ExactReadings ix.tags ((dictOf h).attached n.toNat) L := by
  have hpos := r.trie.length_pos
  rw [r.trie.nodesCount] at hn
  rw [r.tag.tags]
  exact exactReadings_of r.refines.1 r.caps r.refines.2.tags (by omega) (by omega) hne

/-- The hypotheses are met: node 2 of the sample history has two readings. -/
example : [] ∉ (dictOf sampleHistory).attached 2 ∧ ((dictOf sampleHistory).attached 2).length = 2 ∧
    (execAll sampleHistory).nodesCount = 6 := by
  rw [sample_runs.trie.nodesCount]; decide

/-! ## C11 -/

/-- C11: in any state, `AddTagSet` with an unregistered name is refused and changes nothing; the error names an
unregistered one. -/
theorem C11 (ix : Index) (n : ID) (names : List Str) (hu : ∃ x ∈ names, ∀ t ∈ ix.tags, t.name ≠ x) :
    ∃ x ∈ names, (∀ t ∈ ix.tags, t.name ≠ x) ∧ ix.addTagSet n names = (ix, .err (.unknownTag x)) := by
  cases hf : Index.findAll ix.tags names with
  | error x =>
    obtain ⟨h1, h2⟩ := findAll_error hf
    refine ⟨x, h1, tagsFind_none.1 h2, ?_⟩
    unfold Index.addTagSet
    rw [hf]
  | ok ids =>
    obtain ⟨x, hx, ht⟩ := hu
    have hall := all_hasTag_iff (d := { Dict.empty with tags := ix.tags }).2 ⟨ids, hf⟩
    rw [List.all_eq_true] at hall
    obtain ⟨id, hid⟩ := hasTag_iff.1 (hall x hx)
    rw [tagsFind_none.2 ht] at hid
    cases hid

example : ∃ x ∈ [[78, 79, 85, 78], [88]], ∀ t ∈ (execAll sampleHistory).tags, t.name ≠ x := by
  rw [sample_runs.tag.tags]; decide

/-! ## C12 -/

/-- C12: `WordsCount` is the number of nodes with at least one reading. -/
theorem C12 {h : List Op} {ix : Index} (r : Run h ix) :
    ∃ L : List Nat, L.Nodup ∧ L.length = ix.wordsCount ∧ ∀ k, k ∈ L ↔ (dictOf h).attached k ≠ [] := by
  refine ⟨_, List.nodup_range.filter _, r.tag.count.symm, ?_⟩
  intro k
  rw [List.mem_filter, List.mem_range, List.any_eq_true]
  constructor
  · rintro ⟨_, ⟨k', names⟩, hm, he⟩ h0
    have := mem_attached.2 hm
    have he : k' = k := eq_of_beq he
    rw [he, h0] at this
    simp at this
  · intro hne
    obtain ⟨names, hm⟩ := List.exists_mem_of_ne_nil _ hne
    rw [mem_attached] at hm
    exact ⟨(r.tag.readings k names hm).2.1, ⟨k, names⟩, hm, by simp⟩

example : (execAll sampleHistory).wordsCount = 2 := by
  rw [sample_runs.tag.count]; decide

/-! ## C13 -/

/-- C13: whatever is done later, as long as nothing is attached to the node itself, its `TagSets` stays the
same. (If a save and load are among the later calls, the tags must be such that the file can hold them.) -/
theorem C13 {h h' : List Op} {ix ix' : Index} (r : Run h ix) (r' : Run (h ++ h') ix')
    (hr : NoReload h' ∨ PlainTags ix.tags)
    (n : ID) (hn : 1 ≤ n.toNat ∧ n.toNat ≤ ix.nodesCount) (hop : ∀ names, Op.addTagSet n names ∉ h')
    (hne : [] ∉ (dictOf h).attached n.toNat) : ix'.tagSetsOf n = ix.tagSetsOf n := by
  have hpos := r.trie.length_pos
  rw [r.trie.nodesCount] at hn
  exact tagSetsOf_later r.refines.1 r'.refines.1 r.caps r'.caps r'.refines.2.tags
    (dictOf_nodes_prefix h h').length_le (dictOf_tags_kept h h' (hr.imp_right fun hp => by
      rw [← r.tag.tags]; exact fun t ht => hp.stored_of ht)) (r.tagSets_mono r') (by omega) (by omega)
    (attached_untouched h h' n hop) hne

/-- C13: `AddTagSet` does not touch words, lookups, children, tags or counts of nodes. -/
theorem C13_lookups {h : List Op} {ix : Index} (r : Run h ix) (n : ID) (names : List Str) :
    let ix' := (ix.addTagSet n names).1
    (∀ id rs, (ix'.fetchFromItem id rs).2 = (ix.fetchFromItem id rs).2) ∧
    (∀ id, ix'.word id = ix.word id) ∧ (∀ id, ix'.get id = ix.get id) ∧
    (∀ id, ix'.getChildrenMap id = ix.getChildrenMap id) ∧ ix'.nodesCount = ix.nodesCount ∧
    ix'.tags = ix.tags := by
  intro ix'
  by_cases hok : names.all (dictOf h).hasTag = true ∧ 0 < n.toNat ∧ n.toNat < (dictOf h).nodes.length
  · obtain ⟨ids, hids⟩ := all_hasTag_iff.1 hok.1
    obtain ⟨_, t1, t2⟩ := r.tag.addTagSet_ok r.trie r.caps r.refines.2.tags n names hok.2.1 hok.2.2 hids
    refine ⟨?_, ?_, ?_, ?_, ?_, ?_⟩
    · exact fun id rs => fetch_same r.trie t2 rfl id rs fun _ _ => rfl
    · intro id
      cases hw : (dictOf h).nodes[id.toNat]? with
      | none => rw [r.trie.word_none hw]; exact t2.word_none hw
      | some w => rw [r.trie.word_eq hw]; exact t2.word_eq hw
    · intro id
      unfold Index.get
      rw [r.trie.next, t2.next]
    · intro id
      funext c
      cases hcc : ix.getChildrenMap id c with
      | some x => exact (t2.child id c x).2 ((r.trie.child id c x).1 hcc)
      | none =>
        cases hcc' : ix'.getChildrenMap id c with
        | none => rfl
        | some x =>
          have := (r.trie.child id c x).2 ((t2.child id c x).1 hcc')
          rw [hcc] at this; cases this
    · rw [r.trie.nodesCount]; exact t2.nodesCount
    · rw [r.tag.tags]; exact t1.tags
  · have : ix' = ix := r.tag.addTagSet_err r.trie n names hok
    rw [this]
    exact ⟨fun _ _ => rfl, fun _ => rfl, fun _ => rfl, fun _ => rfl, rfl, rfl⟩

/-- The hypotheses are met: node 2 of the sample history keeps its two readings through later calls, among them
`AddTagSet` on node 4. -/
example : Run (sampleHistory ++ [.addTagSet 4 [[78, 79, 85, 78]], .optimize, .reload, .addRunes [97, 98, 122]])
    (execAll (sampleHistory ++ [.addTagSet 4 [[78, 79, 85, 78]], .optimize, .reload, .addRunes [97, 98, 122]])) ∧
    PlainTags (execAll sampleHistory).tags :=
  ⟨small_runs _ (by decide), by rw [sample_runs.tag.tags]; decide⟩

/-! ## C14 -/

/-- Two lists of readings show the same readings. -/
def SameReadings (L₁ L₂ : List (List Tag)) : Prop :=
  L₁.length = L₂.length ∧ (∀ t ∈ L₁, ∃ t' ∈ L₂, (tagNames t).Perm (tagNames t')) ∧
    ∀ t ∈ L₂, ∃ t' ∈ L₁, (tagNames t).Perm (tagNames t')

theorem pairwise_cover_length {L₁ L₂ : List (List Tag)}
    (hp : L₁.Pairwise fun a b => ¬ (tagNames a).Perm (tagNames b))
    (hc : ∀ t ∈ L₁, ∃ t' ∈ L₂, (tagNames t).Perm (tagNames t')) : L₁.length ≤ L₂.length := by
  let f : List Tag → Quotient (List.isSetoid Str) := fun t => Quotient.mk _ (tagNames t)
  have h1 : (L₁.map f).Nodup := by
    unfold List.Nodup
    rw [List.pairwise_map]
    exact hp.imp fun h e => h (Quotient.exact e)
  have h2 : L₁.map f ⊆ L₂.map f := by
    intro x hx
    obtain ⟨t, ht, rfl⟩ := List.mem_map.1 hx
    obtain ⟨t', ht', hperm⟩ := hc t ht
    exact List.mem_map.2 ⟨t', ht', Quotient.sound hperm.symm⟩
  have := (List.subperm_of_subset h1 h2).length_le
  simpa using this

/-- C14: two histories that attach the same readings to a word — in any order, any number of times, with the
names in any order, amid any other calls — report the same readings for it. -/
theorem C14 {h₁ h₂ : List Op} {ix₁ ix₂ : Index} (r₁ : Run h₁ ix₁) (r₂ : Run h₂ ix₂) (n₁ n₂ : ID)
    (hn₁ : 1 ≤ n₁.toNat ∧ n₁.toNat ≤ ix₁.nodesCount) (hn₂ : 1 ≤ n₂.toNat ∧ n₂.toNat ≤ ix₂.nodesCount)
    (h12 : ∀ a ∈ (dictOf h₁).attached n₁.toNat, ∃ b ∈ (dictOf h₂).attached n₂.toNat, a.Perm b)
    (h21 : ∀ a ∈ (dictOf h₂).attached n₂.toNat, ∃ b ∈ (dictOf h₁).attached n₁.toNat, a.Perm b)
    (hne : [] ∉ (dictOf h₁).attached n₁.toNat) :
    ∃ L₁ L₂, ix₁.tagSetsOf n₁ = .ok L₁ ∧ ix₂.tagSetsOf n₂ = .ok L₂ ∧ SameReadings L₁ L₂ := by
  have hne2 : [] ∉ (dictOf h₂).attached n₂.toNat := by
    intro hm
    obtain ⟨b, hb, hp⟩ := h21 _ hm
    rw [hp.nil_eq.symm] at hb
    exact hne hb
  obtain ⟨L₁, e₁, x₁⟩ := C09 r₁ n₁ hn₁ hne
  obtain ⟨L₂, e₂, x₂⟩ := C09 r₂ n₂ hn₂ hne2
  have c12 : ∀ t ∈ L₁, ∃ t' ∈ L₂, (tagNames t).Perm (tagNames t') := by
    intro t ht
    obtain ⟨a, ha, hp⟩ := x₁.sound t ht
    obtain ⟨b, hb, hp'⟩ := h12 a ha
    obtain ⟨t', ht', hp''⟩ := x₂.complete b hb
    exact ⟨t', ht', hp.trans (hp'.trans hp''.symm)⟩
  have c21 : ∀ t ∈ L₂, ∃ t' ∈ L₁, (tagNames t).Perm (tagNames t') := by
    intro t ht
    obtain ⟨a, ha, hp⟩ := x₂.sound t ht
    obtain ⟨b, hb, hp'⟩ := h21 a ha
    obtain ⟨t', ht', hp''⟩ := x₁.complete b hb
    exact ⟨t', ht', hp.trans (hp'.trans hp''.symm)⟩
  exact ⟨L₁, L₂, e₁, e₂, Nat.le_antisymm (pairwise_cover_length x₁.once c12) (pairwise_cover_length x₂.once c21),
    c12, c21⟩

/-- A permuted version of the sample history, with other words around and a repeated call. -/
def permutedHistory : List Op :=
  [.addRunes [99], .tagID [86, 69, 82, 66] [], .addRunes [97, 98], .tagID [78, 79, 85, 78] [],
   .addTagSet 1 [[86, 69, 82, 66]],
   .addTagSet 3 [[78, 79, 85, 78], [86, 69, 82, 66]], .addTagSet 3 [[78, 79, 85, 78]],
   .addTagSet 3 [[86, 69, 82, 66], [78, 79, 85, 78]]]

example : Small permutedHistory ∧
    (dictOf sampleHistory).nodes[2]? = some [97, 98] ∧ (dictOf permutedHistory).nodes[3]? = some [97, 98] ∧
    (∀ a ∈ (dictOf sampleHistory).attached 2, ∃ b ∈ (dictOf permutedHistory).attached 3, a.Perm b) ∧
    (∀ a ∈ (dictOf permutedHistory).attached 3, ∃ b ∈ (dictOf sampleHistory).attached 2, a.Perm b) := by
  decide

/-! ## C15 -/

/-- C15: `Find` and `Get` of the registry are inverse to each other; names are unique. -/
theorem C15_inverse {h : List Op} {ix : Index} (r : Run h ix) (name : Str) (id : UInt8) :
    tagsFind ix.tags name = some id ↔ ∃ t, tagsGet ix.tags id = some t ∧ t.name = name := by
  rw [r.tag.tags, tagsGet_eq]
  exact tagsFind_some r.tag.names r.refines.2.tags

theorem Run.tagID_find {h : List Op} {ix : Index} (r : Run h ix) (name parent : Str) :
    tagsFind (dictOf (h ++ [.tagID name parent])).tags name = some (ix.tagID name parent).2 := by
  rw [dictOf_append]
  simp only [Op.spec]
  unfold Index.tagID tagsIndex
  rw [r.tag.tags]
  cases hf : tagsFind (dictOf h).tags name with
  | some id => rw [if_pos (hasTag_iff.2 ⟨id, hf⟩), hf]
  | none =>
    rw [if_neg]
    · simp only
      unfold tagsFind at *
      rw [Option.map_eq_none_iff] at hf
      rw [List.findIdx?_append, hf]
      simp [List.findIdx?_cons, newTag]
    · intro hb
      obtain ⟨id, hid⟩ := hasTag_iff.1 hb
      rw [hf] at hid; cases hid

/-- C15: the id given for a name is given for it ever after, whatever the parent argument and whatever happens in
between, and asking again changes nothing. -/
theorem C15_stable {h h' : List Op} {ix ix' : Index} (name parent : Str) (r : Run h ix)
    (r' : Run (h ++ Op.tagID name parent :: h') ix') (parent' : Str) :
    ix'.tagID name parent' = (ix', (ix.tagID name parent).2) ∧
    ∃ t, tagsGet ix'.tags (ix.tagID name parent).2 = some t ∧ t.name = name := by
  have e1 : h ++ Op.tagID name parent :: h' = (h ++ [Op.tagID name parent]) ++ h' := by simp
  rw [e1] at r'
  have hf := r'.find_mono name _ (r.tagID_find name parent)
  rw [← r'.tag.tags] at hf
  refine ⟨?_, (C15_inverse r' name _).1 hf⟩
  generalize (ix.tagID name parent).2 = id at hf
  unfold Index.tagID tagsIndex
  rw [hf]

/-- C15: the first parent given for a name wins (no parent is shown as `"----"`), and so it stays. (If a save and load
are among the later calls, the tag must be such that the file can hold it.) -/
theorem C15_parent {h h' : List Op} {ix ix' : Index} (name parent : Str) (r : Run h ix)
    (r' : Run (h ++ Op.tagID name parent :: h') ix') (hr : NoReload h' ∨ PlainTags [newTag parent name])
    (hnew : ∀ t ∈ ix.tags, t.name ≠ name) :
    tagsGet ix'.tags (ix.tagID name parent).2 =
      some { name := name, parent := if parent = [] then [45, 45, 45, 45] else parent } := by
  have e1 : h ++ Op.tagID name parent :: h' = (h ++ [Op.tagID name parent]) ++ h' := by simp
  rw [e1] at r'
  obtain ⟨ix1, r1⟩ := r'.before
  have hnone : tagsFind (dictOf h).tags name = none := by
    rw [← r.tag.tags]; exact tagsFind_none.2 hnew
  have hspec : (dictOf (h ++ [.tagID name parent])).tags = (dictOf h).tags ++ [newTag parent name] := by
    rw [dictOf_append]
    simp only [Op.spec]
    rw [if_neg]
    intro hb
    obtain ⟨id, hid⟩ := hasTag_iff.1 hb
    rw [hnone] at hid; cases hid
  have hlen := r1.refines.2.tags
  rw [hspec, List.length_append, List.length_singleton] at hlen
  have hid : (ix.tagID name parent).2 = UInt8.ofNat (dictOf h).tags.length := by
    unfold Index.tagID tagsIndex
    rw [r.tag.tags, hnone]
  rw [tagsGet_eq, r'.tag.tags, hid]
  refine dictOf_tag_kept _ h' ?_ (hr.imp_right fun hp => hp.stored_of (List.mem_singleton.2 rfl))
  rw [hspec, UInt8.toNat_ofNat', Nat.mod_eq_of_lt (by omega)]
  rw [List.getElem?_append_right (Nat.le_refl _), Nat.sub_self]
  rfl

/-- C15: different names have different ids. -/
theorem C15_injective {h h' : List Op} {ix ix' : Index} (a b p q : Str) (r : Run h ix)
    (r' : Run (h ++ Op.tagID a p :: h') ix') {ix'' : Index}
    (r'' : Run ((h ++ Op.tagID a p :: h') ++ [Op.tagID b q]) ix'')
    (he : (ix.tagID a p).2 = (ix'.tagID b q).2) : a = b := by
  obtain ⟨_, t, ht, hn⟩ := C15_stable (h' := h' ++ [Op.tagID b q]) a p r (by simpa using r'') []
  obtain ⟨_, t', ht', hn'⟩ := C15_stable (h' := []) b q r' r'' []
  rw [he, ht'] at ht
  rw [← hn, ← hn', Option.some.inj ht]

example : ∃ t, tagsGet (execAll sampleHistory).tags 1 = some t ∧ t.name = [86, 69, 82, 66] ∧
    t.parent = [78, 79, 85, 78] := by
  rw [sample_runs.tag.tags]; decide

/-- C15, known tags: a registry made with given tags of distinct names numbers them by position; each is found by its
name, and a tag without parent is shown with `"----"`. -/
theorem C15_known (known : List Tag) (hl : known.length ≤ 256) (hn : (known.map (·.name)).Nodup) (i : Nat) (t : Tag)
    (ht : known[i]? = some t) :
    tagsFind (newTagIdx known) t.name = some (UInt8.ofNat i) ∧
    tagsGet (newTagIdx known) (UInt8.ofNat i) =
      some { name := t.name, parent := if t.parent = [] then [45, 45, 45, 45] else t.parent } := by
  have hi : i < known.length := by
    rw [List.getElem?_eq_some_iff] at ht; exact ht.1
  have e1 : (UInt8.ofNat i).toNat = i := by rw [UInt8.toNat_ofNat', Nat.mod_eq_of_lt (by omega)]
  have e2 : (newTagIdx known).map (·.name) = known.map (·.name) := by
    unfold newTagIdx
    rw [List.map_map]
    congr 1
    funext x
    simp only [Function.comp_apply]
    split <;> rfl
  have hg : (newTagIdx known)[i]? =
      some { name := t.name, parent := if t.parent = [] then [45, 45, 45, 45] else t.parent } := by
    unfold newTagIdx
    rw [List.getElem?_map, ht, Option.map_some]
    congr 1
    obtain ⟨p, n⟩ := t
    simp only
    by_cases hp : p = []
    · rw [if_pos hp, if_pos hp]; rfl
    · rw [if_neg hp, if_neg hp]
  have hl' : (newTagIdx known).length ≤ 256 := by unfold newTagIdx; rw [List.length_map]; exact hl
  refine ⟨?_, by rw [tagsGet_eq, e1, hg]⟩
  refine (tagsFind_some (by rw [e2]; exact hn) hl').2 ⟨⟨if t.parent = [] then [45, 45, 45, 45] else t.parent, t.name⟩,
    by rw [e1]; exact hg, rfl⟩

example : ([⟨[], str "NOUN"⟩, ⟨str "NOUN", str "masc"⟩] : List Tag).map (·.name) = [str "NOUN", str "masc"] ∧
    newTagIdx [⟨[], str "NOUN"⟩, ⟨str "NOUN", str "masc"⟩] =
      [⟨str "----", str "NOUN"⟩, ⟨str "NOUN", str "masc"⟩] := by decide

/-! ## C16 -/

/-- C16 does not hold: with 256 names registered, the id returned for the next new name is 0 — the id of the first
name. -/
theorem not_C16 (ix : Index) (hl : ix.tags.length = 256) (name parent : Str)
    (hnew : ∀ t ∈ ix.tags, t.name ≠ name) :
    (ix.tagID name parent).2 = 0 ∧
      ∃ t, tagsGet (ix.tagID name parent).1.tags (ix.tagID name parent).2 = some t ∧ t.name ≠ name := by
  have hnone := tagsFind_none.2 hnew
  have h0 : (ix.tagID name parent).2 = 0 := by
    unfold Index.tagID tagsIndex
    rw [hnone, hl]
    rfl
  refine ⟨h0, ?_⟩
  have hpos : 0 < ix.tags.length := by omega
  refine ⟨ix.tags[0], ?_, hnew _ (List.getElem_mem hpos)⟩
  rw [h0, tagsGet_eq]
  unfold Index.tagID tagsIndex
  rw [hnone]
  simp only
  rw [List.getElem?_append_left (by simpa using hpos)]
  exact List.getElem?_eq_getElem hpos

/-- 256 different names of one byte. -/
def manyTags (k : Nat) : List Op := (List.range k).map fun i => Op.tagID [UInt8.ofNat i] []

theorem manyTags_dict (k : Nat) (hk : k ≤ 256) :
    (dictOf (manyTags k)).tags = (List.range k).map (fun i => newTag [] [UInt8.ofNat i]) := by
  induction k with
  | zero => rfl
  | succ k ih =>
    have e : manyTags (k + 1) = manyTags k ++ [Op.tagID [UInt8.ofNat k] []] := by
      unfold manyTags; rw [List.range_succ, List.map_append]; rfl
    have ih := ih (by omega)
    rw [e, dictOf_append]
    simp only [Op.spec]
    rw [if_neg]
    · simp only [ih, List.range_succ, List.map_append, List.map_cons, List.map_nil]
    · intro hb
      unfold Dict.hasTag at hb
      rw [ih, List.any_eq_true] at hb
      obtain ⟨t, ht, hn⟩ := hb
      obtain ⟨i, hi, rfl⟩ := List.mem_map.1 ht
      rw [List.mem_range] at hi
      have hn := eq_of_beq hn
      simp only [newTag, List.cons.injEq, and_true] at hn
      have := congrArg UInt8.toNat hn
      rw [UInt8.toNat_ofNat', UInt8.toNat_ofNat', Nat.mod_eq_of_lt (by omega), Nat.mod_eq_of_lt (by omega)] at this
      omega

theorem manyTags_tables (k : Nat) : (execAll (manyTags k)).tagSets = [] ∧
    (execAll (manyTags k)).collectionIdx = [] := by
  induction k with
  | zero => exact ⟨rfl, rfl⟩
  | succ k ih =>
    have e : manyTags (k + 1) = manyTags k ++ [Op.tagID [UInt8.ofNat k] []] := by
      unfold manyTags; rw [List.range_succ, List.map_append]; rfl
    unfold execAll at *
    rw [e, List.foldl_append]
    exact ih

theorem manyTags_nodes (k : Nat) : (dictOf (manyTags k)).nodes = [[]] := by
  induction k with
  | zero => rfl
  | succ k ih =>
    have e : manyTags (k + 1) = manyTags k ++ [Op.tagID [UInt8.ofNat k] []] := by
      unfold manyTags; rw [List.range_succ, List.map_append]; rfl
    rw [e, dictOf_append]
    simp only [Op.spec]
    split <;> exact ih

theorem manyTags_run (k : Nat) (hk : k ≤ 256) : Run (manyTags k) (execAll (manyTags k)) := by
  induction k with
  | zero => exact Run.nil
  | succ k ih =>
    have e : manyTags (k + 1) = manyTags k ++ [Op.tagID [UInt8.ofNat k] []] := by
      unfold manyTags; rw [List.range_succ, List.map_append]; rfl
    have hx : execAll (manyTags (k + 1)) = (Op.tagID [UInt8.ofNat k] []).exec (execAll (manyTags k)) := by
      unfold execAll; rw [e, List.foldl_append]; rfl
    have := manyTags_tables (k + 1)
    have hfit : Fits (execAll (manyTags (k + 1))) (dictOf (manyTags (k + 1))) := by
      constructor
      · rw [manyTags_nodes]; simp
      · rw [manyTags_dict _ hk]; simpa using hk
      · rw [this.1]; simp
      · rw [this.1]; simp
      · rw [this.2]; simp
      · rw [this.2]; simp
    rw [hx] at hfit ⊢
    rw [e] at hfit ⊢
    exact Run.step _ (ih (by omega)) trivial hfit

/-- A reachable state with 256 tags, in which the next name collides. -/
theorem not_C16_reachable : ∃ h ix name, Run h ix ∧ (∀ t ∈ ix.tags, t.name ≠ name) ∧
    ∃ t, tagsGet (ix.tagID name []).1.tags (ix.tagID name []).2 = some t ∧ t.name ≠ name := by
  have r := manyTags_run 256 (Nat.le_refl _)
  have ht : (execAll (manyTags 256)).tags = _ := r.tag.tags.trans (manyTags_dict 256 (Nat.le_refl _))
  have hnew : ∀ t ∈ (execAll (manyTags 256)).tags, t.name ≠ [] := by
    intro t htm
    rw [ht] at htm
    obtain ⟨i, _, rfl⟩ := List.mem_map.1 htm
    simp [newTag]
  exact ⟨_, _, [], r, hnew, (not_C16 _ (by rw [ht]; simp) [] [] hnew).2⟩

/-- C16, the part that holds: while fewer than 256 names are registered, the id of a new name is new. -/
theorem C16_partial (ix : Index) (hl : ix.tags.length < 256) (name parent : Str)
    (hnew : ∀ t ∈ ix.tags, t.name ≠ name) :
    tagsGet ix.tags (ix.tagID name parent).2 = none ∧
    ∃ t, tagsGet (ix.tagID name parent).1.tags (ix.tagID name parent).2 = some t ∧ t.name = name := by
  have hnone := tagsFind_none.2 hnew
  have hid : (ix.tagID name parent).2.toNat = ix.tags.length := by
    unfold Index.tagID tagsIndex
    rw [hnone]
    simp only
    rw [UInt8.toNat_ofNat', Nat.mod_eq_of_lt hl]
  rw [tagsGet_eq, tagsGet_eq, hid]
  refine ⟨List.getElem?_eq_none (Nat.le_refl _), ?_⟩
  unfold Index.tagID tagsIndex
  rw [hnone]
  simp only
  rw [List.getElem?_append_right (Nat.le_refl _), Nat.sub_self]
  exact ⟨_, rfl, rfl⟩

end Verif
