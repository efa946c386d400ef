import Verif.Lemmas.SaveWhileExact

/-!
# C94 — a file saved while other goroutines work

`h` is what happened before the save, `during` the calls of other goroutines while `BinaryWriteTo` runs, `m` says after how
many of them the writer reads what (`Model/SaveWhile.lean`); `momentsOf h during i` is the index after `i` of them.
-/

namespace Verif

/-- C94, words and tags: as long as the other goroutines only add, the file is written without error and can be loaded; it
contains exactly the words there were when the nodes were read, with the same numbers, and the tags there were when
the tags were read. -/
theorem C94_words {h during : List Op} {ix : Index} {m : Moments} (r : Run (h ++ during) ix) (ho : OnlyAdds during)
    (hm : m.Ordered) (hl : ∀ i, (momentsOf h during i).InLimits) (ht : PlainTags (momentsOf h during m.tags).tags) :
    (m.save (momentsOf h during)).err = none ∧
    ∃ L, Index.new.load (m.save (momentsOf h during)).bytes = .ok (L, []) ∧ SameWords (momentsOf h during m.items) L ∧
      L.tags = (momentsOf h during m.tags).tags := by
  obtain ⟨h1, h2, h3, h4⟩ := saved_load r ho hm hl ht
  exact ⟨h1, _, h2, h3, h4.tags⟩

/-- C94, readings, the part that holds: a word nobody tagged between the reading of the tags and the reading of its node
has the readings it had. (As in C10, readings without tags are left out.) -/
theorem C94_partial {h during : List Op} {ix L : Index} {m : Moments} (r : Run (h ++ during) ix) (ho : OnlyAdds during)
    (hm : m.Ordered) (hl : ∀ i, (momentsOf h during i).InLimits) (ht : PlainTags (momentsOf h during m.tags).tags)
    (hL : Index.new.load (m.save (momentsOf h during)).bytes = .ok (L, [])) (id : ID) (h0 : id ≠ 0)
    (h1 : (momentsOf h during m.items).get id = .ok id)
    (hq : ∀ names, Op.addTagSet id names ∉ (during.take (m.item id.toNat)).drop m.tags)
    (hne : Op.addTagSet id [] ∉ h ++ during) :
    L.tagSetsOf id = (momentsOf h during (m.item id.toNat)).tagSetsOf id := by
  obtain ⟨-, h2, -, h4⟩ := saved_load r ho hm hl ht
  rw [hL] at h2
  obtain ⟨rfl, -⟩ := Prod.mk.inj (Out.ok.inj h2)
  refine loaded_kept r ho hm h4 id (Nat.pos_of_ne_zero fun e => h0 (TrieOK.toNat_eq_zero.1 e)) ?_ hq ?_
  · unfold Index.get at h1
    split at h1
    · cases h1
    · rw [← (moment_run r m.items).trie.next]; omega
  · intro hm'
    refine hne ?_
    have hsub : ∀ (l : List Op) (k : Nat) (names : List Str), names ∈ (dictOf l).attached k →
        ∃ i : ID, i.toNat = k ∧ Op.addTagSet i names ∈ l := by
      intro l
      induction l using list_reverse_induction with
      | nil => intro k names hk; rw [mem_attached] at hk; cases hk
      | snoc l op ih =>
        intro k names hk
        rw [mem_attached, dictOf_append] at hk
        rcases Op.spec_readings (dictOf l) op with e | ⟨i, ns, rfl, e⟩
        · rw [e, ← mem_attached] at hk
          obtain ⟨i, e1, e2⟩ := ih k names hk
          exact ⟨i, e1, List.mem_append_left _ e2⟩
        · rw [e] at hk
          rcases List.mem_append.1 hk with hk | hk
          · rw [← mem_attached] at hk
            obtain ⟨i, e1, e2⟩ := ih k names hk
            exact ⟨i, e1, List.mem_append_left _ e2⟩
          · obtain ⟨rfl, rfl⟩ := Prod.mk.inj (List.mem_singleton.1 hk)
            exact ⟨i, rfl, by simp⟩
    obtain ⟨i, e1, e2⟩ := hsub _ _ _ hm'
    rw [UInt32.toNat_inj] at e1
    subst e1
    rcases List.mem_append.1 e2 with e2 | e2
    · exact List.mem_append_left _ e2
    · exact List.mem_append_right _ (List.mem_of_mem_take e2)

/-- C94, readings, in every case: a word of the file shows no reading it did not have. `TagSets` crashes, or it has as many
entries as the word had readings when its node was read, each one the right one with parts blank or left out. -/
theorem C94_sound {h during : List Op} {ix L : Index} {m : Moments} (r : Run (h ++ during) ix) (ho : OnlyAdds during)
    (hm : m.Ordered) (hl : ∀ i, (momentsOf h during i).InLimits) (ht : PlainTags (momentsOf h during m.tags).tags)
    (hL : Index.new.load (m.save (momentsOf h during)).bytes = .ok (L, [])) (id : ID) :
    L.tagSetsOf id = .panic ∨ ∃ R R', (momentsOf h during (m.item id.toNat)).tagSetsOf id = .ok R ∧
      L.tagSetsOf id = .ok R' ∧ List.Forall₂ Blanked R' R := by
  obtain ⟨-, h2, -, h4⟩ := saved_load r ho hm hl ht
  rw [hL] at h2
  obtain ⟨rfl, -⟩ := Prod.mk.inj (Out.ok.inj h2)
  exact loaded_sound r ho hm h4 id

/-- C94: if nobody tags a word during the save, the file is the dictionary of the moment the nodes were read, but for the tags
registered meanwhile. -/
theorem C94_untagged_partial {h during : List Op} {ix L : Index} {m : Moments} (r : Run (h ++ during) ix)
    (ho : OnlyAdds during) (hm : m.Ordered) (hl : ∀ i, (momentsOf h during i).InLimits)
    (ht : PlainTags (momentsOf h during m.tags).tags)
    (hL : Index.new.load (m.save (momentsOf h during)).bytes = .ok (L, []))
    (hq : ∀ id names, Op.addTagSet id names ∉ during) (hne : ∀ id, Op.addTagSet id [] ∉ h) :
    SameWords (momentsOf h during m.items) L ∧
    ∀ id, id ≠ 0 → (momentsOf h during m.items).get id = .ok id →
      L.tagSetsOf id = (momentsOf h during (m.item id.toNat)).tagSetsOf id := by
  obtain ⟨-, L', h2, h3, -⟩ := C94_words r ho hm hl ht
  have h2' := h2
  rw [hL] at h2'
  obtain ⟨rfl, -⟩ := Prod.mk.inj (Out.ok.inj h2')
  refine ⟨h3, fun id h0 h1 => C94_partial r ho hm hl ht hL id h0 h1 ?_ ?_⟩
  · exact fun names hmem => hq id names (List.mem_of_mem_take (List.mem_of_mem_drop hmem))
  · intro hmem
    rcases List.mem_append.1 hmem with hmem | hmem
    · exact hne id hmem
    · exact hq id [] hmem

/-- C94, exactly: what the other goroutines must not do. Let `A` be the readings of a word when its node is read. Asking
the loaded file for them crashes if and only if there are any and no word had exactly these readings when the
collections were read. The answer is right if and only if there are none, or some word had exactly these readings when
the collections were read, each of them was a reading of some word when the tag sets were read, and its tags
were registered when the tags were read. (Here both lists of tables are read in one go, and readings without tags are
left out.) -/
theorem C94_exact {h during : List Op} {ix L : Index} {m : Moments} (r : Run (h ++ during) ix) (ho : OnlyAdds during)
    (hm : m.Ordered) (hg : m.OneGo) (hl : ∀ i, (momentsOf h during i).InLimits)
    (ht : PlainTags (momentsOf h during m.tags).tags)
    (hL : Index.new.load (m.save (momentsOf h during)).bytes = .ok (L, []))
    (hne : ∀ id, Op.addTagSet id [] ∉ h ++ during) (id : ID) (h0 : id ≠ 0)
    (h1 : (momentsOf h during m.items).get id = .ok id) :
    let A := (dictOf (h ++ during.take (m.item id.toNat))).attached id.toNat
    (L.tagSetsOf id = .panic ↔ A ≠ [] ∧ ¬ CombinedBy (h ++ during.take m.colls) A) ∧
    (L.tagSetsOf id = (momentsOf h during (m.item id.toNat)).tagSetsOf id ↔
      A = [] ∨ (CombinedBy (h ++ during.take m.colls) A ∧
        ∀ names ∈ A, AttachedBy (h ++ during.take m.sets) names ∧
          ∀ x ∈ names, ∃ t ∈ (dictOf (h ++ during.take m.tags)).tags, t.name = x)) := by
  obtain ⟨-, h2, -, h4⟩ := saved_load r ho hm hl ht
  rw [hL] at h2
  obtain ⟨rfl, -⟩ := Prod.mk.inj (Out.ok.inj h2)
  refine loaded_exact r ho hm hg h4 hne id (Nat.pos_of_ne_zero fun e => h0 (TrieOK.toNat_eq_zero.1 e)) ?_ rfl rfl
  unfold Index.get at h1
  split at h1
  · cases h1
  · rw [← (moment_run r m.items).trie.next]; omega

/-! ## Files that are wrong -/

/-- The word "a" and the tag "NOUN". -/
def beforeSave : List Op := [.tagID [78, 79, 85, 78] [], .addRunes [97]]

/-- The four parts of the file, each read at one moment. -/
def readAt (tags sets colls items : Nat) : Moments :=
  { tags := tags, sets := sets, set := fun _ => sets, colls := colls, coll := fun _ => colls, items := items,
    item := fun _ => items }

theorem readAt_ordered {a b c d : Nat} (h1 : a ≤ b) (h2 : b ≤ c) (h3 : c ≤ d) : (readAt a b c d).Ordered :=
  ⟨h1, fun _ => ⟨Nat.le_refl _, h2⟩, fun _ => ⟨Nat.le_refl _, h3⟩, fun _ => Nat.le_refl _⟩

theorem load_seen {m : Moments} {mom : Nat → Index} (hl : (m.seen mom).InLimits) (hn : (m.seen mom).NamesOK) :
    Index.new.load (m.save mom).bytes = .ok (Index.loaded Index.new (m.seen mom), []) := by
  have := RT_load Index.new hl hn []
  rwa [List.append_nil] at this

set_option maxRecDepth 8000 in
/-- C94 does not hold: the word is tagged after the collections were written and before the nodes are. The file is written
and loaded without complaint, and asking for the readings of the word crashes. -/
theorem not_C94 :
    let during := [Op.addTagSet 1 [[78, 79, 85, 78]]]
    let m := readAt 0 0 0 1
    Run (beforeSave ++ during) (execAll (beforeSave ++ during)) ∧ m.Ordered ∧
    (m.save (momentsOf beforeSave during)).err = none ∧
    ∃ L, Index.new.load (m.save (momentsOf beforeSave during)).bytes = .ok (L, []) ∧
      (L.fetchRunes [97]).2 = .ok 1 ∧ L.tagSetsOf 1 = .panic := by
  intro during m
  refine ⟨small_runs _ (by decide), readAt_ordered (by decide) (by decide) (by decide), by decide, _, load_seen ?_ ?_, by decide, by decide⟩
  · constructor <;> decide
  · unfold Index.NamesOK NameOK; decide

set_option maxRecDepth 8000 in
/-- The word is tagged after the tag sets were written and before the collections are: the word has a reading in the file, but
it is empty. With a new tag, used between the tags and the tag sets, the reading has a nameless tag. -/
theorem not_C94_blank :
    (let during := [Op.addTagSet 1 [[78, 79, 85, 78]]]
     let m := readAt 0 0 1 1
     Run (beforeSave ++ during) (execAll (beforeSave ++ during)) ∧ m.Ordered ∧
     ∃ L, Index.new.load (m.save (momentsOf beforeSave during)).bytes = .ok (L, []) ∧ L.tagSetsOf 1 = .ok [[]]) ∧
    (let during := [Op.tagID [86, 69, 82, 66] [], Op.addTagSet 1 [[86, 69, 82, 66]]]
     let m := readAt 0 2 2 2
     Run (beforeSave ++ during) (execAll (beforeSave ++ during)) ∧ m.Ordered ∧
     ∃ L, Index.new.load (m.save (momentsOf beforeSave during)).bytes = .ok (L, []) ∧
       L.tagSetsOf 1 = .ok [[Index.zeroTag]]) := by
  constructor
  · intro during m
    refine ⟨small_runs _ (by decide), readAt_ordered (by decide) (by decide) (by decide), _, load_seen ?_ ?_, by decide⟩
    · constructor <;> decide
    · unfold Index.NamesOK NameOK; decide
  · intro during m
    refine ⟨small_runs _ (by decide), readAt_ordered (by decide) (by decide) (by decide), _, load_seen ?_ ?_, by decide⟩
    · constructor <;> decide
    · unfold Index.NamesOK NameOK; decide

/-- The words "a" (noun and verb, in two calls) and "b" (verb). -/
def beforeOptimize : List Op :=
  [.tagID [78, 79, 85, 78] [], .tagID [86, 69, 82, 66] [], .addRunes [97], .addRunes [98],
   .addTagSet 1 [[78, 79, 85, 78]], .addTagSet 1 [[86, 69, 82, 66]], .addTagSet 2 [[86, 69, 82, 66]]]

set_option maxRecDepth 8000 in
/-- Why `Optimize` is excluded: called between the writing of the collections and of the nodes, it makes the word "b", a verb,
a noun in the file. -/
theorem not_C94_optimize :
    let m := readAt 0 0 0 1
    Run (beforeOptimize ++ [.optimize]) (execAll (beforeOptimize ++ [.optimize])) ∧ m.Ordered ∧
    ∃ L, Index.new.load (m.save (momentsOf beforeOptimize [.optimize])).bytes = .ok (L, []) ∧
      (L.fetchRunes [98]).2 = .ok 2 ∧ L.tagSetsOf 2 = .ok [[newTag emptyTagName [78, 79, 85, 78]]] ∧
      (∀ i, (momentsOf beforeOptimize [.optimize] i).tagSetsOf 2 = .ok [[newTag emptyTagName [86, 69, 82, 66]]]) := by
  intro m
  refine ⟨small_runs _ (by decide), readAt_ordered (by decide) (by decide) (by decide), _, load_seen ?_ ?_, by decide, by decide, ?_⟩
  · constructor <;> decide
  · unfold Index.NamesOK NameOK; decide
  · intro i
    match i with
    | 0 => decide
    | i + 1 =>
      show (execAll (beforeOptimize ++ [Op.optimize].take (i + 1))).tagSetsOf 2 = _
      rw [List.take_succ_cons, List.take_nil]
      decide

set_option maxRecDepth 8000 in
/-- The hypotheses of the theorems are met: while the file is written, another goroutine adds the word "c" and tags the word
"b"; "a", with its two readings, is not touched. -/
example :
    let during := [Op.addRunes [99], .addTagSet 2 [[78, 79, 85, 78]]]
    let m := readAt 0 0 0 2
    Run (beforeOptimize ++ during) (execAll (beforeOptimize ++ during)) ∧ OnlyAdds during ∧ m.Ordered ∧
    (∀ i, (momentsOf beforeOptimize during i).InLimits) ∧ PlainTags (momentsOf beforeOptimize during m.tags).tags ∧
    (momentsOf beforeOptimize during m.items).get 1 = .ok 1 ∧
    (∀ names, Op.addTagSet 1 names ∉ (during.take (m.item 1)).drop m.tags) ∧
    Op.addTagSet 1 [] ∉ beforeOptimize ++ during ∧
    (momentsOf beforeOptimize during 2).tagSetsOf 1 =
      .ok [[newTag emptyTagName [78, 79, 85, 78]], [newTag emptyTagName [86, 69, 82, 66]]] := by
  intro during m
  refine ⟨small_runs _ (by decide), ?_, readAt_ordered (by decide) (by decide) (by decide), ?_, by decide, by decide, ?_, ?_, by decide⟩
  · exact ⟨by simp [during], by simp [during]⟩
  · intro i
    match i with
    | 0 => constructor <;> decide
    | 1 => constructor <;> decide
    | i + 2 =>
      have e : momentsOf beforeOptimize during (i + 2) = execAll (beforeOptimize ++ during) := by
        unfold momentsOf
        rw [List.take_of_length_le (by simp [during])]
      rw [e]
      constructor <;> decide
  · simp [during, m, readAt]
  · simp [during, beforeOptimize]

/-- `C94_exact` at work: "b" is tagged as a noun while the file is written. The reading and the combination are known from
"a", so the file shows it. -/
example :
    let during := [Op.addTagSet 2 [[78, 79, 85, 78]]]
    let h := [Op.tagID [78, 79, 85, 78] [], .addRunes [97], .addRunes [98], .addTagSet 1 [[78, 79, 85, 78]]]
    let m := readAt 0 0 0 1
    Run (h ++ during) (execAll (h ++ during)) ∧ OnlyAdds during ∧ m.Ordered ∧ m.OneGo ∧
    (∀ i, (momentsOf h during i).InLimits) ∧ PlainTags (momentsOf h during m.tags).tags ∧
    (∀ id, Op.addTagSet id [] ∉ h ++ during) ∧ (momentsOf h during m.items).get 2 = .ok 2 ∧
    (dictOf (h ++ during.take (m.item 2))).attached 2 = [[[78, 79, 85, 78]]] ∧
    CombinedBy (h ++ during.take m.colls) [[[78, 79, 85, 78]]] ∧
    AttachedBy (h ++ during.take m.sets) [[78, 79, 85, 78]] := by
  intro during h m
  refine ⟨small_runs _ (by decide), ⟨by simp [during], by simp [during]⟩, readAt_ordered (by decide) (by decide) (by decide),
    fun _ => ⟨rfl, rfl⟩, ?_, by decide, ?_, by decide, by decide, ?_, ?_⟩
  · intro i
    match i with
    | 0 => constructor <;> decide
    | i + 1 =>
      have e : momentsOf h during (i + 1) = execAll (h ++ during) := by
        unfold momentsOf
        rw [List.take_of_length_le (by simp [during])]
      rw [e]
      constructor <;> decide
  · intro id
    simp [h, during]
  · refine ⟨h, [], by simp [m, readAt], by simp, 1, ?_⟩
    have e : (dictOf h).attached 1 = [[[78, 79, 85, 78]]] := by decide
    rw [e]
    exact ⟨fun a ha => ⟨a, ha, List.Perm.refl _⟩, fun a ha => ⟨a, ha, List.Perm.refl _⟩⟩
  · exact ⟨1, [[78, 79, 85, 78]], by decide, List.Perm.refl _⟩

end Verif
