import Verif.Lemmas.Parallel
import Verif.Props.Capacity
import Verif.Props.TagCodec
import Verif.Props.Tagging

/-!
# C17, C18, C25 — save and load

`ix.save` is what `BinaryWriteTo` writes (and its error), `into.load bytes` what `BinaryReadFrom` called on `into`
makes of a file. `Index.InLimits`: the counters of the format do not overflow (`Spec/Format.lean`).
-/

namespace Verif

/-- The index before its children are rebuilt. -/
def withSections (into : Index) (tags : List Tag) (sets : TagSetIndex) (colls : VariantsIndex) (items : Items) :
    Index := { into with tags := tags, tagSets := sets, collectionIdx := colls, items := items }

theorem reload_tagSets {h : List Op} {ix : Index} (r : Run h ix) (ha : Op.reload.Allowed ix (dictOf h)) :
    (Op.exec ix .reload).tagSets = ix.tagSets := exec_tagSets r.refines.1 r.caps .reload ha

/-- C17: saving succeeds, loading the file gives an index with the same answers, and the load counts as one more
call of the history — so that everything proved about histories holds for the loaded index. -/
theorem C17 {h : List Op} {ix : Index} (r : Run h ix) (hl : ix.InLimits) (ht : PlainTags ix.tags) :
    ix.save.err = none ∧ ∃ ix', Index.new.load ix.save.bytes = .ok (ix', []) ∧
      SameAnswersExceptNul ix ix' ∧ Run (h ++ [.reload]) ix' := by
  have htd : PlainTags (dictOf h).tags := by rw [← r.tag.tags]; exact ht
  have ha : Op.reload.Allowed ix (dictOf h) := ⟨hl, htd.savable⟩
  obtain ⟨h1, h2, h3⟩ := reload_eq r.tag ha
  obtain ⟨t1, t2⟩ := reload_spec r.trie r.tag r.caps ha.2
  have hload := h2 []
  rw [List.append_nil] at hload
  have htables := rebuildFold_other ix.items.trim.items.zipIdx
    ((withSections Index.new (ix.tags.map storedTag) ix.tagSets ix.collectionIdx ix.items.trim).getChildrenIDMap 0).1
  have hs : (Index.loaded Index.new ix).tagSets = ix.tagSets := htables.2.1
  have hcl : (Index.loaded Index.new ix).collectionIdx = ix.collectionIdx := htables.2.2.1
  have hcaps : Caps (Index.loaded Index.new ix) :=
    ⟨by rw [hs]; exact r.caps.setTables, by rw [hs]; exact r.caps.sets, by rw [hcl]; exact r.caps.collTables,
      by rw [hcl]; exact r.caps.colls⟩
  refine ⟨h1, _, hload, ?_, ?_⟩
  · exact sameExceptNul_of r.refines.1 ⟨t1, t2⟩ r.caps hcaps rfl htd.stored rfl hs
  · rw [← h3]
    refine Run.step .reload r ha ?_
    rw [dictOf_append, h3]
    exact ⟨r.refines.2.nodes, by simpa [Op.spec] using r.refines.2.tags, hcaps.setTables, hcaps.sets,
      hcaps.collTables, hcaps.colls⟩

/-- C17: it continues to behave like the saved one: whatever calls follow, the answers are those of the index that
was never saved. (No word starting with NUL may be added later on; see C18.) -/
theorem C17_further {h h' : List Op} {ix ix' jx : Index} (s : Run h jx) (ht : PlainTags jx.tags)
    (r : Run (h ++ h') ix) (r' : Run (h ++ Op.reload :: h') ix') (hn : ∀ op ∈ h', op.NulFree) :
    SameAnswersExceptNul ix ix' := by
  have e1 : h ++ Op.reload :: h' = (h ++ [Op.reload]) ++ h' := by simp
  rw [e1] at r'
  obtain ⟨jx', s'⟩ := r'.before
  obtain ⟨kx, t, ha, _, rfl⟩ := s'.snoc_inv
  obtain rfl := s.unique t
  have htd : PlainTags (dictOf h).tags := by rw [← s.tag.tags]; exact ht
  have hd : (dictOf h).Alike (dictOf (h ++ [Op.reload])) := by
    rw [dictOf_append]
    exact ⟨rfl, htd.stored, rfl⟩
  obtain ⟨a1, a2, _⟩ := parallel h' s s' r r' hd (reload_tagSets s ha) (.inr hn)
  exact sameExceptNul_of r.refines.1 r'.refines.1 r.caps r'.caps a1.nodes a1.tags a1.readings a2

/-- The hypotheses are met by the sample history up to its `Optimize`. -/
example : let h := sampleHistory.take 9
    PlainTags (execAll h).tags ∧ Run (h ++ [.reload]) (execAll (h ++ [.reload])) := by
  refine ⟨by decide, small_runs _ (by decide)⟩

example : ∀ op ∈ sampleHistory.drop 10, op.NulFree := by
  simp only [sampleHistory, List.drop, List.mem_cons, List.not_mem_nil, or_false, forall_eq_or_imp, forall_eq,
    Op.NulFree]
  decide

/-! ## C18 -/

/-- What a loaded index really answers: leading NULs are skipped — unless the one-character word NUL is in the index,
in which case all is well. -/
theorem C18_exact {h : List Op} {ix' : Index} (r : Run (h ++ [.reload]) ix') (q : List Rune) (id : ID) :
    (ix'.fetchRunes q).2 = .ok id ↔
      q ≠ [] ∧ (dictOf h).nodes[id.toNat]? =
        some (if [0] ∈ (dictOf h).nodes then q else q.dropWhile (· == 0)) := by
  rw [r.trie.fetchRoot_iff, dictOf_append]
  unfold Dict.join
  by_cases hz : [0] ∈ (dictOf h).nodes <;> simp [Op.spec, hz]

/-- C18 does not hold: word "a", saved and loaded; "\x00a", which was not found before, is found now. -/
theorem not_C18 : ∃ h ix ix', Run h ix ∧ Run (h ++ [.reload]) ix' ∧
    (∃ e, (ix.fetchRunes [0, 97]).2 = .err e) ∧ (ix'.fetchRunes [0, 97]).2 = .ok 1 ∧
    (ix'.fetchRunes [0]).2 = .ok 0 := by
  have r1 : Run [.addRunes [97]] (execAll [.addRunes [97]]) := small_runs _ (by decide)
  have r2 : Run [.addRunes [97], .reload] (execAll [.addRunes [97], .reload]) := small_runs _ (by decide)
  refine ⟨[.addRunes [97]], _, _, r1, r2, ⟨_, rfl⟩, ?_, ?_⟩
  · exact (C18_exact (h := [.addRunes [97]]) r2 [0, 97] 1).2 (by decide)
  · exact (C18_exact (h := [.addRunes [97]]) r2 [0] 0).2 (by decide)

/-- C18, the part that holds: if the index contains the one-character word NUL (for instance as the beginning of a
longer word), the loaded index answers every lookup like the saved one. -/
theorem C18_partial {h : List Op} {ix ix' : Index} (r : Run h ix) (r' : Run (h ++ [.reload]) ix')
    (ht : PlainTags ix.tags) (hr : NoReload h) (hz : ∃ id, (ix.fetchRunes [0]).2 = .ok id) :
    SameAnswers ix ix' := by
  obtain ⟨kx, t, ha, _, rfl⟩ := r'.snoc_inv
  obtain rfl := r.unique t
  have htd : PlainTags (dictOf h).tags := by rw [← r.tag.tags]; exact ht
  obtain ⟨id, hid⟩ := hz
  rw [r.trie.fetchRoot_iff, Run.root_join (.inl hr)] at hid
  have hmem : [0] ∈ (dictOf h).nodes := List.mem_of_getElem? hid.2
  have hd : dictOf (h ++ [Op.reload]) = dictOf h := by
    rw [dictOf_append]
    have : (dictOf h).nul = false := dictOf_nul h hr
    simp only [Op.spec]
    rw [htd.stored]
    have hc : (dictOf h).nodes.contains [0] = true := by simpa using hmem
    rw [hc, Bool.not_true, ← this]
  have q := r'.refines.1
  rw [hd] at q
  exact same_of r.refines.1 q r.caps r'.caps (reload_tagSets r ha)

example : Run [.addRunes [0, 97]] (execAll [.addRunes [0, 97]]) ∧
    Run ([.addRunes [0, 97]] ++ [.reload]) (execAll ([.addRunes [0, 97]] ++ [.reload])) ∧
    (∃ id, ((execAll [.addRunes [0, 97]]).fetchRunes [0]).2 = .ok id) :=
  ⟨small_runs _ (by decide), small_runs _ (by decide), 1, by decide⟩

/-! ## C25 -/

/-- What loading into an index that already has content really does, for any file: the tags, sets, collections and
nodes are replaced; the child links of the old content remain visible wherever the new content has none; and the word
counts add up. -/
theorem C25_exact (into : Index) (file : Str) :
    (∀ e, into.load file = .err e ↔ Index.new.load file = .err e) ∧
    ∀ a rest, Index.new.load file = .ok (a, rest) → ∃ b, into.load file = .ok (b, rest) ∧
      b.tags = a.tags ∧ b.tagSets = a.tagSets ∧ b.collectionIdx = a.collectionIdx ∧ b.items = a.items ∧
      b.wordsCount = into.wordsCount + a.wordsCount ∧
      ∀ p l, b.getChildrenMap p l = (a.getChildrenMap p l).or (into.getChildrenMap p l) := by
  have key : ∃ o : Out ((List Tag × TagSetIndex × VariantsIndex × Items) × Str), ∀ ix : Index, ix.load file =
      o.bind fun x => .ok (Index.rebuildChildren
        { ix with tags := x.1.1, tagSets := x.1.2.1, collectionIdx := x.1.2.2.1, items := x.1.2.2.2 }, x.2) := by
    unfold Index.load Rd.bind Rd.pure
    refine ⟨(readSection prefixTD readTags file).bind fun a =>
      (readSection prefixTI readTagSetIndex a.2).bind fun b =>
      (readSection prefixCD readVariantsIndex b.2).bind fun c =>
      (readSection prefixID readItems c.2).bind fun d => .ok ((a.1, b.1, c.1, d.1), d.2), ?_⟩
    intro ix
    cases readSection prefixTD readTags file <;> simp only [Out.bind]
    rename_i a
    cases readSection prefixTI readTagSetIndex a.2 <;> simp only
    rename_i b
    cases readSection prefixCD readVariantsIndex b.2 <;> simp only
    rename_i c
    cases readSection prefixID readItems c.2 <;> simp only
  obtain ⟨o, ho⟩ := key
  rw [ho into, ho Index.new]
  cases o with
  | err e => exact ⟨fun e' => ⟨fun h => h, fun h => h⟩, fun a rest h => by cases h⟩
  | panic => exact ⟨fun e' => ⟨fun h => h, fun h => h⟩, fun a rest h => by cases h⟩
  | diverge => exact ⟨fun e' => ⟨fun h => h, fun h => h⟩, fun a rest h => by cases h⟩
  | ok x =>
    obtain ⟨⟨tags, sets, colls, items⟩, rest'⟩ := x
    refine ⟨fun e => ⟨fun h => (nomatch h), fun h => (nomatch h)⟩, ?_⟩
    intro a rest h
    simp only [Out.bind, Out.ok.injEq, Prod.mk.injEq] at h
    obtain ⟨rfl, rfl⟩ := h
    refine ⟨(withSections into tags sets colls items).rebuildChildren, rfl, ?_⟩
    rw [show (Index.rebuildChildren { Index.new with tags := tags, tagSets := sets, collectionIdx := colls, items := items }) =
      items.items.zipIdx.foldl Index.rebuildStep ((withSections Index.new tags sets colls items).getChildrenIDMap 0).1
      from rfl, show (withSections into tags sets colls items).rebuildChildren =
      items.items.zipIdx.foldl Index.rebuildStep ((withSections into tags sets colls items).getChildrenIDMap 0).1
      from rfl]
    obtain ⟨a1, a2, a3, a4, a5⟩ := rebuildFold_other items.items.zipIdx
      ((withSections Index.new tags sets colls items).getChildrenIDMap 0).1
    obtain ⟨b1, b2, b3, b4, b5⟩ := rebuildFold_other items.items.zipIdx
      ((withSections into tags sets colls items).getChildrenIDMap 0).1
    refine ⟨b1.trans a1.symm, b2.trans a2.symm, b3.trans a3.symm, b4.trans a4.symm, ?_, ?_⟩
    · rw [a5, b5]
      show into.wordsCount + _ = into.wordsCount + (0 + _)
      omega
    · intro p l
      have oa := getChildrenIDMap_obs (withSections Index.new tags sets colls items) 0
      have ob := getChildrenIDMap_obs (withSections into tags sets colls items) 0
      rcases rebuildFold_children items.items ((withSections Index.new tags sets colls items).getChildrenIDMap 0).1 p l with
        ⟨k, it, h1, h2, h3, h4, h5⟩ | ⟨h1, h2⟩
      · rcases rebuildFold_children items.items ((withSections into tags sets colls items).getChildrenIDMap 0).1 p l with
          ⟨k', it', g1, g2, g3, g4, g5⟩ | ⟨g1, _⟩
        · have := h4 k' it' g1 g2 g3
          have := g4 k it h1 h2 h3
          have e : k = k' := by omega
          subst e
          refine g5.trans ?_
          rw [h5]
          rfl
        · exact absurd ⟨h2, h3⟩ (g1 it (List.mem_of_getElem? h1))
      · rcases rebuildFold_children items.items ((withSections into tags sets colls items).getChildrenIDMap 0).1 p l with
          ⟨k', it', g1, g2, g3, _, _⟩ | ⟨_, g2⟩
        · exact absurd ⟨g2, g3⟩ (h1 it' (List.mem_of_getElem? g1))
        · refine g2.trans ?_
          rw [h2, oa.children, ob.children]
          rfl

/-- C25, the part that holds: whatever was in the receiving index, tags, node ids, words and readings are those of
the file. -/
theorem C25_partial (into : Index) (file : Str) (a : Index) (rest : Str)
    (h : Index.new.load file = .ok (a, rest)) : ∃ b, into.load file = .ok (b, rest) ∧
      b.tags = a.tags ∧ b.nodesCount = a.nodesCount ∧ (∀ id, b.get id = a.get id) ∧
      (∀ id, b.word id = a.word id) ∧ ∀ id, b.tagSetsOf id = a.tagSetsOf id := by
  obtain ⟨b, h0, h1, h2, h3, h4, _⟩ := (C25_exact into file).2 a rest h
  refine ⟨b, h0, h1, ?_, ?_, ?_, ?_⟩
  · unfold Index.nodesCount; rw [h4]
  · intro id; unfold Index.get; rw [h4]
  · intro id; unfold Index.word; rw [h4]
  · intro id
    unfold Index.tagSetsOf
    rw [h4, h3]
    cases a.items.get id with
    | none => rfl
    | some it =>
      simp only
      congr 1
      funext c
      rw [tagSetsLoop_congr h2 h1]

/-- C25 does not hold. An index with the word "a" loads the (valid) file of an index with the tagged word "b": "a" is
still found — as the node of "b" — and loading the file twice makes `WordsCount` 2 for one word. -/
theorem not_C25 : ∃ hOld hNew old new loaded twice, Run hOld old ∧ Run hNew new ∧
    old.load new.save.bytes = .ok (loaded, []) ∧
    (∃ e, (new.fetchRunes [97]).2 = .err e) ∧ (loaded.fetchRunes [97]).2 = .ok 1 ∧ loaded.word 1 = .ok [98] ∧
    loaded.load new.save.bytes = .ok (twice, []) ∧ new.wordsCount = 1 ∧ twice.wordsCount = 2 := by
  let hOld : List Op := [.addRunes [97]]
  let hNew : List Op := [.tagID [78, 79, 85, 78] [], .addRunes [98], .addTagSet 1 [[78, 79, 85, 78]]]
  have hn : (execAll hNew).NamesOK := by
    unfold Index.NamesOK NameOK; decide
  have hl : (execAll hNew).InLimits := by
    constructor <;> decide
  have h1 := RT_load (execAll hOld) hl hn []
  rw [List.append_nil] at h1
  have h2 := RT_load (Index.loaded (execAll hOld) (execAll hNew)) hl hn []
  rw [List.append_nil] at h2
  exact ⟨hOld, hNew, _, _, _, _, small_runs _ (by decide), small_runs _ (by decide), h1, ⟨_, rfl⟩, by decide,
    by decide, h2, by decide, by decide⟩

end Verif
