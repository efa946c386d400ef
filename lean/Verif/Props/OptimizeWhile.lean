import Verif.Lemmas.OptimizeWhileRead
import Verif.Props.OptimizeCost

/-!
# C107: using a dictionary while `Optimize` runs

`start.run evs` is the index after the events `evs`: accesses of the running `Optimize`, and calls of other goroutines.
`base` is what the same calls alone have made of it.
-/

namespace Verif

/-- An index at which `Optimize` is called now. -/
def Index.optimizing (ix : Index) : OState := ⟨ix, .start⟩

/-- `Optimize` does not disturb what has nothing to do with readings: at every moment words are looked up, added and spelled as
if it had not been called. -/
theorem C107_words {h : List Op} {ix : Index} (r : Run h ix) (evs : List OEv)
    (hq : ∀ op ∈ callsDuring evs, op.Untagging) {base : Index} (r' : Run (h ++ callsDuring evs) base) :
    let s := ix.optimizing.run evs
    (∀ w, (s.ix.fetchString w).2 = (base.fetchString w).2) ∧
    (∀ id rs, (s.ix.fetchFromItem id rs).2 = (base.fetchFromItem id rs).2) ∧
    (∀ id rs, (s.ix.fetchItemFromParent id rs).2 = (base.fetchItemFromParent id rs).2) ∧
    (∀ w, (s.ix.addString w).2 = (base.addString w).2) ∧
    (∀ id rs, (s.ix.addToNode id rs).2 = (base.addToNode id rs).2) ∧
    (∀ id, s.ix.word id = base.word id) ∧ (∀ id, s.ix.get id = base.get id) ∧
    s.ix.getChildrenMap = base.getChildrenMap ∧ s.ix.nodesCount = base.nodesCount ∧ s.ix.wordsCount = base.wordsCount ∧
    s.ix.tags = base.tags := by
  intro s
  obtain ⟨g, c, h0, e⟩ := (oinv_run r evs hq r').paint r'
  have e : s.ix = base.paint g c := e
  rw [e]
  refine ⟨fun w => ?_, fun id rs => ?_, fun id rs => ?_, fun w => ?_, fun id rs => ?_, fun id => paint_word c base id,
    fun _ => rfl, rfl, rfl, rfl, rfl⟩
  · unfold Index.fetchString Index.fetchRunes; rw [paint_fetchFromItem]
  · rw [paint_fetchFromItem]
  · rw [paint_fetchItemFromParent]
  · unfold Index.addString Index.addRunes Index.addToNode
    split
    · rfl
    · rw [paint_addLoop h0]
  · unfold Index.addToNode; rw [paint_addLoop h0]

/-- It never panics, and when it has returned, the index is the one that the calls alone and then `Optimize` alone make: every
later answer is the same. -/
theorem C107_end {h : List Op} {ix : Index} (r : Run h ix) (evs : List OEv)
    (hq : ∀ op ∈ callsDuring evs, op.Untagging) {base : Index} (r' : Run (h ++ callsDuring evs) base) :
    (ix.optimizing.run evs).pc ≠ .panicked ∧
    ((ix.optimizing.run evs).pc = .done → (ix.optimizing.run evs).ix = base.optimize.1 ∧
      Run (h ++ callsDuring evs ++ [.optimize]) (ix.optimizing.run evs).ix) := by
  have I : OInv base (ix.optimizing.run evs) := oinv_run r evs hq r'
  constructor
  · intro hp
    unfold OInv at I
    rw [hp] at I
    exact I
  · intro hp
    unfold OInv at I
    rw [hp] at I
    have I : (ix.optimizing.run evs).ix = base.optimize.1 := I
    rw [I]
    exact ⟨rfl, r'.optimized⟩

/-- It ends: after a number of its accesses that depends on the size of the index, it has returned. -/
theorem C107_ends {h : List Op} {ix : Index} (r : Run h ix) (evs : List OEv)
    (hq : ∀ op ∈ callsDuring evs, op.Untagging) {base : Index} (r' : Run (h ++ callsDuring evs) base)
    (ho : 2 * base.items.items.length + base.collectionIdx.knownID.length + 5 ≤ optsIn evs) :
    (ix.optimizing.run evs).pc = .done := by
  have I : OInv base (ix.optimizing.run evs) := oinv_run r evs hq r'
  rcases left_run r evs [] (by simpa using hq) (base := base) (by simpa using r') with hd | hl
  · exact hd
  · have hl : optsIn evs + (ix.optimizing.run evs).left base.items.items.length base.collectionIdx.knownID.length ≤
        2 * base.items.items.length + base.collectionIdx.knownID.length + 5 := hl
    have h0 : (ix.optimizing.run evs).left base.items.items.length base.collectionIdx.knownID.length = 0 := by omega
    unfold OState.left at h0
    generalize (ix.optimizing.run evs).pc = pc at h0
    cases pc <;> simp at h0 ⊢

/-- What a reader gets who reads the number of a node after `e₁` and the tables after `e₁ ++ e₂`; with `e₂ = []`, a whole
call of `TagSets`. Both parts of C107 about readings. -/
theorem reader {h : List Op} {ix : Index} (r : Run h ix) (e₁ e₂ : List OEv)
    (hq : ∀ op ∈ callsDuring (e₁ ++ e₂), op.Untagging) {base : Index} (r' : Run (h ++ callsDuring (e₁ ++ e₂)) base)
    (id : ID) (hid : 1 ≤ id.toNat ∧ id.toNat ≤ ix.nodesCount) :
    ((ix.optimize.1.numberOf id = ix.numberOf id ∨ ((ix.optimizing.run (e₁ ++ e₂)).pc = .done ↔
        (ix.optimizing.run e₁).ix.numberOf id = ix.optimize.1.numberOf id)) →
      shownBetween (ix.optimizing.run e₁).ix (ix.optimizing.run (e₁ ++ e₂)).ix id = base.tagSetsOf id) ∧
    ([] ∉ (dictOf h).attached id.toNat →
      shownBetween (ix.optimizing.run e₁).ix (ix.optimizing.run (e₁ ++ e₂)).ix id = base.tagSetsOf id →
      ix.optimize.1.numberOf id = ix.numberOf id ∨ ((ix.optimizing.run (e₁ ++ e₂)).pc = .done ↔
        (ix.optimizing.run e₁).ix.numberOf id = ix.optimize.1.numberOf id)) := by
  have hpos := r.trie.length_pos
  rw [r.trie.nodesCount] at hid
  have h0 : 0 < id.toNat := by omega
  have h1 : id.toNat < (dictOf h).nodes.length := by omega
  have hq1 : ∀ op ∈ callsDuring e₁, op.Untagging := fun op hop => hq op (by
    rw [callsDuring_append]; exact List.mem_append_left _ hop)
  have r2 := r'
  rw [callsDuring_append, ← List.append_assoc] at r2
  obtain ⟨b1, rb1⟩ := r2.before
  have I1 : OInv b1 (ix.optimizing.run e₁) := oinv_run r e₁ hq1 rb1
  have I2 : OInv base (ix.optimizing.run (e₁ ++ e₂)) := oinv_run r _ hq r'
  have hl1 := (dictOf_nodes_prefix h (callsDuring e₁)).length_le
  have hl2 := (dictOf_nodes_prefix h (callsDuring (e₁ ++ e₂))).length_le
  have K1 := kept_run r rb1 hq1
  have K2 := kept_run r r' hq
  have n1 := K1.number r.trie rb1.trie hl1 h0 h1
  have n2 := K2.number r.trie r'.trie hl2 h0 h1
  obtain ⟨o1, _⟩ := K1.optimized r rb1 hl1 h0 h1
  obtain ⟨o2, _⟩ := K2.optimized r r' hl2 h0 h1
  obtain ⟨_, _, s1⟩ := I1.seen id
  obtain ⟨t1, t2, _⟩ := I2.seen id
  rw [n1, o1] at s1
  -- the node is there
  have hg1 : ((ix.optimizing.run e₁).ix.items.get id).isSome = true := by
    obtain ⟨g, c, _, e⟩ := I1.paint rb1
    obtain ⟨it, w, hg, _⟩ := rb1.trie.items_get h0 (Nat.lt_of_lt_of_le h1 hl1)
    rw [e]
    show (((b1.items.paint g).get id).isSome) = true
    rw [paint_get, hg]; rfl
  have hloop : (ix.optimizing.run (e₁ ++ e₂)).ix.tagSetsLoop = base.tagSetsLoop := by
    obtain ⟨g, c, _, e⟩ := I2.paint r'
    rw [e]
    funext x
    exact tagSetsLoop_congr (ix := base) (ix' := base.paint g c) rfl rfl x
  -- both tables hold the combination
  obtain ⟨it, w, hg, hit, _⟩ := r'.trie.items_get h0 (Nat.lt_of_lt_of_le h1 hl2)
  have ospec := optimize_spec r'.trie r'.tag r'.caps
  obtain ⟨it', w', hg', hit', _⟩ := ospec.2.1.items_get h0 (Nat.lt_of_lt_of_le h1 hl2)
  obtain ⟨c, hc, hc'⟩ := ospec.2.2.2.2.2.2.2 id.toNat it it' hit hit'
  have hv : base.numberOf id = it.variants := by unfold Index.numberOf; rw [hg]; rfl
  have hv' : base.optimize.1.numberOf id = it'.variants := by unfold Index.numberOf; rw [hg']; rfl
  have gold := hc.get r'.caps
  have gnew := hc'.get ospec.2.2.2.1
  rw [← hv, n2] at gold
  rw [← hv', o2] at gnew
  have hright : base.tagSetsOf id = .ok (base.tagSetsLoop c) := by
    unfold Index.tagSetsOf
    rw [hg]
    simp only
    rw [hc.get r'.caps]
    rfl
  rw [shownBetween_eq hg1, hloop, hright]
  -- the tables at the later moment, with their number of the combination
  have htab : ∃ v, ((ix.optimizing.run (e₁ ++ e₂)).ix.collectionIdx.get v = .ok c ∧
      GInv (ix.optimizing.run (e₁ ++ e₂)).ix.collectionIdx) ∧
      ((ix.optimizing.run (e₁ ++ e₂)).pc = .done ∧ v = ix.optimize.1.numberOf id ∨
        (ix.optimizing.run (e₁ ++ e₂)).pc ≠ .done ∧ v = ix.numberOf id) := by
    by_cases hd : (ix.optimizing.run (e₁ ++ e₂)).pc = .done
    · rw [t2 hd]
      exact ⟨_, ⟨gnew, ospec.2.2.1.colls⟩, .inl ⟨hd, rfl⟩⟩
    · rw [t1 hd]
      exact ⟨_, ⟨gold, r'.tag.colls⟩, .inr ⟨hd, rfl⟩⟩
  obtain ⟨v, ⟨hget, hinv⟩, hvc⟩ := htab
  constructor
  · intro hok
    have : (ix.optimizing.run e₁).ix.numberOf id = v := by
      rcases hok with hk | hk
      · rw [hk] at s1 hvc
        have e : v = ix.numberOf id := by rcases hvc with ⟨_, e⟩ | ⟨_, e⟩ <;> exact e
        rw [e]
        rcases s1 with s1 | s1 <;> exact s1
      · rcases hvc with ⟨hd, e⟩ | ⟨hd, e⟩
        · rw [e]; exact hk.1 hd
        · rw [e]
          rcases s1 with s1 | s1
          · exact s1
          · exact absurd (hk.2 s1) hd
    rw [this, hget]
    rfl
  · intro hne hsh
    by_cases hk : ix.optimize.1.numberOf id = ix.numberOf id
    · exact .inl hk
    · right
      have hx : ∃ x, (ix.optimizing.run (e₁ ++ e₂)).ix.collectionIdx.get ((ix.optimizing.run e₁).ix.numberOf id) = .ok x ∧
          base.tagSetsLoop x = base.tagSetsLoop c := by
        cases hy : (ix.optimizing.run (e₁ ++ e₂)).ix.collectionIdx.get ((ix.optimizing.run e₁).ix.numberOf id) with
        | ok x => rw [hy] at hsh; exact ⟨x, rfl, Out.ok.inj hsh⟩
        | err e => rw [hy] at hsh; cases hsh
        | panic => rw [hy] at hsh; cases hsh
        | diverge => rw [hy] at hsh; cases hsh
      obtain ⟨x, hx, hxl⟩ := hx
      have hatt : ∀ i ∈ c, ∃ n ∈ (dictOf h).attached id.toNat, TSId (dictOf (h ++ callsDuring (e₁ ++ e₂))).tags base.tagSets n i := by
        intro i hi
        obtain ⟨it0, w0, hg0, hit0, _⟩ := r.trie.items_get h0 h1
        obtain ⟨c0, hc0, hm0⟩ := r.tag.vars id.toNat it0 h1 hit0
        have hv0 : ix.numberOf id = it0.variants := by unfold Index.numberOf; rw [hg0]; rfl
        have g0 := hc0.get r.caps
        rw [← hv0, ← K2.collectionIdx] at g0
        rw [g0] at gold
        obtain rfl := Out.ok.inj gold
        obtain ⟨n, hn, ht⟩ := (hm0 i).1 hi
        exact ⟨n, mem_attached.2 hn, r.tsid_mono r' ht⟩
      have hxc := r'.loop_inj hne hatt hxl
      subst hxc
      have hx0 : x ≠ [] := by
        intro e0
        apply hk
        have e1 := (hc.zero_iff r'.caps r'.tag.colls).2 e0
        have e2 := (hc'.zero_iff ospec.2.2.2.1 ospec.2.2.1.colls).2 e0
        rw [← n2, ← o2, hv, hv', e1, e2]
      have hvv := collGet_inj hinv hx0 hx hget
      rcases hvc with ⟨hd, e⟩ | ⟨hd, e⟩
      · exact ⟨fun _ => hvv.trans e, fun _ => hd⟩
      · refine ⟨fun hd' => absurd hd' hd, fun he => absurd ?_ hk⟩
        rw [← he, hvv, e]

/-- A reader who reads the number of the combination of a node after `e₁`, and then the tables after `e₁ ++ e₂`, is shown the
readings of that node if `Optimize` does not give the combination another number, or if both are from before or both from
after: the number is the new one exactly if `Optimize` has returned. What is missing: otherwise the reader is shown something
else (`C107_exact`, `not_C107`), and calls that attach readings meanwhile are not covered (`not_C107_lost`,
`not_C107_mixed`). -/
theorem C107_partial {h : List Op} {ix : Index} (r : Run h ix) (e₁ e₂ : List OEv)
    (hq : ∀ op ∈ callsDuring (e₁ ++ e₂), op.Untagging) {base : Index} (r' : Run (h ++ callsDuring (e₁ ++ e₂)) base)
    (id : ID) (hid : 1 ≤ id.toNat ∧ id.toNat ≤ ix.nodesCount)
    (hok : ix.optimize.1.numberOf id = ix.numberOf id ∨ ((ix.optimizing.run (e₁ ++ e₂)).pc = .done ↔
      (ix.optimizing.run e₁).ix.numberOf id = ix.optimize.1.numberOf id)) :
    shownBetween (ix.optimizing.run e₁).ix (ix.optimizing.run (e₁ ++ e₂)).ix id = base.tagSetsOf id :=
  (reader r e₁ e₂ hq r' id hid).1 hok

/-- And only then, unless an empty reading has been attached to the node. -/
theorem C107_exact {h : List Op} {ix : Index} (r : Run h ix) (e₁ e₂ : List OEv)
    (hq : ∀ op ∈ callsDuring (e₁ ++ e₂), op.Untagging) {base : Index} (r' : Run (h ++ callsDuring (e₁ ++ e₂)) base)
    (id : ID) (hid : 1 ≤ id.toNat ∧ id.toNat ≤ ix.nodesCount) (hne : [] ∉ (dictOf h).attached id.toNat) :
    shownBetween (ix.optimizing.run e₁).ix (ix.optimizing.run (e₁ ++ e₂)).ix id = base.tagSetsOf id ↔
      ix.optimize.1.numberOf id = ix.numberOf id ∨ ((ix.optimizing.run (e₁ ++ e₂)).pc = .done ↔
        (ix.optimizing.run e₁).ix.numberOf id = ix.optimize.1.numberOf id) :=
  ⟨(reader r e₁ e₂ hq r' id hid).2 hne, (reader r e₁ e₂ hq r' id hid).1⟩

/-- If `Optimize` has nothing to do (C105 says when), no reader sees anything of it. -/
theorem C107_idle {h : List Op} {ix : Index} (r : Run h ix) (hs : ix.optimize.1.save.bytes = ix.save.bytes)
    (he : ix.save.err = none) (e₁ e₂ : List OEv) (hq : ∀ op ∈ callsDuring (e₁ ++ e₂), op.Untagging) {base : Index}
    (r' : Run (h ++ callsDuring (e₁ ++ e₂)) base) (id : ID) (hid : 1 ≤ id.toNat ∧ id.toNat ≤ ix.nodesCount) :
    shownBetween (ix.optimizing.run e₁).ix (ix.optimizing.run (e₁ ++ e₂)).ix id = base.tagSetsOf id := by
  refine C107_partial r e₁ e₂ hq r' id hid (.inl ?_)
  rcases oplan_or_idle r with ⟨_, e⟩ | ⟨new, acc, P⟩
  · rw [e]
  · exfalso
    have hb := P.busy
    obtain ⟨v, hv⟩ := List.exists_mem_of_length_pos (Nat.pos_of_ne_zero hb)
    rw [List.mem_filter] at hv
    obtain ⟨q, c, rfl, hq⟩ := run_known r v hv.1
    have hun : ∀ it ∈ ix.items.items, it.variants ≠ packV q := by
      intro it hit hiv
      have : (Index.usedCollections ix.items.items (packV q)).isSome = true :=
        used_isSome.2 ⟨packV_ne_zero (gGet_bounds r.caps.collTables r.caps.colls hq).1, it, hit, hiv⟩
      have h2 := hv.2
      rw [Option.isNone_iff_eq_none] at h2
      rw [h2] at this
      cases this
    have := optimize_shorter r he hq hun
    rw [hs] at this
    omega

/-! ## Wrong readings, a crash, lost readings

With `costlyEntries`: "b" (node 2) is a verb, "c" (3) an adjective, "d" (4) a preposition. -/

/-- The accesses of `Optimize` before it assigns the first number. -/
def beforeNumbers : List OEv := List.replicate 16 .opt

/-- While `Optimize` runs, "b", a verb, is shown as a noun. -/
theorem not_C107 : ∃ ix, Run costlyEntries ix ∧ ix.tagSetsOf 2 = .ok [[newTag (str "----") (str "VERB")]] ∧
    (ix.optimizing.run (beforeNumbers ++ [.opt])).ix.tagSetsOf 2 = .ok [[newTag (str "----") (str "NOUN")]] :=
  ⟨_, small_runs costlyEntries (by decide), by decide, by decide⟩

/-- A reader of "d" who has read the number when `Optimize` ends crashes. -/
theorem not_C107_crash : ∃ ix, Run costlyEntries ix ∧
    shownBetween (ix.optimizing.run beforeNumbers).ix (ix.optimizing.run (beforeNumbers ++ List.replicate 5 .opt)).ix 4 = .panic :=
  ⟨_, small_runs costlyEntries (by decide), by decide⟩

/-- Another goroutine adds "noun" to "d" and is told that it has been done; when `Optimize` returns, it is gone. -/
theorem not_C107_lost : ∃ ix, Run costlyEntries ix ∧
    ((ix.optimizing.run beforeNumbers).ix.addTagSet 4 [str "NOUN"]).2 = .ok () ∧
    let s := ix.optimizing.run (beforeNumbers ++ .call (.addTagSet 4 [str "NOUN"]) :: List.replicate 5 .opt)
    s.pc = .done ∧ s.ix.tagSetsOf 4 = ix.tagSetsOf 4 :=
  ⟨_, small_runs costlyEntries (by decide), by decide, by rfl, by decide⟩

/-- Another goroutine adds "noun" to "c"; when `Optimize` returns, "c" is a noun and a verb, and no adjective any more. -/
theorem not_C107_mixed : ∃ ix, Run costlyEntries ix ∧
    ix.tagSetsOf 3 = .ok [[newTag (str "----") (str "ADJF")]] ∧
    let s := ix.optimizing.run (beforeNumbers ++ List.replicate 4 .opt ++ [.call (.addTagSet 3 [str "NOUN"]), .opt])
    s.pc = .done ∧
    s.ix.tagSetsOf 3 = .ok [[newTag (str "----") (str "NOUN")], [newTag (str "----") (str "VERB")]] :=
  ⟨_, small_runs costlyEntries (by decide), by decide, by rfl, by decide⟩

/-! ## The hypotheses are met -/

/-- Words are added and looked up while `Optimize` runs. -/
def firstPart : List OEv := beforeNumbers ++ [.call (.addRunes [97, 98]), .opt, .opt]
def lastPart : List OEv := [.call (.fetchRunes [99]), .opt, .opt, .opt]

/-- On `costlyEntries`: a reader of "a" (node 1), whose combination keeps its number, sees nothing of it, and in the end it is as
if `Optimize` had been called last. -/
example : ∃ ix base, Run costlyEntries ix ∧ Run (costlyEntries ++ callsDuring (firstPart ++ lastPart)) base ∧
    (∀ op ∈ callsDuring (firstPart ++ lastPart), op.Untagging) ∧
    (ix.optimizing.run (firstPart ++ lastPart)).pc = .done ∧ (ix.optimizing.run (firstPart ++ lastPart)).ix = base.optimize.1 ∧
    shownBetween (ix.optimizing.run firstPart).ix (ix.optimizing.run (firstPart ++ lastPart)).ix 1 = base.tagSetsOf 1 ∧
    base.optimize.1.collectionIdx ≠ base.collectionIdx := by
  have r := small_runs costlyEntries (by decide)
  have r' := small_runs (costlyEntries ++ callsDuring (firstPart ++ lastPart)) (by decide)
  have hq : ∀ op ∈ callsDuring (firstPart ++ lastPart), op.Untagging := by decide
  have hd : ((execAll costlyEntries).optimizing.run (firstPart ++ lastPart)).pc = .done := by rfl
  exact ⟨_, _, r, r', hq, hd, ((C107_end r _ hq r').2 hd).1, C107_partial r _ _ hq r' 1 (by decide) (.inl (by decide)), by decide⟩

/-- The number of "b" is another one afterwards. -/
example : (costlyEntries.foldl Op.exec Index.new).optimize.1.numberOf 2 ≠ (costlyEntries.foldl Op.exec Index.new).numberOf 2 ∧
    [] ∉ (dictOf costlyEntries).attached 2 := by decide

end Verif
