import Verif.Spec.LoadWhile
import Verif.Lemmas.LoadWhile
import Verif.Lemmas.Layout

/-!
# C109: looking words up while a dictionary is being loaded

`LoadState.start.run file evs` is a new index into which the bytes `file` are being loaded, after the events `evs`: steps of the
load, and lookups of other goroutines. `ix` is the dictionary that was saved, `F` the one that loading alone gives.
-/

namespace Verif

variable {h : List Op} {ix F : Index}

theorem loaded_of {ix F : Index} (hl : ix.InLimits) (hs : ix.save.err = none)
    (hF : Index.new.load ix.save.bytes = .ok (F, [])) : F = Index.loaded Index.new ix := by
  have := RT_load Index.new hl ((save_err ix).1 hs) []
  rw [List.append_nil, hF] at this
  exact (Prod.mk.inj (Out.ok.inj this)).1

/-- What lookups from the root find at any moment: the nodes below a certain number. -/
theorem found_now {ix : Index} {d : Dict} (t : TrieOK ix d) {s : LoadState} (I : LoadInv ix s) (rs : List Rune) (h0 : NoLeadingNul rs) :
    (∀ i, (s.ix.fetchRunes rs).2 = .ok i ↔
      ((Index.loaded Index.new ix).fetchRunes rs).2 = .ok i ∧ i.toNat < s.entered ix) ∧
    ((∃ i, (s.ix.fetchRunes rs).2 = .ok i) ∨ ∃ e, (s.ix.fetchRunes rs).2 = .err e) := by
  cases hr : s.todo with
  | some rest =>
    have := (I.edges t hr).fetch (reload_trie t) (p := 0) t.root rs fun _ => h0
    exact ⟨this.1, this.2.1⟩
  | none =>
    obtain ⟨jx, n, todo⟩ := s
    simp only at hr
    subst hr
    obtain ⟨_, h2, _⟩ := I
    have he : ∃ e, (jx.fetchRunes rs).2 = .err e := by
      cases rs with
      | nil => exact ⟨_, rfl⟩
      | cons r rest =>
        unfold Index.fetchRunes Index.fetchFromItem
        simp only [getChildrenIDMap_snd]
        have h2 : jx.getChildrenMap 0 r = none := h2 0 r
        rw [h2]
        exact ⟨_, rfl⟩
    obtain ⟨e, he⟩ := he
    have he' : (LoadState.mk jx n none).ix.fetchRunes rs = jx.fetchRunes rs := rfl
    refine ⟨fun i => ⟨fun h => ?_, fun h => absurd h.2 (Nat.not_lt_zero _)⟩, .inr ⟨e, he⟩⟩
    rw [he', he] at h
    cases h

/-- The answers at a moment of the load. -/
theorem seen_now {ix : Index} {d : Dict} (t : TrieOK ix d) {s : LoadState} (I : LoadInv ix s) :
    SeenSoFar s.ix (Index.loaded Index.new ix) := by
  have tF := reload_trie t
  have hfetch : ∀ rs, NoLeadingNul rs → (s.ix.fetchRunes rs).2 = ((Index.loaded Index.new ix).fetchRunes rs).2 ∨
      ∃ e, (s.ix.fetchRunes rs).2 = .err e := by
    intro rs h0
    obtain ⟨h1, h2⟩ := found_now t I rs h0
    rcases h2 with ⟨i, hi⟩ | he
    · exact .inl (hi.trans ((h1 i).1 hi).1.symm)
    · exact .inr he
  -- a node can only be found when the sections have been read
  have hsome : ∀ rs i, NoLeadingNul rs → (s.ix.fetchRunes rs).2 = .ok i → ∃ rest, s.todo = some rest := by
    intro rs i h0 hi
    have := (((found_now t I rs h0).1 i).1 hi).2
    cases hr : s.todo with
    | some rest => exact ⟨rest, rfl⟩
    | none =>
      unfold LoadState.entered at this
      rw [hr] at this
      exact absurd this (Nat.not_lt_zero _)
  have hobs : ∀ rest, s.todo = some rest → s.ix.tags = (Index.loaded Index.new ix).tags ∧
      s.ix.tagSets = (Index.loaded Index.new ix).tagSets ∧
      s.ix.collectionIdx = (Index.loaded Index.new ix).collectionIdx ∧ s.ix.items = (Index.loaded Index.new ix).items ∧
      s.ix.wordsCount ≤ (Index.loaded Index.new ix).wordsCount := by
    intro rest hr
    obtain ⟨jx, n, todo⟩ := s
    simp only at hr
    subst hr
    obtain ⟨done, hd, hc⟩ := I
    have hF : Index.loaded Index.new ix = rest.foldl RAct.exec (done.foldl RAct.exec ix.sections) := by
      rw [← List.foldl_append, ← hd, acts_rebuild]; rfl
    obtain ⟨b1, b2, b3, b4, b5⟩ := execs_sections rest (done.foldl RAct.exec ix.sections)
    rw [hF, b1, b2, b3, b4]
    exact ⟨hc.obs.tags, hc.obs.tagSets, hc.obs.collectionIdx, hc.obs.items, by
      show jx.wordsCount ≤ _
      rw [hc.obs.wordsCount]; exact b5⟩
  -- where it is
  have hplace : ∀ rs i, NoLeadingNul rs → (s.ix.fetchRunes rs).2 = .ok i → i ≠ 0 ∧ ∃ w, d.nodes[i.toNat]? = some w := by
    intro rs i h0 hi
    obtain ⟨hne, hw⟩ := (tF.fetchRoot_iff rs i).1 (((found_now t I rs h0).1 i).1 hi).1
    refine ⟨?_, _, hw⟩
    rintro rfl
    have hw : d.nodes[(0 : ID).toNat]? = some (Dict.join (Op.spec d .reload) [] rs) := hw
    rw [zero_toNat, t.root] at hw
    have hj : Dict.join (Op.spec d .reload) [] rs = rs := by
      unfold Dict.join
      split
      · cases rs with
        | nil => rfl
        | cons r rest =>
          have : r ≠ 0 := fun e => h0 (by simp [e])
          simp [this]
      · simp
    rw [hj] at hw
    exact hne (Option.some.inj hw).symm
  constructor
  · exact hfetch
  · exact fun w h0 => hfetch _ h0
  · intro rs i h0 hi
    obtain ⟨rest, hr⟩ := hsome rs i h0 hi
    obtain ⟨o1, o2, o3, o4, _⟩ := hobs rest hr
    refine ⟨by unfold Index.word; rw [o4], ?_, by unfold Index.get; rw [o4]⟩
    unfold Index.tagSetsOf
    rw [o4, o3, show s.ix.tagSetsLoop = (Index.loaded Index.new ix).tagSetsLoop from funext (tagSetsLoop_congr o2 o1)]
  · intro rs i ts h0 hi
    obtain ⟨rest, hr⟩ := hsome rs i h0 hi
    obtain ⟨hi0, w, hw⟩ := hplace rs i h0 hi
    obtain ⟨h1, h2, _⟩ := (I.edges t hr).fetch tF hw ts fun e => absurd e hi0
    rcases h2 with ⟨j, hj⟩ | he
    · exact .inl (hj.trans ((h1 j).1 hj).1.symm)
    · exact .inr he
  · intro rs i l c h0 hi hc
    obtain ⟨rest, hr⟩ := hsome rs i h0 hi
    exact (((I.edges t hr).edge i l c fun e => (hplace rs i h0 hi).1 e.1).1 hc).1
  · cases hr : s.todo with
    | some rest => exact (hobs rest hr).2.2.2.2
    | none =>
      obtain ⟨jx, n, todo⟩ := s
      simp only at hr
      subst hr
      have : jx.wordsCount = 0 := I.2.2
      show jx.wordsCount ≤ _
      omega

/-- C109, the part that holds: looked up by its letters, a word is at every moment either not found, or found with everything
the loaded dictionary says about it. -/
theorem C109_partial (r : Run h ix) (hl : ix.InLimits) (hs : ix.save.err = none)
    (hF : Index.new.load ix.save.bytes = .ok (F, [])) (evs : List LoadEv) :
    SeenSoFar (LoadState.start.run ix.save.bytes evs).ix F := by
  rw [loaded_of hl hs hF]
  exact seen_now r.trie (linv_run hl ((save_err ix).1 hs) evs)

/-- Which words are found: at every moment those whose node has a number below a certain one. -/
theorem C109_exact (r : Run h ix) (hl : ix.InLimits) (hs : ix.save.err = none)
    (hF : Index.new.load ix.save.bytes = .ok (F, [])) (evs : List LoadEv) :
    ∃ k, ∀ rs id, NoLeadingNul rs →
      (((LoadState.start.run ix.save.bytes evs).ix.fetchRunes rs).2 = .ok id ↔ (F.fetchRunes rs).2 = .ok id ∧ id.toNat < k) := by
  rw [loaded_of hl hs hF]
  exact ⟨_, fun rs id h0 => (found_now r.trie (linv_run hl ((save_err ix).1 hs) evs) rs h0).1 id⟩

/-- What has been found stays found. -/
theorem C109_grows (r : Run h ix) (hl : ix.InLimits) (hs : ix.save.err = none) (evs more : List LoadEv) (rs : List Rune)
    (h0 : NoLeadingNul rs) (id : ID) (hf : ((LoadState.start.run ix.save.bytes evs).ix.fetchRunes rs).2 = .ok id) :
    ((LoadState.start.run ix.save.bytes (evs ++ more)).ix.fetchRunes rs).2 = .ok id := by
  have hn := (save_err ix).1 hs
  obtain ⟨h1, h2⟩ := ((found_now r.trie (linv_run hl hn evs) rs h0).1 id).1 hf
  refine ((found_now r.trie (linv_run hl hn (evs ++ more)) rs h0).1 id).2 ⟨h1, Nat.lt_of_lt_of_le h2 ?_⟩
  have : LoadState.start.run ix.save.bytes (evs ++ more) = (LoadState.start.run ix.save.bytes evs).run ix.save.bytes more := by
    unfold LoadState.run; rw [List.foldl_append]
  rw [this]
  exact entered_run ix _ more _

/-- When the load has returned, the lookups made meanwhile have left no trace: every answer is that of the loaded dictionary. -/
theorem C109_end (r : Run h ix) (hl : ix.InLimits) (hs : ix.save.err = none)
    (hF : Index.new.load ix.save.bytes = .ok (F, [])) (evs : List LoadEv)
    (hr : (LoadState.start.run ix.save.bytes evs).returned) :
    SameAnswers F (LoadState.start.run ix.save.bytes evs).ix ∧ (LoadState.start.run ix.save.bytes evs).ix.save = F.save := by
  have I := linv_run hl ((save_err ix).1 hs) evs
  unfold LoadState.returned at hr
  unfold LoadInv at I
  rw [hr] at I
  obtain ⟨done, hd, hc⟩ := I
  rw [List.append_nil] at hd
  subst hd
  rw [acts_rebuild, ← loaded_eq, ← loaded_of hl hs hF] at hc
  exact ⟨SameAnswers.of_obs hc.obs, save_obs hc.obs⟩

/-- The load ends: after as many of its steps as the file has bytes, and a few for each node. -/
theorem C109_ends (r : Run h ix) (hl : ix.InLimits) (hs : ix.save.err = none) (evs : List LoadEv)
    (hn : ix.save.bytes.length + 4 * (ix.nodesCount + 1) + 1 ≤ loadsIn evs) :
    (LoadState.start.run ix.save.bytes evs).returned := by
  have hn' := (save_err ix).1 hs
  have hstep : ∀ (evs : List LoadEv) (s : LoadState), LoadInv ix s → (s.run ix.save.bytes evs).left ix ≤ s.left ix - loadsIn evs ∧
      LoadInv ix (s.run ix.save.bytes evs) := by
    intro evs
    induction evs with
    | nil => exact fun s I => ⟨Nat.le_refl _, I⟩
    | cons e evs ih =>
      intro s I
      have I' := linv_step hl hn' I e
      obtain ⟨h1, h2⟩ := ih _ I'
      refine ⟨Nat.le_trans h1 ?_, h2⟩
      cases e with
      | load =>
        have := left_load hl hn' I
        have hc : loadsIn (LoadEv.load :: evs) = loadsIn evs + 1 := rfl
        show (s.load ix.save.bytes).left ix - loadsIn evs ≤ _
        omega
      | fetch => exact Nat.le_refl _
      | fetchItem => exact Nat.le_refl _
  obtain ⟨h1, h2⟩ := hstep evs LoadState.start (linv_start hn')
  have hlen : ix.sections.items.items.length = ix.nodesCount + 1 := by
    show (ix.items.items.take ix.items.nextID.toNat).length = _
    rw [List.length_take, r.trie.next, r.trie.nodesCount]
    have := r.trie.cap
    have := r.trie.length_pos
    omega
  have ha := acts_length ix.sections
  rw [hlen] at ha
  have h0 : LoadState.start.left ix = ix.save.bytes.length - 0 + ix.sections.rebuildActs.length := rfl
  have hz : (LoadState.start.run ix.save.bytes evs).left ix = 0 := by omega
  generalize LoadState.start.run ix.save.bytes evs = s at h2 hz
  obtain ⟨jx, got, todo⟩ := s
  match todo, h2 with
  | some [], _ => rfl
  | some (a :: rest), _ => cases hz
  | none, h2 =>
    have h2 : got < ix.save.bytes.length := h2.1
    have hz : ix.save.bytes.length - got + ix.sections.rebuildActs.length = 0 := hz
    omega

instance (s : LoadState) : Decidable s.returned := inferInstanceAs (Decidable (s.todo = some []))

/-! Concrete cases: a load that has come some way. -/

/-- `n` steps of the load, a lookup of "a", `m` more steps. -/
def lookupAmid (n m : Nat) : List LoadEv := List.replicate n .load ++ [.fetch 0 [0x61]] ++ List.replicate m .load

/-- The hypotheses hold for a dictionary with the word "a" and a reading; in the middle of its load "a" is not found, a few
steps later it is, with its reading, while the number of words still lags behind. -/
example : ∃ ix F, Run nounHistory ix ∧ ix.InLimits ∧ ix.save.err = none ∧ Index.new.load ix.save.bytes = .ok (F, []) ∧
    F.wordsCount = 1 ∧
    (∃ e, ((LoadState.start.run ix.save.bytes (lookupAmid 60 20)).ix.fetchRunes [0x61]).2 = .err e) ∧
    ((LoadState.start.run ix.save.bytes (lookupAmid 60 22)).ix.fetchRunes [0x61]).2 = .ok 1 ∧
    (LoadState.start.run ix.save.bytes (lookupAmid 60 22)).ix.tagSetsOf 1 = .ok [[⟨str "----", str "NOUN"⟩]] ∧
    (LoadState.start.run ix.save.bytes (lookupAmid 60 22)).ix.wordsCount = 0 ∧
    (LoadState.start.run ix.save.bytes (lookupAmid 60 23)).returned :=
  ⟨_, _, small_runs nounHistory (by decide), (by constructor <;> decide), rfl, rfl, rfl, ⟨.notFound [] 0x61, by decide +kernel⟩,
    by decide +kernel, by decide +kernel, by decide +kernel, by decide +kernel⟩

/-- C109 fails for queries by number: while the nodes are being read, `Get` already answers for a node whose text is not yet
there and which seems to have no readings. -/
theorem not_C109 : ∃ ix F, Run nounHistory ix ∧ Index.new.load ix.save.bytes = .ok (F, []) ∧
    F.word 1 = .ok (str "a") ∧ F.tagSetsOf 1 = .ok [[⟨str "----", str "NOUN"⟩]] ∧
    (LoadState.start.run ix.save.bytes (List.replicate 50 .load)).ix.get 1 = .ok 1 ∧
    (LoadState.start.run ix.save.bytes (List.replicate 50 .load)).ix.word 1 = .ok [0] ∧
    (LoadState.start.run ix.save.bytes (List.replicate 50 .load)).ix.tagSetsOf 1 = .ok [] :=
  ⟨_, _, small_runs nounHistory (by decide), rfl, rfl, by decide, by decide +kernel, by decide +kernel, by decide +kernel⟩

/-- It fails for words that start with NUL: "\0" is found, for a moment, at the root. -/
theorem not_C109_nul : ∃ ix F, Run [.addRunes [0]] ix ∧ Index.new.load ix.save.bytes = .ok (F, []) ∧
    (F.fetchRunes [0]).2 = .ok 1 ∧
    ∃ n, ((LoadState.start.run ix.save.bytes (List.replicate n .load)).ix.fetchRunes [0]).2 = .ok 0 :=
  ⟨_, _, small_runs [.addRunes [0]] (by decide), rfl, rfl, 58, by decide +kernel⟩

end Verif
