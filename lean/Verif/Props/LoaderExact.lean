import Verif.Props.UpdateCmd
import Verif.Lemmas.Provenance

/-!
# The loader, case by case

For the properties of the loader that fail in some circumstances: exactly in which, and what happens then.
-/

namespace Verif

/-- C55, exactly: what the check answers in every case. -/
theorem C55_exact (env : Env) (w : World) :
    ((isUpdateRequired env w).1 = .panic ↔ env.statErr w.n = true ∧ ∃ t, env.head (w.n + 1) = .answer 200 (.time t)) ∧
    ((isUpdateRequired env w).1 = .err ↔ (env.statErr w.n = true ∨ w.fs.file .archive ≠ none) ∧
      ∀ lm, env.head (w.n + 1) ≠ .answer 200 lm) ∧
    ((isUpdateRequired env w).1 = .ok true ↔ (env.statErr w.n = false ∧ w.fs.file .archive = none) ∨
      env.head (w.n + 1) = .answer 200 .unreadable ∨
      (env.statErr w.n = false ∧ ∃ d t, w.fs.file .archive = some d ∧ env.head (w.n + 1) = .answer 200 (.time t) ∧ d.mtime < t)) ∧
    ((isUpdateRequired env w).1 = .ok false ↔
      ((env.statErr w.n = true ∨ w.fs.file .archive ≠ none) ∧ env.head (w.n + 1) = .answer 200 .absent) ∨
      (env.statErr w.n = false ∧ ∃ d t, w.fs.file .archive = some d ∧ env.head (w.n + 1) = .answer 200 (.time t) ∧ t ≤ d.mtime)) := by
  unfold isUpdateRequired statFile
  cases hs : env.statErr w.n with
  | true =>
    rw [if_pos rfl]
    simp only [World.tick]
    cases hh : env.head (w.n + 1) with
    | fail => simp [compareTimes]
    | answer st lm =>
      by_cases h2 : st = 200
      · subst h2; cases lm <;> simp [compareTimes]
      · simp [compareTimes, h2]
  | false =>
    rw [if_neg (by simp)]
    cases hf : w.fs.file .archive with
    | none => simp
    | some d =>
      simp only [World.tick]
      cases hh : env.head (w.n + 1) with
      | fail => simp [compareTimes]
      | answer st lm =>
        by_cases h2 : st = 200
        · subst h2; cases lm <;> simp [compareTimes]
        · simp [compareTimes, h2]

/-- C46, exactly: after a download that failed the archive is as before, or it is a new file. In the latter case the next check
says that no update is required unless the server's date is later than that file, or unreadable, or the server cannot be asked. -/
theorem C46_exact (cfg : LoaderCfg) (env : Env) (w w' : World) (h : downloadUpdate cfg env w = (.err, w')) :
    w'.fs.file .archive = w.fs.file .archive ∨
    ∃ d, w'.fs.file .archive = some d ∧ (∃ n, d.mtime = env.now n) ∧
      ∀ env' v, v.fs = w'.fs → env'.statErr v.n = false →
        ((isUpdateRequired env' v).1 = .ok true ↔ env'.head (v.n + 1) = .answer 200 .unreadable ∨
          ∃ t, env'.head (v.n + 1) = .answer 200 (.time t) ∧ d.mtime < t) ∧
        ((isUpdateRequired env' v).1 = .ok false ↔ env'.head (v.n + 1) = .answer 200 .absent ∨
          ∃ t, env'.head (v.n + 1) = .answer 200 (.time t) ∧ t ≤ d.mtime) := by
  rcases C46_partial cfg env w w' h with h1 | ⟨d, h1, h2, -⟩
  · exact .inl h1
  · refine .inr ⟨d, h1, h2, fun env' v hv hs => ?_⟩
    obtain ⟨-, -, a, b⟩ := C55_exact env' v
    rw [a, b, hv, h1, hs]
    simp

/-- C48, exactly where it fails: if the check says "not required", the archive is not unpacked; without an unpacked file the
forced recompile fails and changes nothing. -/
theorem C48_exact (cfg : LoaderCfg) (env : Env) (w : World) (hr : (isUpdateRequired env w).1 = .ok false)
    (hx : w.fs.file .xml = none) :
    (update cfg env true w).1 = .err ∧ (update cfg env true w).2.ev = w.ev ++ [.compiled false] ∧
      (update cfg env true w).2.fs = w.fs ∧ (update cfg env true w).2.past = w.past := by
  unfold update
  have h1 := required_same env w
  cases e1 : isUpdateRequired env w with
  | mk r w1 =>
    rw [e1] at h1 hr
    simp only at h1 hr
    subst hr
    have h2 := exists_same env .archive w1
    cases e2 : fileExists env .archive w1 with
    | mk dl w2 =>
      rw [e2] at h2
      simp only at h2
      subst h2
      have h3 := exists_same env .xml w1.tick
      cases e3 : fileExists env .xml w1.tick with
      | mk un w3 =>
        rw [e3] at h3
        simp only at h3
        subst h3
        simp only [e2, e3, decideUpdate, if_true]
        have ho : openFile env .xml w1.tick.tick = (none, w1.tick.tick.tick) := by
          unfold openFile
          have : w1.tick.tick.fs.file .xml = none := by show w1.fs.file .xml = none; rw [h1.1]; exact hx
          rw [this]
          split <;> rfl
        have hp : parseUpdate env w1.tick.tick = (.err, w1.tick.tick.tick) := by
          unfold parseUpdate; rw [ho]
        unfold stepCompile
        rw [hp]
        refine ⟨rfl, ?_, ?_, ?_⟩
        · show w1.ev ++ _ = _; rw [h1.2.2]
        · exact h1.1
        · exact h1.2.1

/-- C57, exactly: if `SaveIndex` returns nil, then `LoadIndex` returns an index with the same answers, or it returns an error
because the disk took only a part of the bytes and said so only when the file was closed. -/
theorem C57_exact (h : List Op) (m : Room h) (ht : PlainTags (execAll h).tags) (env : Env) (w : World)
    (hok : (saveIndex env (execAll h) w).1 = .ok ()) :
    (∃ ix', LoadsTo (saveIndex env (execAll h) w).2.fs ix' ∧ SameAnswersExceptNul (execAll h) ix') ∨
    (LoadFails (saveIndex env (execAll h) w).2.fs ∧ ∃ n, env.late n = true ∧ env.room n ≠ none) := by
  obtain ⟨r1, -⟩ := run_of_room _ m
  obtain ⟨r2, o2⟩ := run_of_room _ m.optimize
  have e2 : execAll (h ++ [.optimize]) = (execAll h).optimize.1 := by
    unfold execAll; rw [List.foldl_append]; rfl
  rw [e2] at r2 o2
  have hl : (execAll h).optimize.1.InLimits := (o2.allowed r2.refines.1 m.optimize .reload).1
  obtain ⟨-, s⟩ := C23 r1
  obtain ⟨-, ix', hload, same, -⟩ := C17 r2 hl (by rw [s.tags]; exact ht)
  obtain ⟨l, -, -, -, h4⟩ := save_states env (execAll h) w
  obtain ⟨-, hs, t, n, hf, hn⟩ := h4 hok
  by_cases hw : accepted (env.room n) (execAll h).optimize.1.save.bytes = (execAll h).optimize.1.save.bytes
  · left
    rw [hw] at hf
    refine ⟨ix', ?_, ?_⟩
    · rcases state_cases hl hf (List.prefix_refl _) with hx | ⟨-, -, ix2, a, -, b⟩
      · exfalso
        have := hx { plainEnv with openErr := fun _ => false } (saveIndex env (execAll h) w).2 rfl
        unfold loadIndex openFile at this
        rw [hf] at this
        simp only [Bool.false_eq_true, if_false, plainEnv, quietEnv, accepted, hload] at this
        cases this
      · rw [a] at hload
        simp only [Out.ok.injEq, Prod.mk.injEq, and_true] at hload
        rw [← hload]; exact b
    · exact {
        fetch := fun id rs hq => (same.fetch id rs hq).trans (s.fetch id rs)
        fetchItem := fun id rs hq => (same.fetchItem id rs hq).trans (s.fetchItem id rs)
        get := fun id => (same.get id).trans (s.get id)
        word := fun id => (same.word id).trans (s.word id)
        tagSets := fun id => (same.tagSets id).trans (s.tagSets id)
        children := fun id r hq => (same.children id r hq).trans (by rw [s.children])
        tags := same.tags.trans s.tags
        nodesCount := same.nodesCount.trans s.nodesCount
        wordsCount := same.wordsCount.trans s.wordsCount }
  · right
    refine ⟨?_, n, ?_, ?_⟩
    · rcases state_cases hl hf (accepted_prefix _ _) with hx | ⟨h5, -⟩
      · exact hx
      · exact absurd h5 hw
    · cases hlate : env.late n with
      | true => rfl
      | false => exact absurd (hn hlate) hw
    · intro hroom
      rw [hroom] at hw
      exact hw rfl

/-- The unpacked file can be read to its end and imported without an error. -/
def Imports (env : Env) (w : World) (s : PState) : Prop :=
  ∃ bytes, openFile env .xml w = (some (bytes, true), w.tick) ∧ (env.tokens bytes).2 = true ∧
    (PState.init Index.new 0).run env.floatOK (env.tokens bytes).1 = (s, none)

/-- A save that fails after the file was opened leaves nothing that loads. -/
theorem save_fails (env : Env) (ix : Index) (w : World) (hl : ix.optimize.1.InLimits) (hc : env.createErr w.n = false)
    (hd : w.fs.dir = true) (h : (saveIndex env ix w).1 ≠ .ok ()) : LoadFails (saveIndex env ix w).2.fs := by
  have hcr : createFile env .compiled w = (true, (w.set (w.fs.put .compiled (some ⟨[], env.now w.n⟩))).tick) := by
    unfold createFile
    exact if_neg (by simp [hc, hd])
  unfold saveIndex at h ⊢
  rw [hcr] at h ⊢
  simp only at h ⊢
  obtain ⟨w1, hw1⟩ : ∃ w1, w1 = (w.set (w.fs.put .compiled (some ⟨[], env.now w.n⟩))).tick := ⟨_, rfl⟩
  have hempty : LoadFails w1.fs := by
    refine load_prefix (p := []) (t := env.now w.n) (by rw [hw1]; exact put_self _ _ _) ?_
    intro q hq
    have : q = [] := by simpa using hq
    subst this
    exact ⟨_, rfl⟩
  rw [← hw1] at h ⊢
  obtain ⟨ix', o, he⟩ : ∃ ix' o, ix.optimize = (ix', o) := ⟨_, _, rfl⟩
  rw [he] at h hl ⊢
  simp only at hl
  cases o with
  | ok u =>
    simp only at h ⊢
    by_cases hb : ix'.save.err ≠ none ∨ (accepted (env.room w1.n) ix'.save.bytes ≠ ix'.save.bytes ∧ env.late w1.n = false)
    · rw [if_pos hb]
      unfold removeFile
      split
      · have hf : (w1.grow .compiled (accepted (env.room w1.n) ix'.save.bytes) (env.now w1.n)).tick.tick.fs.file .compiled =
            some ⟨accepted (env.room w1.n) ix'.save.bytes, env.now w1.n⟩ := put_self _ _ _
        rcases state_cases hl hf (accepted_prefix _ _) with hx | ⟨h1, h2, -⟩
        · exact hx
        · exact absurd hb (by simp [h1, h2])
      · exact load_missing (put_self _ _ _)
    · rw [if_neg hb] at h
      exact absurd rfl h
  | err e => exact hempty
  | panic => exact hempty
  | diverge => exact hempty

/-- C58, exactly: an import that fails leaves the disk as it was if the unpacked file could not be read or imported or the index
file could not be opened for writing; otherwise the old index is gone and nothing can be loaded. -/
theorem C58_exact (env : Env) (w : World) (h : (parseUpdate env w).1 = .err) :
    ((¬ (∃ s, Imports env w s) ∨ env.createErr (w.n + 1) = true ∨ w.fs.dir = false) → (parseUpdate env w).2.fs = w.fs) ∧
    (∀ s, Imports env w s → s.ix.optimize.1.InLimits → env.createErr (w.n + 1) = false → w.fs.dir = true →
      LoadFails (parseUpdate env w).2.fs) := by
  constructor
  · intro hc
    unfold parseUpdate
    have ho := open_same env .xml w
    cases e3 : openFile env .xml w with
    | mk o w1 =>
      rw [e3] at ho
      simp only at ho
      subst ho
      cases o with
      | none => rfl
      | some x =>
        obtain ⟨bytes, whole⟩ := x
        simp only
        cases hr : (PState.init Index.new 0).run env.floatOK (env.tokens bytes).1 with
        | mk s e =>
          simp only
          have hstop : e ≠ some .controlledStop := by
            have := PState.run_noStop env.floatOK (env.tokens bytes).1 (PState.init Index.new 0) (by decide)
            rw [hr] at this
            exact this
          split
          · rename_i hk
            obtain ⟨rfl, rfl, ht⟩ := hk.resolve_left hstop
            rcases hc with hc | hc
            · exact absurd ⟨s, bytes, e3, ht, hr⟩ hc
            · have hcr : createFile env .compiled w.tick = (false, w.tick.tick) := by
                unfold createFile
                exact if_pos hc
              have hsv : saveIndex env s.ix w.tick = (.err, w.tick.tick) := by
                unfold saveIndex
                rw [hcr]
              rw [hsv]
              rfl
          · rfl
  · rintro s ⟨bytes, ho, ht, hr⟩ hl hc hd
    unfold parseUpdate at h ⊢
    rw [ho] at h ⊢
    simp only [hr] at h ⊢
    have hk : (none : Option PErr) = some .controlledStop ∨ (True ∧ True ∧ (env.tokens bytes).2 = true) :=
      .inr ⟨trivial, trivial, ht⟩
    rw [if_pos hk] at h ⊢
    have hf := save_fails env s.ix w.tick hl hc hd
    cases hsv : saveIndex env s.ix w.tick with
    | mk r w2 =>
      rw [hsv] at h hf
      cases r with
      | ok u => simp at h
      | err => exact hf (by simp)
      | panic => exact hf (by simp)

/-- If an update is required, the step of downloading tries to. -/
theorem step_downloads (cfg : LoaderCfg) (env : Env) (w : World) (h : (isUpdateRequired env w).1 = .ok true) :
    ∃ b es, (stepDownload cfg env w).2.ev = w.ev ++ .downloaded b :: es := by
  unfold stepDownload
  have hw := (download_wrote cfg env w).1
  have hne : (downloadUpdate cfg env w).1 ≠ .ok false := by
    unfold downloadUpdate
    cases e : isUpdateRequired env w with
    | mk r w1 =>
      rw [e] at h
      simp only at h
      subst h
      simp only
      (repeat' split) <;> simp
  cases e : downloadUpdate cfg env w with
  | mk r w1 =>
    rw [e] at hw hne
    simp only at hw
    cases r with
    | err => exact ⟨false, [], by simp [World.note, hw]⟩
    | panic => exact ⟨false, [], by simp [World.note, hw]⟩
    | ok u =>
      cases u with
      | false => exact absurd rfl hne
      | true =>
        simp only
        rcases unpack_took cfg env (w1.note (.downloaded true)) with k | ⟨b, k⟩
        · exact ⟨true, [.unpacked false], by rw [k.ev]; simp [World.note, hw]⟩
        · exact ⟨true, [.unpacked true, .compiled b], by rw [k.ev]; simp [World.note, hw]⟩

/-- C71, exactly: while the server answers with the same date, an `Update` without force does nothing if the archive is not
older than that date; otherwise it starts with a download, whatever was done before. -/
theorem C71_exact (cfg : LoaderCfg) (env : Env) (t : Int) (hs : env.Steady (.answer 200 (.time t))) (w : World) (d : FileData)
    (hd : w.fs.file .archive = some d) :
    (t ≤ d.mtime → (update cfg env false w).1 = .ok () ∧ (update cfg env false w).2.fs = w.fs ∧
      (update cfg env false w).2.past = w.past ∧ (update cfg env false w).2.ev = w.ev) ∧
    (d.mtime < t → ∃ b es, (update cfg env false w).2.ev = w.ev ++ .downloaded b :: es) := by
  obtain ⟨-, -, ht, hf⟩ := C55_exact env w
  have key := update_took cfg env false w
  constructor
  · intro hle
    have hr : (isUpdateRequired env w).1 = .ok false := hf.2 (.inr ⟨hs.stat _, d, t, hd, hs.head _, hle⟩)
    rw [hr] at key
    rcases key with ⟨es, -, -, (⟨h, -⟩ | ⟨h, -⟩ | ⟨h, -⟩)⟩ | ⟨h1, (⟨h, -⟩ | ⟨h, -⟩ | ⟨-, -, h⟩)⟩
    · cases h
    · cases h
    · cases h
    · cases h
    · cases h
    · exact ⟨h, h1⟩
  · intro hlt
    have hr : ∀ v, v.fs = w.fs → (isUpdateRequired env v).1 = .ok true := fun v hv =>
      (C55_exact env v).2.2.1.2 (.inr (.inr ⟨hs.stat _, d, t, by rw [hv]; exact hd, hs.head _, hlt⟩))
    unfold update
    have h1 := required_same env w
    have hr1 := hr w rfl
    cases e1 : isUpdateRequired env w with
    | mk r w1 =>
      rw [e1] at h1 hr1
      simp only at h1 hr1
      subst hr1
      have h2 := exists_same env .archive w1
      cases e2 : fileExists env .archive w1 with
      | mk dl w2 =>
        rw [e2] at h2
        simp only at h2
        subst h2
        have h3 := exists_same env .xml w1.tick
        cases e3 : fileExists env .xml w1.tick with
        | mk un w3 =>
          rw [e3] at h3
          simp only at h3
          subst h3
          simp only [e2, e3, decideUpdate]
          obtain ⟨b, es, h⟩ := step_downloads cfg env w1.tick.tick (hr _ h1.1)
          refine ⟨b, es, ?_⟩
          rw [h]
          show w1.ev ++ _ = _
          rw [h1.2.2]

/-! ## The cases occur -/

/-- C46: the second case, with a server that breaks off. -/
example : ∃ w', downloadUpdate ⟨true⟩ { plainEnv with get := fun _ => .answer 200 (str "ab") false } emptyWorld = (.err, w') ∧
    w'.fs.file .archive = some ⟨str "ab", 104⟩ := ⟨_, rfl, rfl⟩

/-- C48: an archive that is up to date and no unpacked file. -/
example : (isUpdateRequired plainEnv archiveWorld).1 = .ok false ∧ archiveWorld.fs.file .xml = none := by decide

/-- C58: both cases, for a text that is an empty document. -/
example : ∃ env w s, Imports env w s ∧ s.ix.optimize.1.InLimits ∧ env.createErr (w.n + 1) = false ∧ w.fs.dir = true ∧
    (parseUpdate env w).1 = .err :=
  ⟨{ plainEnv with room := fun _ => some 2 },
    { emptyWorld with fs := { dir := true, file := fun f => if f = .xml then some ⟨str "x", 1⟩ else none } },
    PState.init Index.new 0, ⟨str "x", rfl, rfl, rfl⟩, by constructor <;> decide, rfl, rfl, by decide⟩

example : (parseUpdate plainEnv emptyWorld).1 = .err ∧ ¬ ∃ s, Imports plainEnv emptyWorld s := by
  refine ⟨by decide, ?_⟩
  rintro ⟨s, bytes, h, -⟩
  cases h

/-- C71: both cases. -/
example : plainEnv.Steady (.answer 200 (.time 10)) ∧ archiveWorld.fs.file .archive = some ⟨str "abc", 50⟩ ∧
    ({ plainEnv with head := fun _ => .answer 200 (.time 60) } : Env).Steady (.answer 200 (.time 60)) :=
  ⟨⟨fun _ => rfl, fun _ => rfl⟩, rfl, ⟨fun _ => rfl, fun _ => rfl⟩⟩

end Verif
