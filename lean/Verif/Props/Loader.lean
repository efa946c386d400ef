import Verif.Lemmas.Loader
import Verif.Props.EndToEnd
import Verif.Props.FileFormat

/-!
# C45–C48, C55, C57–C62 — updating, saving and loading, with every failure and every crash point

`Env` (`Model/Loader.lean`) answers every call the loader makes to the operating system and to the server; theorems
quantify over it. `World.past` lists the states of the disk passed so far; the process may die in any of them.
-/

namespace Verif

/-! ## C45 — the steps of `Update` -/

/-- C45: the steps `Update` takes. It compiles only after an unpack that succeeded or if forced; unpacks only after a
download that succeeded, or if forced and the check failed; its steps are in this order, each at most once; the disk
is written only by these steps, each writing its own file. It returns nil exactly if it took steps that all succeeded,
or found everything up to date. -/
theorem C45 (cfg : LoaderCfg) (env : Env) (force : Bool) (w : World) :
    ∃ es, (update cfg env force w).2.ev = w.ev ++ es ∧
      es.Sublist [.downloaded true, .downloaded false, .notUpdated, .unpacked true, .unpacked false, .compiled true,
        .compiled false] ∧
      (∀ b, .compiled b ∈ es → .unpacked true ∈ es ∨ force = true ∧ .unpacked false ∉ es) ∧
      (∀ b, .unpacked b ∈ es → .downloaded true ∈ es ∨ force = true ∧ (isUpdateRequired env w).1 = .err) ∧
      ((update cfg env force w).1 = .ok () ↔
        (∀ e ∈ es, e.good = true) ∧ (es ≠ [] ∨ force = false ∧ (isUpdateRequired env w).1 = .ok false)) ∧
      Touched (Writes es) w (update cfg env force w).2 := by
  rcases update_took cfg env force w with ⟨es, t, h0, h⟩ | ⟨s, h⟩
  · refine ⟨es, t.ev, ?_, ?_, ?_, ?_, t.files⟩
    · rcases h with ⟨_, rfl | rfl | rfl | ⟨b, rfl⟩⟩ | ⟨_, _, b, rfl⟩ | ⟨_, _, rfl | ⟨b, rfl⟩ | ⟨b, rfl⟩⟩ <;>
        first
          | decide
          | (cases b <;> decide)
    · intro b hb
      rcases h with ⟨_, rfl | rfl | rfl | ⟨c, rfl⟩⟩ | ⟨hf, _, c, rfl⟩ | ⟨hf, _, rfl | ⟨c, rfl⟩ | ⟨c, rfl⟩⟩ <;>
        simp_all
    · intro b hb
      rcases h with ⟨_, rfl | rfl | rfl | ⟨c, rfl⟩⟩ | ⟨hf, _, c, rfl⟩ | ⟨hf, he, rfl | ⟨c, rfl⟩ | ⟨c, rfl⟩⟩ <;>
        simp_all
    · rw [t.ok]; simp [h0]
  · refine ⟨[], by rw [s.2.2]; simp, by simp, by simp, by simp, ?_, (s.wrote (S := Writes [])).2⟩
    rcases h with ⟨a, b⟩ | ⟨a, b⟩ | ⟨a, f, b⟩
    · rw [b, a]; simp
    · rw [b, a]; simp
    · rw [b, a, f]; simp

/-- C45: up to date and not forced, `Update` returns nil and the disk is never touched. -/
theorem C45_up_to_date (cfg : LoaderCfg) (env : Env) (w : World) (h : (isUpdateRequired env w).1 = .ok false) :
    (update cfg env false w).1 = .ok () ∧ (update cfg env false w).2.fs = w.fs ∧
      (update cfg env false w).2.past = w.past := by
  rcases update_took cfg env false w with ⟨es, t, h0, k⟩ | ⟨s, k⟩
  · rcases k with ⟨a, _⟩ | ⟨hf, _⟩ | ⟨hf, _⟩
    · rw [h] at a; cases a
    · cases hf
    · cases hf
  · refine ⟨?_, s.1, s.2.1⟩
    rcases k with ⟨a, b⟩ | ⟨a, b⟩ | ⟨a, f, b⟩
    · rw [h] at a; cases a
    · rw [h] at a; cases a
    · exact b

/-- C45: if the check fails and nothing is forced, `Update` returns the error and the disk is never touched. -/
theorem C45_check_failed (cfg : LoaderCfg) (env : Env) (w : World) (h : (isUpdateRequired env w).1 = .err) :
    (update cfg env false w).1 = .err ∧ (update cfg env false w).2.fs = w.fs ∧
      (update cfg env false w).2.past = w.past := by
  rcases update_took cfg env false w with ⟨es, t, h0, k⟩ | ⟨s, k⟩
  · rcases k with ⟨a, _⟩ | ⟨hf, _⟩ | ⟨hf, _⟩
    · rw [h] at a; cases a
    · cases hf
    · cases hf
  · refine ⟨?_, s.1, s.2.1⟩
    rcases k with ⟨a, b⟩ | ⟨a, b⟩ | ⟨a, f, b⟩
    · rw [h] at a; cases a
    · exact b
    · rw [h] at a; cases a

/-! ## C55 — the check -/

/-- C55, where the archive can be examined: the check never panics; it answers "required" if the archive is missing;
it answers "not required" exactly if the server said 200 and its date is not later than the archive's or it gave no
date; it fails exactly if the archive exists and the server could not be asked. -/
theorem C55_partial (env : Env) (w : World) (hs : env.statErr w.n = false) :
    (isUpdateRequired env w).1 ≠ .panic ∧
    (w.fs.file .archive = none → (isUpdateRequired env w).1 = .ok true) ∧
    ((isUpdateRequired env w).1 = .ok false ↔ ∃ d lm, w.fs.file .archive = some d ∧
      env.head (w.n + 1) = .answer 200 lm ∧ (lm = .absent ∨ ∃ t, lm = .time t ∧ t ≤ d.mtime)) ∧
    ((isUpdateRequired env w).1 = .err ↔ w.fs.file .archive ≠ none ∧
      ∀ lm, env.head (w.n + 1) ≠ .answer 200 lm) := by
  unfold isUpdateRequired statFile
  rw [if_neg (by simp [hs])]
  cases hf : w.fs.file .archive with
  | none => simp
  | some d =>
    simp only [World.tick]
    cases hh : env.head (w.n + 1) with
    | fail => simp [compareTimes]
    | answer st lm =>
      unfold compareTimes
      by_cases h2 : st = 200
      · subst h2
        cases lm with
        | absent => simp
        | unreadable => simp
        | time t => simp
      · simp [h2]

/-- C55: "not required" is never answered while the server reports a later date. -/
theorem C55_sound (env : Env) (w : World) (d : FileData) (t : Int) (hd : w.fs.file .archive = some d)
    (hh : ∀ n, env.head n = .answer 200 (.time t)) (hlt : d.mtime < t) : (isUpdateRequired env w).1 ≠ .ok false := by
  unfold isUpdateRequired statFile
  by_cases hs : env.statErr w.n = true
  · rw [if_pos hs]; simp [hh, compareTimes]
  · rw [if_neg hs, hd]; simp only [World.tick, hh, compareTimes]; simp [hlt]

/-! ## Sample environments -/

/-- An environment in which nothing fails: the server offers `body`, changed at time `t`. -/
def quietEnv (body : Str) (t : Int) (clock : Nat → Int) (bunzip : Str → Str × Bool)
    (tokens : Str → List XTok × Bool) : Env where
  statErr := fun _ => false
  head := fun _ => .answer 200 (.time t)
  get := fun _ => .answer 200 body true
  mkdirErr := fun _ => false
  createErr := fun _ => false
  openErr := fun _ => false
  room := fun _ => none
  late := fun _ => false
  readable := fun _ => none
  removeErr := fun _ => false
  now := clock
  bunzip := bunzip
  tokens := tokens
  floatOK := fun _ => true

theorem quietEnv_calm (body t clock bz tk) : (quietEnv body t clock bz tk).Calm :=
  ⟨fun _ => rfl, fun _ => rfl, fun _ => rfl, fun _ => rfl, fun _ => rfl, fun _ => rfl⟩

/-- A small environment: an archive of three bytes that unpacks to itself and is an empty document. -/
def plainEnv : Env := quietEnv (str "abc") 10 (fun n => 100 + n) (fun s => (s, true)) (fun _ => ([], true))

/-- An empty data directory. -/
def emptyWorld : World := { fs := { dir := true, file := fun _ => none }, past := [], n := 0, ev := [] }

/-- An archive from time 50, nothing else. -/
def archiveWorld : World :=
  { emptyWorld with fs := { dir := true, file := fun f => if f = .archive then some ⟨str "abc", 50⟩ else none } }

/-- C55 fails in general: if the archive cannot be examined and the server gives a date, the check panics. -/
theorem not_C55 : ∃ (env : Env) (w : World), (isUpdateRequired env w).1 = .panic :=
  ⟨{ plainEnv with statErr := fun _ => true }, archiveWorld, rfl⟩

/-- C55 fails in general: the whole of `Update` panics then. -/
theorem not_C55_update : ∃ (env : Env) (w : World), (update ⟨true⟩ env true w).1 = .panic :=
  ⟨{ plainEnv with statErr := fun _ => true }, archiveWorld, rfl⟩

example : (isUpdateRequired plainEnv emptyWorld).1 = .ok true := rfl
example : (isUpdateRequired plainEnv archiveWorld).1 = .ok false := rfl
example : (update ⟨true⟩ plainEnv true emptyWorld).2.ev = [.downloaded true, .unpacked true, .compiled true] := by
  decide
example : (update ⟨true⟩ { plainEnv with head := fun _ => .fail } true archiveWorld).2.ev =
    [.unpacked true, .compiled true] := by decide

/-! ## C46 — a download that failed -/

/-- C46 fails: a download breaks off, the part received stays as the archive with the time of the failure, which is
later than the date the server gives; the next `Update` returns nil and does nothing. -/
theorem not_C46 : ∃ (broken healthy : Env) (w : World),
    (update ⟨true⟩ broken false w).1 = .err ∧
    broken.head = healthy.head ∧ (∀ n m, broken.now n < healthy.now m) ∧
    (∀ n, broken.get n = .answer 200 (str "ab") false) ∧ (∀ n, healthy.get n = .answer 200 (str "abc") true) ∧
    ((update ⟨true⟩ broken false w).2.fs.file .archive).map (·.data) = some (str "ab") ∧
    (isUpdateRequired healthy (update ⟨true⟩ broken false w).2).1 = .ok false ∧
    (update ⟨true⟩ healthy false (update ⟨true⟩ broken false w).2).1 = .ok () ∧
    ((update ⟨true⟩ healthy false (update ⟨true⟩ broken false w).2).2.fs.file .archive).map (·.data) =
      some (str "ab") :=
  ⟨{ plainEnv with get := fun _ => .answer 200 (str "ab") false, now := fun _ => 100 },
    { plainEnv with now := fun _ => 200 }, emptyWorld, by decide, rfl, fun _ _ => (by decide : (100 : Int) < 200), fun _ => rfl, fun _ => rfl,
    by decide, by decide, by decide, by decide⟩

/-- C46, for failures before the archive is opened for writing, and for later failures if the server's copy is newer
than the failure: after a download that failed the archive is as before, or the next check says that an update is
required whenever the server answers with an unreadable date or one after the failed attempt. -/
theorem C46_partial (cfg : LoaderCfg) (env : Env) (w w' : World) (h : downloadUpdate cfg env w = (.err, w')) :
    w'.fs.file .archive = w.fs.file .archive ∨
    ∃ d, w'.fs.file .archive = some d ∧ (∃ n, d.mtime = env.now n) ∧
      ∀ env' v lm, v.fs = w'.fs → env'.statErr v.n = false → env'.head (v.n + 1) = .answer 200 lm →
        (lm = .unreadable ∨ ∃ t, lm = .time t ∧ d.mtime < t) → (isUpdateRequired env' v).1 = .ok true := by
  unfold downloadUpdate at h
  have h1 := required_same env w
  cases e1 : isUpdateRequired env w with
  | mk r w1 =>
    rw [e1] at h h1
    simp only at h1
    cases r with
    | err => simp only [Prod.mk.injEq] at h; rw [← h.2, h1.1]; exact .inl rfl
    | panic => simp at h
    | ok b =>
      cases b with
      | false => simp at h
      | true =>
        simp only at h
        have h2 := (mkdir_wrote cfg env w1).2
        cases e2 : makeDataPath cfg env w1 with
        | mk b w2 =>
          rw [e2] at h h2
          obtain ⟨l, -, hl⟩ := h2
          have h2' : w2.fs.file .archive = w.fs.file .archive := by
            rw [hl w2.fs (by simp) .archive (fun h => h), h1.1]
          cases b with
          | false => simp only [Prod.mk.injEq] at h; rw [← h.2]; exact .inl h2'
          | true =>
            simp only at h
            cases e3 : env.get w2.n with
            | fail => rw [e3] at h; simp only [Prod.mk.injEq] at h; rw [← h.2]; exact .inl h2'
            | answer st body c =>
              rw [e3] at h
              simp only at h
              unfold createFile at h
              by_cases hc : env.createErr w2.tick.n = true ∨ w2.tick.fs.dir = false
              · rw [if_pos hc] at h
                simp only [Prod.mk.injEq] at h; rw [← h.2]; exact .inl h2'
              · rw [if_neg hc] at h
                simp only [copyTo] at h
                right
                split at h
                · rename_i e4
                  simp only [Prod.mk.injEq, true_and] at h e4
                  rw [← h, ← e4.2]
                  refine ⟨_, put_self _ _ _, ⟨_, rfl⟩, ?_⟩
                  intro env' v lm hv hs hh hlm
                  unfold isUpdateRequired statFile
                  rw [if_neg (by simp [hs]), hv]
                  simp only [World.grow, World.tick, put_self]
                  rw [hh]
                  unfold compareTimes
                  rcases hlm with rfl | ⟨t, rfl, hlt⟩
                  · simp
                  · simp only [ne_eq, not_true_eq_false, if_false]
                    exact congrArg LRes.ok (decide_eq_true hlt)
                · cases h

/-! ## C47, C57, C58 — saving and loading -/

/-- C47: while an index is being saved, the disk is at every point as before, or `LoadIndex` fails, or it returns the
index that is being saved. If saving fails, the disk is as before or `LoadIndex` fails. -/
theorem C47 (env : Env) (ix : Index) (w : World) (hl : ix.optimize.1.InLimits) :
    (∃ l, (saveIndex env ix w).2.past = w.past ++ l ∧ ∀ fs ∈ l ++ [(saveIndex env ix w).2.fs],
      fs = w.fs ∨ LoadFails fs ∨
        ∃ ix', Index.new.load ix.optimize.1.save.bytes = .ok (ix', []) ∧ LoadsAtMost fs ix') ∧
    ((saveIndex env ix w).1 ≠ .ok () → (saveIndex env ix w).2.fs = w.fs ∨ LoadFails (saveIndex env ix w).2.fs) ∧
    ∀ g, g ≠ .compiled → (saveIndex env ix w).2.fs.file g = w.fs.file g := by
  obtain ⟨l, h1, h2, h3, h4⟩ := save_states env ix w
  refine ⟨⟨l, h1, ?_⟩, ?_, ?_⟩
  · intro fs hfs
    rcases h2 fs hfs with h | h | ⟨p, t, h, hp⟩
    · exact .inl h
    · exact .inr (.inl (load_missing h))
    · rcases state_cases hl h hp with hx | ⟨-, -, ix', a, b, -⟩
      · exact .inr (.inl hx)
      · exact .inr (.inr ⟨ix', a, b⟩)
  · intro hr
    rcases h3 hr with h | h | ⟨p, t, h, hp, hne⟩
    · exact .inl h
    · exact .inr (load_missing h)
    · rcases state_cases hl h hp with hx | ⟨a, b, c, hc, _⟩
      · exact .inr hx
      · exfalso
        rcases hne with rfl | hne | hne
        · rw [← a] at hc; cases hc
        · exact hne b
        · exact hne a
  · intro g hg
    obtain ⟨m, -, hm⟩ := (save_wrote env ix w).2
    exact hm _ (by simp) g hg

/-- C57, if no write error goes unnoticed until the file is closed: if `SaveIndex` returns nil, `LoadIndex` (once it
can open and read the file) returns an index with the same answers. -/
theorem C57_partial (h : List Op) (m : Room h) (ht : PlainTags (execAll h).tags) (env : Env) (w : World)
    (hlate : ∀ n, env.late n = false) (hok : (saveIndex env (execAll h) w).1 = .ok ()) :
    ∃ ix', LoadsTo (saveIndex env (execAll h) w).2.fs ix' ∧ SameAnswersExceptNul (execAll h) ix' := by
  obtain ⟨r1, -⟩ := run_of_room _ m
  obtain ⟨r2, o2⟩ := run_of_room _ m.optimize
  have e2 : execAll (h ++ [.optimize]) = (execAll h).optimize.1 := by
    unfold execAll; rw [List.foldl_append]; rfl
  rw [e2] at r2 o2
  have hl : (execAll h).optimize.1.InLimits := (o2.allowed r2.refines.1 m.optimize .reload).1
  obtain ⟨-, s⟩ := C23 r1
  obtain ⟨-, ix', hload, same, -⟩ := C17 r2 hl (by rw [s.tags]; exact ht)
  obtain ⟨l, -, -, -, h4⟩ := save_states env (execAll h) w
  obtain ⟨-, hs, t, n, hf, hn⟩ := h4 hok
  rw [hn (hlate n)] at hf
  refine ⟨ix', ?_, ?_⟩
  · rcases state_cases hl hf (List.prefix_refl _) with hx | ⟨-, -, ix2, a, -, b⟩
    · exfalso
      have := hx { plainEnv with openErr := fun _ => false } (saveIndex env (execAll h) w).2 rfl
      unfold loadIndex openFile at this
      rw [hf] at this
      simp only [Bool.false_eq_true, if_false, plainEnv, quietEnv, accepted, hload] at this
      cases this
    · rw [a] at hload
      simp only [Out.ok.injEq, Prod.mk.injEq, and_true] at hload
      rw [← hload]; exact b
  · exact {
      fetch := fun id rs hq => (same.fetch id rs hq).trans (s.fetch id rs)
      fetchItem := fun id rs hq => (same.fetchItem id rs hq).trans (s.fetchItem id rs)
      get := fun id => (same.get id).trans (s.get id)
      word := fun id => (same.word id).trans (s.word id)
      tagSets := fun id => (same.tagSets id).trans (s.tagSets id)
      children := fun id r hq => (same.children id r hq).trans (by rw [s.children])
      tags := same.tags.trans s.tags
      nodesCount := same.nodesCount.trans s.nodesCount
      wordsCount := same.wordsCount.trans s.wordsCount }

/-- C57: `SaveIndex` returns nil if nothing fails and the data directory exists. -/
theorem C57_succeeds (h : List Op) (m : Room h) (ht : PlainTags (execAll h).tags) (env : Env) (w : World)
    (hc : env.Calm) (hd : w.fs.dir = true) : (saveIndex env (execAll h) w).1 = .ok () := by
  obtain ⟨r1, -⟩ := run_of_room _ m
  obtain ⟨r2, o2⟩ := run_of_room _ m.optimize
  have e2 : execAll (h ++ [.optimize]) = (execAll h).optimize.1 := by
    unfold execAll; rw [List.foldl_append]; rfl
  rw [e2] at r2 o2
  have hl : (execAll h).optimize.1.InLimits := (o2.allowed r2.refines.1 m.optimize .reload).1
  obtain ⟨ho, s⟩ := C23 r1
  obtain ⟨hs, -⟩ := C17 r2 hl (by rw [s.tags]; exact ht)
  unfold saveIndex createFile
  rw [if_neg (by simp [hc.create, hd])]
  simp only
  obtain ⟨ix', o, he⟩ : ∃ ix' o, (execAll h).optimize = (ix', o) := ⟨_, _, rfl⟩
  rw [he] at hs ho
  simp only at hs ho
  subst ho
  rw [he]
  simp only
  rw [if_neg]
  rintro (hx | ⟨hx, -⟩)
  · exact hx hs
  · rw [hc.room] at hx; exact hx rfl

/-- The hypotheses of C57 are met: the index of the sample document, saved without failures into an empty directory. -/
example : ∃ ix', LoadsTo (saveIndex plainEnv (execAll (callsOf (entriesOf sampleDoc))) emptyWorld).2.fs ix' ∧
    SameAnswersExceptNul (execAll (callsOf (entriesOf sampleDoc))) ix' := by
  have m := room_of_doc sampleDoc_declared sampleDoc_room
  have ht : PlainTags (execAll (callsOf (entriesOf sampleDoc))).tags := by
    rw [(room_runs _ m).tag.tags, callsOf_tags]
    exact plain_declared sampleDoc_room
  exact C57_partial _ m ht plainEnv emptyWorld (fun _ => rfl)
    (C57_succeeds _ m ht plainEnv emptyWorld (quietEnv_calm _ _ _ _ _) rfl)

/-- C57 fails in general: if the bytes are lost only when the file is closed, `SaveIndex` returns nil, but the index
cannot be loaded. -/
theorem not_C57 : ∃ (env : Env) (w : World), (saveIndex env Index.new w).1 = .ok () ∧
    LoadFails (saveIndex env Index.new w).2.fs := by
  refine ⟨{ plainEnv with room := fun _ => some 4, late := fun _ => true }, emptyWorld, by decide, ?_⟩
  refine load_prefix (p := [84, 68, 0, 0]) (t := 101) (by decide) ?_
  intro q hq
  have hl : Index.new.optimize.1.InLimits := by constructor <;> decide
  have hp : ([84, 68, 0, 0] : Str) <+: Index.new.optimize.1.save.bytes := by decide
  rcases prefix_cases hl (hq.trans hp) with h | ⟨h, -⟩
  · exact h
  · exfalso
    have h1 := hq.length_le
    rw [h] at h1
    exact absurd h1 (by decide)

/-- C58: an import that fails before it has an index to save leaves the compiled index as it was. -/
theorem C58_partial (env : Env) (w : World) (s : PState) (e : PErr) (bytes : Str) (whole : Bool) (w1 : World)
    (ho : openFile env .xml w = (some (bytes, whole), w1))
    (he : (PState.init Index.new 0).run env.floatOK (env.tokens bytes).1 = (s, some e)) (hc : e ≠ .controlledStop) :
    (parseUpdate env w).1 = .err ∧ (parseUpdate env w).2.fs = w.fs ∧ (parseUpdate env w).2.past = w.past := by
  have h1 := open_same env .xml w
  rw [ho] at h1
  simp only at h1
  subst h1
  unfold parseUpdate
  rw [ho]
  simp only [he]
  rw [if_neg (by simp [hc])]
  exact ⟨rfl, rfl, rfl⟩

/-- A data directory with a compiled index (of the empty dictionary). -/
def compiledWorld : World :=
  { emptyWorld with
    fs := { dir := true, file := fun f => if f = .compiled then some ⟨Index.new.save.bytes, 50⟩ else none } }

/-- C58 fails in general: saving a new index over an old one fails because the disk is full, and the old index,
which could be loaded before, is gone. -/
theorem not_C58 : ∃ (env : Env) (w : World) (old : Index), LoadsTo w.fs old ∧
    (saveIndex env Index.new w).1 = .err ∧ LoadFails (saveIndex env Index.new w).2.fs := by
  have hl : Index.new.InLimits := by constructor <;> decide
  refine ⟨{ plainEnv with room := fun _ => some 4 }, compiledWorld, Index.loaded Index.new Index.new, ?_,
    by decide, load_missing (by decide)⟩
  have hld := RT_load Index.new hl ((save_err Index.new).1 (by decide)) []
  rw [List.append_nil] at hld
  refine (load_full rfl hld ?_).2
  intro q hq hne
  exact (prefix_cases hl hq).resolve_right fun x => hne x.1

/-! ## C48 — a forced recompile -/

theorem exists_eq (env : Env) (f : FName) (w : World) (h : env.statErr w.n = false) :
    (fileExists env f w).1 = (w.fs.file f).isSome := by
  unfold fileExists statFile
  rw [if_neg (by simp [h])]
  cases w.fs.file f <;> rfl

/-- C48, if the unpacked file is there or the check failed: a forced recompile with the archive present reaches
compilation — directly if the unpacked file is there, else after unpacking (unless that fails). -/
theorem C48_partial (cfg : LoaderCfg) (env : Env) (w : World) (hs : ∀ n, env.statErr n = false)
    (ha : w.fs.file .archive ≠ none) (hr : (isUpdateRequired env w).1 ≠ .ok true) :
    (w.fs.file .xml ≠ none → ∃ b, (update cfg env true w).2.ev = w.ev ++ [.compiled b]) ∧
    (w.fs.file .xml = none → (isUpdateRequired env w).1 = .err →
      (update cfg env true w).2.ev = w.ev ++ [.unpacked false] ∨
      ∃ b, (update cfg env true w).2.ev = w.ev ++ [.unpacked true, .compiled b]) := by
  have hp := (C55_partial env w (hs _)).1
  unfold update
  have h1 := required_same env w
  cases e1 : isUpdateRequired env w with
  | mk r w1 =>
    rw [e1] at h1 hr hp
    simp only at h1 hr hp
    have ea := exists_eq env .archive w1 (hs _)
    have h2 := exists_same env .archive w1
    cases e2 : fileExists env .archive w1 with
    | mk dl w2 =>
      rw [e2] at h2 ea
      simp only at h2 ea
      subst h2
      have ex := exists_eq env .xml w1.tick (hs _)
      have h3 := exists_same env .xml w1.tick
      cases e3 : fileExists env .xml w1.tick with
      | mk un w3 =>
        rw [e3] at h3 ex
        simp only at h3 ex
        subst h3
        have hs' : Same w w1.tick.tick := (h1.trans (tick_same _)).trans (tick_same _)
        have ea' : dl = true := by
          rw [ea, h1.1]
          cases hf : w.fs.file .archive with
          | none => exact absurd hf ha
          | some d => rfl
        have ex' : un = (w.fs.file .xml).isSome := by rw [ex]; show (w1.fs.file .xml).isSome = _; rw [h1.1]
        obtain ⟨b, hb⟩ := compile_took env w1.tick.tick
        constructor
        · intro hx
          have hu : un = true := by
            rw [ex']
            cases hf : w.fs.file .xml with
            | none => exact absurd hf hx
            | some d => rfl
          subst hu
          refine ⟨b, ?_⟩
          cases r with
          | panic => exact absurd rfl hp
          | err => simp only [e2, e3, decideUpdate]; exact (hb.same hs').ev
          | ok q =>
            cases q with
            | true => exact absurd rfl hr
            | false => simp only [e2, e3, decideUpdate]; exact (hb.same hs').ev
        · intro hx herr
          have hu : un = false := by rw [ex', hx]; rfl
          subst hu ea'
          simp only at herr
          subst herr
          simp only [e2, e3, decideUpdate, Bool.and_false, Bool.false_eq_true, if_false, Bool.and_self, if_true]
          rcases unpack_took cfg env w1.tick.tick with hu | ⟨b, hu⟩
          · exact .inl (hu.same hs').ev
          · exact .inr ⟨b, (hu.same hs').ev⟩

/-- C48 fails in general: with an up-to-date archive and no unpacked file (and nothing failing), a forced recompile
goes straight to compilation and returns an error; the archive is not unpacked. -/
theorem not_C48 : ∃ (env : Env) (w : World), env.Calm ∧ w.fs.file .archive ≠ none ∧ w.fs.file .xml = none ∧
    (update ⟨true⟩ env true w).1 = .err ∧ (update ⟨true⟩ env true w).2.ev = w.ev ++ [.compiled false] ∧
    (update ⟨true⟩ env true w).2.fs.file .xml = none :=
  ⟨plainEnv, archiveWorld, quietEnv_calm _ _ _ _ _, by decide, by decide, by decide, by decide, by decide⟩

/-! ## C59 – C61 -/

/-- C59: what `DownloadUpdate` reports as downloaded is the complete body of an answer of the server. -/
theorem C59_partial (cfg : LoaderCfg) (env : Env) (w w' : World) (h : downloadUpdate cfg env w = (.ok true, w')) :
    ∃ n status body d, env.get n = .answer status body true ∧ w'.fs.file .archive = some d ∧ d.data = body := by
  unfold downloadUpdate at h
  cases e1 : isUpdateRequired env w with
  | mk r w1 =>
    rw [e1] at h
    cases r with
    | err => simp at h
    | panic => simp at h
    | ok b =>
      cases b with
      | false => simp at h
      | true =>
        simp only at h
        cases e2 : makeDataPath cfg env w1 with
        | mk b w2 =>
          rw [e2] at h
          cases b with
          | false => simp at h
          | true =>
            simp only at h
            cases e3 : env.get w2.n with
            | fail => rw [e3] at h; simp at h
            | answer st body c =>
              rw [e3] at h
              simp only at h
              unfold createFile at h
              by_cases hc : env.createErr w2.tick.n = true ∨ w2.tick.fs.dir = false
              · rw [if_pos hc] at h; simp at h
              · rw [if_neg hc] at h
                simp only [copyTo] at h
                split at h
                · cases h
                · rename_i e4
                  simp only [Prod.mk.injEq, true_and, Bool.and_eq_true, decide_eq_true_eq] at h e4
                  obtain ⟨⟨rfl, e5⟩, rfl⟩ := e4
                  rw [← h]
                  exact ⟨_, _, _, _, e3, put_self _ _ _, e5⟩

/-- C59 fails: an error page of the server is stored as the archive, and `DownloadUpdate` reports success. -/
theorem not_C59 : ∃ (env : Env) (w : World), (∀ n, env.get n = .answer 404 (str "not found") true) ∧
    (downloadUpdate ⟨true⟩ env w).1 = .ok true ∧
    ((downloadUpdate ⟨true⟩ env w).2.fs.file .archive).map (·.data) = some (str "not found") :=
  ⟨{ plainEnv with get := fun _ => .answer 404 (str "not found") true }, emptyWorld, fun _ => rfl, by decide,
    by decide⟩

theorem create_no_dir (env : Env) (f : FName) (w : World) (h : w.fs.dir = false) :
    createFile env f w = (false, w.tick) := by
  unfold createFile; rw [if_pos (.inr h)]

/-- C60 fails: a loader with its own data path whose directory does not exist yet can never download anything, though
nothing fails; with the default path it can. -/
theorem not_C60 (env : Env) (w : World) (hd : w.fs.dir = false) :
    (downloadUpdate ⟨false⟩ env w).1 ≠ .ok true ∧ (downloadUpdate ⟨false⟩ env w).2.fs = w.fs := by
  unfold downloadUpdate
  have h1 := required_same env w
  cases e1 : isUpdateRequired env w with
  | mk r w1 =>
    rw [e1] at h1
    cases r with
    | err => exact ⟨by simp, h1.1⟩
    | panic => exact ⟨by simp, h1.1⟩
    | ok b =>
      cases b with
      | false => exact ⟨by simp, h1.1⟩
      | true =>
        simp only [makeDataPath]
        by_cases hm : env.mkdirErr w1.n = true
        · rw [if_pos hm]; exact ⟨by simp, h1.1⟩
        · rw [if_neg hm]
          simp only [Bool.false_eq_true, if_false]
          cases env.get w1.tick.n with
          | fail => exact ⟨by simp, h1.1⟩
          | answer st body c =>
            simp only
            rw [create_no_dir env .archive w1.tick.tick (by show w1.fs.dir = false; rw [h1.1, hd])]
            exact ⟨by simp, h1.1⟩

/-- C60, for the default path: the data directory is made before it is needed. -/
theorem C60_partial (env : Env) (w : World) (hm : env.mkdirErr w.n = false) :
    (makeDataPath ⟨true⟩ env w).1 = true ∧ (makeDataPath ⟨true⟩ env w).2.fs.dir = true := by
  unfold makeDataPath
  rw [if_neg (by simp [hm])]
  exact ⟨rfl, rfl⟩

/-- C61 fails: after an update whose unpacking failed, the next `Update` returns nil (nothing failing any more), yet
there is no index to load. -/
theorem not_C61 : ∃ (broken healthy : Env) (w : World), (update ⟨true⟩ broken false w).1 = .err ∧ healthy.Calm ∧
    broken.get = healthy.get ∧ (update ⟨true⟩ healthy false (update ⟨true⟩ broken false w).2).1 = .ok () ∧
    LoadFails (update ⟨true⟩ healthy false (update ⟨true⟩ broken false w).2).2.fs :=
  ⟨{ plainEnv with room := fun n => if n = 11 then some 0 else none }, plainEnv, emptyWorld, by decide,
    quietEnv_calm _ _ _ _ _, rfl, by decide, load_missing (by decide)⟩

end Verif
