import Verif.Lemmas.UpdateText
import Verif.Props.UpdateLog

/-!
# C119 — the bytes of the loader's log tell what an update did

`LogLine.bytes` (`Model/UpdateText.lean`) is a message as it is given to the logger: a level and a text. `UpdateTexts`
(`Spec/UpdateText.lean`) are the logs of an update with all the texts that errors, times and headers may have in them.
-/

namespace Verif

/-- C119, the messages: whatever the texts of errors, times and headers are, and whichever levels the logger lets through
as long as warnings are among them, if the bytes of the logs of two updates are the same, the messages are the same, with
the numbers and files in them, and so are the texts they show. -/
theorem C119_lines (dataPath : Str) (keep : LogLevel → Bool) (hk : keep .warn = true)
    {cfg cfg' : LoaderCfg} {env env' : Env} {force force' : Bool} {w w' : World} {A B : List (LogLine × Str)}
    (hA : UpdateTexts cfg env force w A) (hB : UpdateTexts cfg' env' force' w' B)
    (h : (heard keep A).map (LogLine.bytes dataPath) = (heard keep B).map (LogLine.bytes dataPath)) :
    (heard keep A).map LogLine.readable = (heard keep B).map LogLine.readable := by
  refine map_eq_map_of h fun a ha b hb hab => ?_
  have ht : a.1.text dataPath a.2 = b.1.text dataPath b.2 := (Prod.mk.inj hab).2
  rcases same_text ht with h1 | ⟨f1, f2⟩
  · exact h1
  · have ha' : a ∈ A := (List.mem_filter.1 ha).1
    have hb' : b ∈ B := (List.mem_filter.1 hb).1
    have hl : a.1 ∈ updateLog cfg env force w := hA.lines ▸ List.mem_map.2 ⟨a, ha', rfl⟩
    have hfail : (isUpdateRequired env w).1 = .err := by
      refine (update_says cfg env force w).2.2.2.2.1 ?_
      rcases form_failed f1 with e | e | e <;> rw [e] at hl
      · exact .inr (.inl hl)
      · exact .inr (.inr hl)
      · exact .inl hl
    have hsub : ∀ l ∈ requiredLog env w, ∃ x, (l, x) ∈ A := by
      intro l hl
      have : l ∈ A.map Prod.fst := by
        rw [hA.lines]
        unfold updateLog
        exact .tail _ (List.mem_append.2 (.inl hl))
      obtain ⟨⟨l', x⟩, hm, rfl⟩ := List.mem_map.1 this
      exact ⟨x, hm⟩
    -- the message about the answer of the server is in both logs
    have key : ∃ c ∈ A, ∃ d ∈ B, ∃ e, checkError c = some e ∧ checkError d = some e := by
      have pair : ∀ (l : LogLine) (x : Str), l.level = .warn → (l, x) ∈ A → ∃ d ∈ B,
          l.text dataPath x = d.1.text dataPath d.2 := by
        intro l x hv hm
        have : LogLine.bytes dataPath (l, x) ∈ (heard keep B).map (LogLine.bytes dataPath) := by
          rw [← h]
          exact List.mem_map.2 ⟨_, List.mem_filter.2 ⟨hm, by simp only; rw [hv]; exact hk⟩, rfl⟩
        obtain ⟨d, hd, e⟩ := List.mem_map.1 this
        exact ⟨d, (List.mem_filter.1 hd).1, (Prod.mk.inj e).2.symm⟩
      rcases failed_why hfail with hm | ⟨s, hm⟩
      · obtain ⟨x, hx⟩ := hsub _ hm
        obtain ⟨⟨d, y⟩, hd, e⟩ := pair _ x rfl hx
        rcases same_text e with h2 | ⟨h2, -⟩
        · have h3 : LogLine.remoteError = d.timeless := (Prod.mk.inj h2).1
          have h4 : d = .remoteError := by cases d <;> simp [LogLine.timeless] at h3; rfl
          subst h4
          have h5 : x = y := (Prod.mk.inj h2).2
          exact ⟨_, hx, _, hd, x, rfl, by rw [h5]; rfl⟩
        · cases h2
      · obtain ⟨x, hx⟩ := hsub _ hm
        obtain ⟨⟨d, y⟩, hd, e⟩ := pair _ x rfl hx
        rcases same_text e with h2 | ⟨h2, -⟩
        · have h3 : LogLine.remoteStatus s = d.timeless := (Prod.mk.inj h2).1
          have h4 : d = .remoteStatus s := by
            cases d <;> simp [LogLine.timeless] at h3
            rw [h3]
          subst h4
          exact ⟨_, hx, _, hd, _, rfl, rfl⟩
        · cases h2
    obtain ⟨c, hc, d, hd, e, e1, e2⟩ := key
    have x1 := hA.error a ha' (form_failed f1) c hc e e1
    have x2 := hB.error b hb' (form_failed f2) d hd e e2
    obtain ⟨l, x⟩ := a
    obtain ⟨l', x'⟩ := b
    simp only at x1 x2
    subst x1
    subst x2
    have := same_failed f1 f2 ht
    simp only at this
    rw [this]

/-- C119: if a logger lets all but debug messages through (or those too), the same bytes mean the same update: both return
an error, both succeed or both panic, the same steps were taken in the same order with the same success, and the check for
updates came to the same. With the debug messages, the numbers of words and nodes and the sizes of the files found were the
same too. -/
theorem C119 (dataPath : Str) (keep : LogLevel → Bool) (hk : ∀ v, v ≠ .debug → keep v = true)
    {cfg cfg' : LoaderCfg} {env env' : Env} {force force' : Bool} {w w' : World} {A B : List (LogLine × Str)}
    (hA : UpdateTexts cfg env force w A) (hB : UpdateTexts cfg' env' force' w' B)
    (h : (heard keep A).map (LogLine.bytes dataPath) = (heard keep B).map (LogLine.bytes dataPath)) :
    (update cfg env force w).1 = (update cfg' env' force' w').1 ∧
    (∃ steps, (update cfg env force w).2.ev = w.ev ++ steps ∧ (update cfg' env' force' w').2.ev = w'.ev ++ steps) ∧
    (isUpdateRequired env w).1 = (isUpdateRequired env' w').1 ∧
    (keep .debug = true →
      (∀ words nodes, .indexed words nodes ∈ updateLog cfg env force w ↔
        .indexed words nodes ∈ updateLog cfg' env' force' w') ∧
      ∀ f size, (∃ m, .fileFound f m size ∈ updateLog cfg env force w) ↔
        ∃ m, .fileFound f m size ∈ updateLog cfg' env' force' w') := by
  have hl : heardLines keep (updateLog cfg env force w) = heardLines keep (updateLog cfg' env' force' w') := by
    rw [← hA.lines, ← hB.lines, ← heard_lines, ← heard_lines, C119_lines dataPath keep (hk _ (by simp)) hA hB h]
  have hloud : heardLines (fun v => decide (v ≠ .debug)) (updateLog cfg env force w) =
      heardLines (fun v => decide (v ≠ .debug)) (updateLog cfg' env' force' w') := by
    rw [heardLines_loud hk, heardLines_loud hk, hl]
  obtain ⟨t, u, d, -, f⟩ := C116_partial cfg env force w
  obtain ⟨t', u', d', -, f'⟩ := C116_partial cfg' env' force' w'
  have same : ∀ m : LogLine, m.level ≠ .debug → (∀ k : LogLine, k.timeless = m ↔ k = m) →
      (m ∈ updateLog cfg env force w ↔ m ∈ updateLog cfg' env' force' w') := by
    intro m hm ht
    rw [← heardLines_mem (hk _ hm) ht, hl, heardLines_mem (hk _ hm) ht]
  have up := same .upToDate (by simp [LogLine.level]) (fun k => by cases k <;> simp [LogLine.timeless])
  have dl := same .downloading (by simp [LogLine.level]) (fun k => by cases k <;> simp [LogLine.timeless])
  have cf := same .checkFailed (by simp [LogLine.level]) (fun k => by cases k <;> simp [LogLine.timeless])
  have ru := same .recompileUnpacked (by simp [LogLine.level]) (fun k => by cases k <;> simp [LogLine.timeless])
  have rd := same .recompileDownloaded (by simp [LogLine.level]) (fun k => by cases k <;> simp [LogLine.timeless])
  have hcheck : (isUpdateRequired env w).1 = (isUpdateRequired env' w').1 := by
    have e0 := u.symm.trans (up.trans u')
    have e1 := d.symm.trans (dl.trans d')
    have e2 : (isUpdateRequired env w).1 = .err ↔ (isUpdateRequired env' w').1 = .err :=
      f.symm.trans ((or_congr cf (or_congr ru rd)).trans f')
    revert e0 e1 e2
    generalize (isUpdateRequired env w).1 = a
    generalize (isUpdateRequired env' w').1 = b
    intro e0 e1 e2
    rcases a with (_ | _) | _ | _
    · exact (e0.1 rfl).symm
    · exact (e1.1 rfl).symm
    · exact (e2.1 rfl).symm
    · rcases b with (_ | _) | _ | _
      · exact e0.2 rfl
      · exact e1.2 rfl
      · exact e2.2 rfl
      · rfl
  have hpan : (update cfg env force w).1 = .panic ↔ (update cfg' env' force' w').1 = .panic := by
    constructor
    · intro hp
      by_contra hp'
      refine heardLines_aloud (update_aloud _ _ _ _ hp') ?_
      rw [← hloud]
      exact heardLines_checking (update_panic hp).1
    · intro hp'
      by_contra hp
      refine heardLines_aloud (update_aloud _ _ _ _ hp) ?_
      rw [hloud]
      exact heardLines_checking (update_panic hp').1
  have hmain : (update cfg env force w).1 = (update cfg' env' force' w').1 ∧
      ∃ steps, (update cfg env force w).2.ev = w.ev ++ steps ∧ (update cfg' env' force' w').2.ev = w'.ev ++ steps := by
    by_cases hp : (update cfg env force w).1 = .panic
    · refine ⟨by rw [hp, hpan.1 hp], ?_⟩
      have hp' := hpan.1 hp
      rcases (update_panic hp).2 with ⟨c, s⟩ | ⟨c, s⟩ <;> rcases (update_panic hp').2 with ⟨c', s'⟩ | ⟨c', s'⟩ <;>
        first
          | exact ⟨_, s, s'⟩
          | (rw [c, c'] at hcheck; exact absurd hcheck (by simp))
    · have hp' := fun h => hp (hpan.2 h)
      have t := t hp
      have t' := t' hp'
      have l := update_aloud cfg env force w hp
      have l' := update_aloud cfg' env' force' w' hp'
      refine ⟨?_, toldSteps (updateLog cfg env force w), t.steps, ?_⟩
      · have he : (update cfg env force w).1 = .err ↔ (update cfg' env' force' w').1 = .err := by
          rw [t.failed, t'.failed, ← heardLines_ends hk l, hl, heardLines_ends hk l']
        cases h1 : (update cfg env force w).1 with
        | panic => exact absurd h1 hp
        | err => exact (he.1 h1).symm
        | ok a =>
          cases h2 : (update cfg' env' force' w').1 with
          | panic => exact absurd h2 hp'
          | err => rw [he.2 h2] at h1; cases h1
          | ok b => rfl
      · rw [t'.steps, ← heardLines_steps hk l', ← hl, heardLines_steps hk l]
  refine ⟨hmain.1, hmain.2, hcheck, fun hd => ⟨fun words nodes => ?_, fun f size => ?_⟩⟩
  · rw [← heardLines_mem (keep := keep) (l := .indexed words nodes) hd (fun k => by cases k <;> simp [LogLine.timeless]),
      hl, heardLines_mem (l := .indexed words nodes) hd (fun k => by cases k <;> simp [LogLine.timeless])]
  · rw [← heardLines_size hd, hl, heardLines_size hd]

/-- A message whose text is in a log is in it. -/
theorem text_mem {dataPath : Str} {A : List (LogLine × Str)} {log : List LogLine} (hA : A.map Prod.fst = log) {l : LogLine}
    (hf : l.form ≠ 15) (hl : ∀ k : LogLine, k.timeless = l.timeless ↔ k = l) :
    (∃ x, LogLine.bytes dataPath (l, x) ∈ A.map (LogLine.bytes dataPath)) ↔ l ∈ log := by
  subst hA
  constructor
  · rintro ⟨x, h⟩
    obtain ⟨m, hm, e⟩ := List.mem_map.1 h
    rcases same_text (Prod.mk.inj e).2 with h1 | ⟨-, h1⟩
    · exact List.mem_map.2 ⟨m, hm, (hl m.1).1 (Prod.mk.inj h1).1⟩
    · exact absurd h1 hf
  · intro h
    obtain ⟨⟨l, x⟩, hm, rfl⟩ := List.mem_map.1 h
    exact ⟨x, List.mem_map.2 ⟨_, hm, rfl⟩⟩

/-- C119, in words: what the lines of the log of `Update` say is so. Its last line is an error exactly if an error is
returned; "lemmata up to date" and "update required, downloading" are what the check came to; the steps are told by
"downloaded, unpacking", "download: …", "lemmata updated, compile", "unpack: …", "compile: …" and, as the last line,
"compiled index saved at …"; "indexed … words … nodes" are the numbers of words and of nodes. -/
theorem C119_text (dataPath : Str) {cfg : LoaderCfg} {env : Env} {force : Bool} {w : World} {A : List (LogLine × Str)}
    (hA : A.map Prod.fst = updateLog cfg env force w) (hp : (update cfg env force w).1 ≠ .panic) :
    let log := A.map (LogLine.bytes dataPath)
    ((update cfg env force w).1 = .err ↔ ∃ x, log.getLast? = some (.error, x)) ∧
    ((.info, str "lemmata up to date") ∈ log ↔ (isUpdateRequired env w).1 = .ok false) ∧
    ((.info, str "update required, downloading") ∈ log ↔ (isUpdateRequired env w).1 = .ok true) ∧
    (∃ steps, (update cfg env force w).2.ev = w.ev ++ steps ∧
      (.downloaded true ∈ steps ↔ (.info, str "downloaded, unpacking") ∈ log) ∧
      (.downloaded false ∈ steps ↔ ∃ x, (.error, str "download: " ++ x) ∈ log) ∧
      (.notUpdated ∈ steps ↔ (.warn, str "files not updated, no errors") ∈ log) ∧
      (.unpacked true ∈ steps ↔ (.info, str "lemmata updated, compile") ∈ log) ∧
      (.unpacked false ∈ steps ↔ ∃ x, (.error, str "unpack: " ++ x) ∈ log) ∧
      (.compiled true ∈ steps ↔
        log.getLast? = some (.info, str "compiled index saved at " ++ loaderFilePath dataPath .compiled)) ∧
      (.compiled false ∈ steps ↔ ∃ x, (.error, str "compile: " ++ x) ∈ log)) ∧
    ∀ words nodes, (.debug, str "indexed " ++ (itoa words ++ (str " words " ++ (itoa nodes ++ str " nodes")))) ∈ log →
      ∃ d s, (update cfg env force w).2.fs.file .xml = some d ∧
        (PState.init Index.new 0).run env.floatOK (env.tokens d.data).1 = (s, none) ∧
        words = s.ix.wordsCount ∧ nodes = s.ix.nodesCount := by
  intro log
  obtain ⟨t, u, d, -, -⟩ := C116_partial cfg env force w
  have t := t hp
  have hlast : log.getLast? = A.getLast?.map (LogLine.bytes dataPath) := List.getLast?_map
  have hlast' : (updateLog cfg env force w).getLast? = A.getLast?.map Prod.fst := by rw [← hA, List.getLast?_map]
  have fixed : ∀ l : LogLine, l.form ≠ 15 → (∀ k : LogLine, k.timeless = l.timeless ↔ k = l) →
      (∀ x, l.text dataPath x = l.text dataPath []) → ((l.level, l.text dataPath []) ∈ log ↔ l ∈ updateLog cfg env force w) := by
    intro l h1 h2 h3
    rw [← text_mem (dataPath := dataPath) hA h1 h2]
    constructor
    · exact fun h => ⟨[], h⟩
    · rintro ⟨x, h⟩
      have : LogLine.bytes dataPath (l, x) = (l.level, l.text dataPath []) := by
        unfold LogLine.bytes; simp only; rw [h3]
      rw [← this]
      exact h
  have savedOnly : ∀ e : Ev, (∀ b, e ≠ .compiled b) → (e ∈ toldSteps (updateLog cfg env force w) ↔
      ∃ l ∈ updateLog cfg env force w, l.tells = some e) := by
    intro e he
    unfold toldSteps
    rw [List.mem_append, List.mem_filterMap]
    refine or_iff_left ?_
    split
    · simpa using he true
    · simp
  refine ⟨?_, ?_, ?_, ⟨_, t.steps, ?_, ?_, ?_, ?_, ?_, ?_, ?_⟩, ?_⟩
  · rw [t.failed]
    unfold EndsInError
    rw [hlast, hlast']
    cases A.getLast? with
    | none => simp
    | some m =>
      simp only [Option.map_some, Option.some.injEq, LogLine.bytes, Prod.mk.injEq]
      constructor
      · rintro ⟨l, rfl, h⟩; exact ⟨_, h, rfl⟩
      · rintro ⟨x, h, -⟩; exact ⟨_, rfl, h⟩
  · rw [← u]
    exact fixed .upToDate (by decide) (fun k => by cases k <;> simp [LogLine.timeless]) (fun _ => rfl)
  · rw [← d]
    exact fixed .downloading (by decide) (fun k => by cases k <;> simp [LogLine.timeless]) (fun _ => rfl)
  · rw [savedOnly _ (by simp)]
    refine Iff.trans ?_ (fixed .downloaded (by decide) (fun k => by cases k <;> simp [LogLine.timeless]) (fun _ => rfl)).symm
    constructor
    · rintro ⟨l, hl, e⟩; cases l <;> simp [LogLine.tells] at e; exact hl
    · intro h; exact ⟨_, h, rfl⟩
  · rw [savedOnly _ (by simp)]
    refine Iff.trans ?_ (text_mem (dataPath := dataPath) (l := .downloadFailed) hA (by decide)
      (fun k => by cases k <;> simp [LogLine.timeless])).symm
    constructor
    · rintro ⟨l, hl, e⟩; cases l <;> simp [LogLine.tells] at e; exact hl
    · intro h; exact ⟨_, h, rfl⟩
  · rw [savedOnly _ (by simp)]
    refine Iff.trans ?_ (fixed .notUpdated (by decide) (fun k => by cases k <;> simp [LogLine.timeless]) (fun _ => rfl)).symm
    constructor
    · rintro ⟨l, hl, e⟩; cases l <;> simp [LogLine.tells] at e; exact hl
    · intro h; exact ⟨_, h, rfl⟩
  · rw [savedOnly _ (by simp)]
    refine Iff.trans ?_ (fixed .unpacked (by decide) (fun k => by cases k <;> simp [LogLine.timeless]) (fun _ => rfl)).symm
    constructor
    · rintro ⟨l, hl, e⟩; cases l <;> simp [LogLine.tells] at e; exact hl
    · intro h; exact ⟨_, h, rfl⟩
  · rw [savedOnly _ (by simp)]
    refine Iff.trans ?_ (text_mem (dataPath := dataPath) (l := .unpackFailed) hA (by decide)
      (fun k => by cases k <;> simp [LogLine.timeless])).symm
    constructor
    · rintro ⟨l, hl, e⟩; cases l <;> simp [LogLine.tells] at e; exact hl
    · intro h; exact ⟨_, h, rfl⟩
  · have h1 : Ev.compiled true ∈ toldSteps (updateLog cfg env force w) ↔
        (updateLog cfg env force w).getLast? = some .saved := by
      unfold toldSteps
      rw [List.mem_append, List.mem_filterMap]
      constructor
      · rintro (⟨l, -, e⟩ | h)
        · cases l <;> simp [LogLine.tells] at e
        · split at h
          · assumption
          · cases h
      · intro h
        rw [if_pos h]
        exact .inr (.head _)
    rw [h1, hlast, hlast']
    cases A.getLast? with
    | none => simp
    | some m =>
      simp only [Option.map_some, Option.some.injEq]
      constructor
      · intro h
        unfold LogLine.bytes
        rw [h]
        rfl
      · intro h
        have h2 : m.1.text dataPath m.2 = LogLine.saved.text dataPath [] := (Prod.mk.inj h).2
        rcases same_text h2 with h3 | ⟨-, h3⟩
        · exact timeless_saved.1 (Prod.mk.inj h3).1
        · cases h3
  · have h1 : Ev.compiled false ∈ toldSteps (updateLog cfg env force w) ↔ .compileFailed ∈ updateLog cfg env force w := by
      unfold toldSteps
      rw [List.mem_append, List.mem_filterMap]
      constructor
      · rintro (⟨l, hl, e⟩ | h)
        · cases l <;> simp [LogLine.tells] at e; exact hl
        · split at h <;> simp at h
      · intro h
        exact .inl ⟨_, h, rfl⟩
    rw [h1]
    exact (text_mem (dataPath := dataPath) (l := .compileFailed) hA (by decide)
      (fun k => by cases k <;> simp [LogLine.timeless])).symm
  · intro words nodes h
    have hm := (fixed (.indexed words nodes) (of_decide_eq_false rfl) (fun k => by cases k <;> simp [LogLine.timeless]) (fun _ => rfl)).1 h
    obtain ⟨d, s, h1, -, h2, h3⟩ := t.indexed words nodes hm
    exact ⟨d, s, h1, h2, h3⟩

/-- The hypotheses are met: a first update, with the last line of its log. -/
example : (update ⟨true⟩ plainEnv false emptyWorld).1 ≠ .panic ∧
    ((updateLog ⟨true⟩ plainEnv false emptyWorld).map fun l => LogLine.bytes (str "data") (l, [])).getLast? =
      some (.info, str "compiled index saved at data/opencorpora.dat") ∧
    (.debug, str "indexed 0 words 0 nodes") ∈
      (updateLog ⟨true⟩ plainEnv false emptyWorld).map fun l => LogLine.bytes (str "data") (l, []) := by
  refine ⟨?_, ?_, ?_⟩ <;> decide +kernel

/-- A log with its texts exists for every update: one in which all texts are the error of the check. -/
def plainTexts (cfg : LoaderCfg) (env : Env) (force : Bool) (w : World) : List (LogLine × Str) :=
  (updateLog cfg env force w).map fun l => (l, str "no answer")

/-- The hypotheses are met: an update after which the server does not answer, forced; the message of the failed check shows
the error of the check. -/
example : let env := { plainEnv with head := fun _ => HeadAns.fail }
    let w := (update ⟨true⟩ plainEnv false emptyWorld).2
    UpdateTexts ⟨true⟩ env true w (plainTexts ⟨true⟩ env true w) ∧
    (.error, str "check update: no answer, force recompile using previous unpacked file") ∈
      (heard (fun v => decide (v ≠ .debug)) (plainTexts ⟨true⟩ env true w)).map (LogLine.bytes (str "data")) ∧
    (update ⟨true⟩ env true w).1 = .ok () := by
  intro env w
  refine ⟨⟨by unfold plainTexts; rw [List.map_map]; exact List.map_id _, ?_⟩, by decide +kernel, by decide +kernel⟩
  intro m hm _ c hc e he
  have hx : ∀ m ∈ plainTexts ⟨true⟩ env true w, m.2 = str "no answer" := by
    intro m hm
    obtain ⟨l, -, rfl⟩ := List.mem_map.1 hm
    rfl
  have hl : ∀ l ∈ updateLog ⟨true⟩ env true w, ∀ s, l ≠ .remoteStatus s := by
    intro l hl s e
    have : ∀ l ∈ updateLog ⟨true⟩ env true w, l.form ≠ 6 := by decide +kernel
    exact this l hl (by rw [e]; rfl)
  rw [hx m hm]
  obtain ⟨l, h1, rfl⟩ := List.mem_map.1 hc
  cases l <;> simp [checkError] at he
  · exact he
  · exact absurd rfl (hl _ h1 _)

/-- C119: why the check for updates failed is in the log. If the server answers with a status other than 200, one of the
error messages of the update says so and names the status. -/
theorem C119_reason (dataPath : Str) {cfg : LoaderCfg} {env : Env} {force : Bool} {w : World} {A : List (LogLine × Str)}
    (hA : UpdateTexts cfg env force w A) (s : Nat) (lm : LastMod) (h1 : (statFile env .archive w).1 ≠ .missing)
    (h2 : env.head (statFile env .archive w).2.n = .answer s lm) (h3 : s ≠ 200) :
    (isUpdateRequired env w).1 = .err ∧
    ∃ t, (.error, str "check update: unexpected response code " ++ (itoa s ++ t)) ∈ A.map (LogLine.bytes dataPath) := by
  have hreq : (isUpdateRequired env w).1 = .err := by
    unfold isUpdateRequired
    cases hs : statFile env .archive w with
    | mk st w1 =>
      rw [hs] at h1 h2
      cases st <;> first | exact absurd rfl h1 | (simp only at h2 ⊢; rw [h2]; simp [compareTimes, h3])
  have hlog : .remoteStatus s ∈ updateLog cfg env force w := by
    unfold updateLog
    refine .tail _ (List.mem_append.2 (.inl ?_))
    unfold requiredLog
    cases hs : statFile env .archive w with
    | mk st w1 =>
      rw [hs] at h1 h2
      cases st <;> first | exact absurd rfl h1 | (simp only at h2 ⊢; rw [h2]; simp [h3])
  have hfail : ∃ l ∈ updateLog cfg env force w, l = .recompileUnpacked ∨ l = .recompileDownloaded ∨ l = .checkFailed := by
    unfold updateLog
    cases hr : isUpdateRequired env w with
    | mk o w1 =>
      rw [hr] at hreq
      simp only at hreq
      subst hreq
      simp only
      have : ∃ l ∈ decideLog none force (fileExists env .archive w1).1 (fileExists env .xml (fileExists env .archive w1).2).1,
          l = .recompileUnpacked ∨ l = .recompileDownloaded ∨ l = .checkFailed := by
        unfold decideLog
        simp only
        split
        · exact ⟨_, List.mem_cons_self, .inl rfl⟩
        · split
          · exact ⟨_, List.mem_cons_self, .inr (.inl rfl)⟩
          · exact ⟨_, List.mem_cons_self, .inr (.inr rfl)⟩
      obtain ⟨l, hl, h⟩ := this
      exact ⟨l, .tail _ (List.mem_append.2 (.inr (List.mem_append.2 (.inl (List.mem_append.2 (.inr hl)))))), h⟩
  refine ⟨hreq, ?_⟩
  obtain ⟨l, hl, h⟩ := hfail
  rw [← hA.lines] at hl hlog
  obtain ⟨c, hc, hc1⟩ := List.mem_map.1 hlog
  obtain ⟨m, hm, rfl⟩ := List.mem_map.1 hl
  have hx := hA.error m hm h c hc (str "unexpected response code " ++ itoa s) (by unfold checkError; rw [hc1])
  have e : str "check update: unexpected response code " = str "check update: " ++ str "unexpected response code " := by decide
  obtain ⟨l, x⟩ := m
  simp only at hx h
  subst hx
  rcases h with rfl | rfl | rfl
  · refine ⟨str ", force recompile using previous unpacked file", List.mem_map.2 ⟨_, hm, ?_⟩⟩
    rw [e]
    simp [LogLine.bytes, LogLine.text, LogLine.level]
  · refine ⟨str ", force recompile using previous downloaded file", List.mem_map.2 ⟨_, hm, ?_⟩⟩
    rw [e]
    simp [LogLine.bytes, LogLine.text, LogLine.level]
  · refine ⟨[], List.mem_map.2 ⟨_, hm, ?_⟩⟩
    rw [e]
    simp [LogLine.bytes, LogLine.text, LogLine.level]

/-- A server that answers 404. -/
example : let env := { plainEnv with head := fun _ => HeadAns.answer 404 .absent }
    let w := (update ⟨true⟩ plainEnv false emptyWorld).2
    let A := (updateLog ⟨true⟩ env true w).map fun l => (l, str "unexpected response code 404")
    UpdateTexts ⟨true⟩ env true w A ∧ ∃ t,
      (.error, str "check update: unexpected response code " ++ (str "404" ++ t)) ∈ A.map (LogLine.bytes (str "data")) := by
  intro env w A
  have hA : UpdateTexts ⟨true⟩ env true w A := by
    refine ⟨by rw [List.map_map]; exact List.map_id _, ?_⟩
    intro m hm _ c hc e he
    obtain ⟨l, _, rfl⟩ := List.mem_map.1 hm
    have key : ∀ c ∈ A, (checkError c).all (· == str "unexpected response code 404") = true := by decide +kernel
    have := key c hc
    rw [he] at this
    exact (eq_of_beq this).symm
  exact ⟨hA, (C119_reason (str "data") hA 404 .absent (by decide +kernel) rfl (by decide)).2⟩

/-- Without the info messages C119 does not hold: nothing at all is logged by an update that finds everything up to date,
nor by one that downloads, unpacks and compiles. -/
theorem not_C119_quiet : ∃ (env : Env) (w w' : World),
    heard (fun v => decide (v = .warn ∨ v = .error)) ((updateLog ⟨true⟩ env false w).map fun l => (l, [])) = [] ∧
    heard (fun v => decide (v = .warn ∨ v = .error)) ((updateLog ⟨true⟩ env false w').map fun l => (l, [])) = [] ∧
    w.ev = [] ∧ w'.ev = [] ∧
    (update ⟨true⟩ env false w).2.ev = [.downloaded true, .unpacked true, .compiled true] ∧
    (update ⟨true⟩ env false w').2.ev = [] :=
  ⟨plainEnv, emptyWorld, { (update ⟨true⟩ plainEnv false emptyWorld).2 with ev := [] }, by decide +kernel, by decide +kernel,
    rfl, rfl, by decide +kernel, by decide +kernel⟩

/-- C119, `LoadIndex`: whether it returned an index can be read from the bytes, if all but debug messages are let through. -/
theorem C119_load (dataPath : Str) (keep : LogLevel → Bool) (hk : ∀ v, v ≠ .debug → keep v = true)
    {env env' : Env} {w w' : World} {A B : List (LogLine × Str)}
    (hA : A.map Prod.fst = loadLog env w) (hB : B.map Prod.fst = loadLog env' w')
    (h : (heard keep A).map (LogLine.bytes dataPath) = (heard keep B).map (LogLine.bytes dataPath)) :
    ((∃ ix, (loadIndex env w).1 = .ok ix) ↔ ∃ ix, (loadIndex env' w').1 = .ok ix) ∧
    (keep .debug = true → ((env.openErr w.n = true ∨ w.fs.file .compiled = none) ↔
      (env'.openErr w'.n = true ∨ w'.fs.file .compiled = none))) := by
  have hform : ∀ (env : Env) (w : World), ∀ l ∈ loadLog env w, l.form ≠ 15 := by
    intro env w l hl
    unfold loadLog at hl
    rcases hl with _ | ⟨_, hl⟩
    · decide
    · split at hl
      · cases hl
      · rcases hl with _ | ⟨_, _ | ⟨_, _ | ⟨_, hl⟩⟩⟩
        · decide
        · decide
        · decide
        · split at hl
          · rcases hl with _ | ⟨_, _ | ⟨_, hl⟩⟩
            · decide
            · decide
            · cases hl
          · rcases hl with _ | ⟨_, hl⟩
            · decide
            · cases hl
  have hr : (heard keep A).map LogLine.readable = (heard keep B).map LogLine.readable := by
    refine map_eq_map_of h fun a ha b hb hab => ?_
    rcases same_text (Prod.mk.inj hab).2 with h1 | ⟨f1, -⟩
    · exact h1
    · exact absurd f1 (hform env w _ (hA ▸ List.mem_map.2 ⟨a, (List.mem_filter.1 ha).1, rfl⟩))
  have hl : heardLines keep (loadLog env w) = heardLines keep (loadLog env' w') := by
    rw [← hA, ← hB, ← heard_lines, ← heard_lines, hr]
  constructor
  · rw [← (C116_load env w).1, ← (C116_load env' w').1,
      ← heardLines_mem (keep := keep) (hk _ (by simp [LogLine.level])) (fun k => by cases k <;> simp [LogLine.timeless]), hl,
      heardLines_mem (hk _ (by simp [LogLine.level])) (fun k => by cases k <;> simp [LogLine.timeless])]
  · intro hd
    have hall : ∀ v, keep v = true := by
      intro v
      by_cases hv : v = .debug
      · rw [hv]; exact hd
      · exact hk v hv
    have hlen : ∀ log, (heardLines keep log).length = log.length := by
      intro log
      unfold heardLines
      rw [List.length_map, List.filter_eq_self.2 fun l _ => hall _]
    have one : ∀ (env : Env) (w : World), loadLog env w = [.opening] ↔ (loadLog env w).length = 1 := by
      intro env w
      constructor
      · intro h; rw [h]; rfl
      · intro h
        unfold loadLog at h ⊢
        split at h <;> simp at h ⊢
    rw [← (C116_load env w).2.2, ← (C116_load env' w').2.2, one, one, ← hlen, hl, hlen]

/-- The hypotheses are met, with the texts of both outcomes. -/
example : ((loadLog plainEnv emptyWorld).map fun l => l.text (str "data") []) = [str "opening data/opencorpora.dat"] ∧
    (.info, str "compiled index loaded from data/opencorpora.dat") ∈
      (heard (fun v => decide (v ≠ .debug)) ((loadLog plainEnv (update ⟨true⟩ plainEnv false emptyWorld).2).map
        fun l => (l, []))).map (LogLine.bytes (str "data")) := by
  constructor <;> decide +kernel

end Verif
