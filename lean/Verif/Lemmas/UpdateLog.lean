import Verif.Spec.UpdateLog
import Verif.Props.LoaderSuccess
import Verif.Lemmas.Provenance

/-! # Lemmas about what the loader logs -/

namespace Verif

/-- A message that reports no step and no numbers. -/
def LogLine.aside : LogLine → Bool
  | .indexed _ _ | .saved => false
  | l => l.tells.isNone

/-- 1 for a message of the first decision, 2 for the answer of a check for a file, else 0. -/
def LogLine.kind : LogLine → Nat
  | .recompileUnpacked | .recompileDownloaded | .checkFailed | .upToDate | .recompile | .downloading => 1
  | .fileMissing _ | .fileAccess _ | .fileFound _ _ _ => 2
  | _ => 0

theorem toldSteps_append {pre log : List LogLine} (h : log ≠ []) :
    toldSteps (pre ++ log) = pre.filterMap LogLine.tells ++ toldSteps log := by
  unfold toldSteps
  rw [List.filterMap_append, List.getLast?_append_of_ne_nil _ h, List.append_assoc]

theorem ends_append {pre log : List LogLine} (h : log ≠ []) : EndsInError (pre ++ log) ↔ EndsInError log := by
  unfold EndsInError
  rw [List.getLast?_append_of_ne_nil _ h]

theorem aside_tells {pre : List LogLine} (h : ∀ l ∈ pre, l.aside = true) : pre.filterMap LogLine.tells = [] := by
  rw [List.filterMap_eq_nil_iff]
  intro l hl
  have := h l hl
  cases l <;> simp_all [LogLine.aside, LogLine.tells]

theorem required_aside (env : Env) (w : World) : ∀ l ∈ requiredLog env w, l.aside = true ∧ l.kind = 0 := by
  unfold requiredLog
  intro l hl
  simp only [List.mem_cons] at hl
  rcases hl with rfl | rfl | hl
  · exact ⟨rfl, rfl⟩
  · exact ⟨rfl, rfl⟩
  · split at hl
    · simp only [List.mem_cons, List.not_mem_nil, or_false] at hl; subst hl; exact ⟨rfl, rfl⟩
    · simp only [List.mem_cons] at hl
      rcases hl with rfl | hl
      · exact ⟨rfl, rfl⟩
      · split at hl
        · simp only [List.mem_cons, List.not_mem_nil, or_false] at hl; subst hl; exact ⟨rfl, rfl⟩
        · split at hl
          · simp only [List.mem_cons, List.not_mem_nil, or_false] at hl; subst hl; exact ⟨rfl, rfl⟩
          · split at hl <;>
              (simp only [List.mem_cons, List.not_mem_nil, or_false] at hl; subst hl; exact ⟨rfl, rfl⟩)

theorem exists_aside (env : Env) (f : FName) (w : World) : ∀ l ∈ existsLog env f w, l.aside = true ∧ l.kind ≠ 1 := by
  unfold existsLog
  intro l hl
  simp only [List.mem_cons] at hl
  rcases hl with rfl | rfl | hl
  · exact ⟨rfl, by simp [LogLine.kind]⟩
  · exact ⟨rfl, by simp [LogLine.kind]⟩
  · split at hl <;> (simp only [List.mem_cons, List.not_mem_nil, or_false] at hl; subst hl; exact ⟨rfl, by simp [LogLine.kind]⟩)

theorem decide_aside (c : Option Bool) (f d u : Bool) : ∀ l ∈ decideLog c f d u, l.aside = true := by
  rcases c with _ | _ | _ <;> cases f <;> cases d <;> cases u <;> decide

/-! ## Saving and parsing -/

theorem save_numbers {env : Env} {ix : Index} {w : World} {a b : Nat} (h : .indexed a b ∈ saveLog env ix w) :
    a = ix.wordsCount ∧ b = ix.nodesCount := by
  unfold saveLog at h
  simp only [List.mem_cons, reduceCtorEq, false_or] at h
  split at h
  · cases h
  · simp only [List.mem_cons, LogLine.indexed.injEq, reduceCtorEq, false_or] at h
    rcases h with h | h
    · exact h
    · split at h
      · simp only [List.mem_cons, reduceCtorEq, false_or] at h
        split at h
        · simp only [List.mem_cons, reduceCtorEq, false_or] at h
          split at h <;> simp at h
        · simp at h
      · simp at h

theorem save_saved {env : Env} {ix : Index} {w : World} (h : .saved ∈ saveLog env ix w) :
    .indexed ix.wordsCount ix.nodesCount ∈ saveLog env ix w := by
  unfold saveLog at h ⊢
  simp only [List.mem_cons, reduceCtorEq, false_or] at h ⊢
  split at h
  · cases h
  · simp

theorem save_quiet (env : Env) (ix : Index) (w : World) : ∀ l ∈ saveLog env ix w, l.tells = none ∧ l.kind = 0 := by
  unfold saveLog
  intro l hl
  simp only [List.mem_cons] at hl
  rcases hl with rfl | hl
  · exact ⟨rfl, rfl⟩
  · split at hl
    · cases hl
    · simp only [List.mem_cons] at hl
      rcases hl with rfl | rfl | hl
      · exact ⟨rfl, rfl⟩
      · exact ⟨rfl, rfl⟩
      · split at hl
        · simp only [List.mem_cons] at hl
          rcases hl with rfl | rfl | hl
          · exact ⟨rfl, rfl⟩
          · exact ⟨rfl, rfl⟩
          · split at hl
            · simp only [List.mem_cons] at hl
              rcases hl with rfl | rfl | hl
              · exact ⟨rfl, rfl⟩
              · exact ⟨rfl, rfl⟩
              · split at hl <;> simp at hl
                subst hl; exact ⟨rfl, rfl⟩
            · simp at hl; subst hl; exact ⟨rfl, rfl⟩
        · simp at hl
          rcases hl with rfl | rfl <;> exact ⟨rfl, rfl⟩

theorem save_last {env : Env} {ix : Index} {w : World} (h : (saveIndex env ix w).1 = .ok ()) :
    (saveLog env ix w).getLast? = some .saved := by
  unfold saveIndex at h
  unfold saveLog
  cases e : createFile env .compiled w with
  | mk b w1 =>
    rw [e] at h
    cases b with
    | false => simp at h
    | true =>
      simp only at h ⊢
      cases eo : ix.optimize with
      | mk ix' o =>
        rw [eo] at h
        cases o with
        | ok u =>
          simp only at h ⊢
          split at h
          · simp at h
          · rename_i hn
            rw [if_neg hn]
            rfl
        | err => simp at h
        | panic => simp at h
        | diverge => simp at h

/-- `ParseUpdate` comes to saving, or logs nothing more. -/
theorem parse_cases (env : Env) (w : World) :
    (parseLog env w = [.startParse] ∧ (parseUpdate env w).1 = .err) ∨
    ∃ d s, w.fs.file .xml = some d ∧ (env.tokens d.data).2 = true ∧
      (PState.init Index.new 0).run env.floatOK (env.tokens d.data).1 = (s, none) ∧
      parseLog env w = .startParse :: saveLog env s.ix w.tick ∧
      (parseUpdate env w).2 = (saveIndex env s.ix w.tick).2 ∧
      ((parseUpdate env w).1 = .ok () ↔ (saveIndex env s.ix w.tick).1 = .ok ()) := by
  unfold parseLog parseUpdate openFile
  by_cases ho : env.openErr w.n = true
  · simp [ho]
  · rw [if_neg ho]
    cases hf : w.fs.file .xml with
    | none => simp
    | some d =>
      simp only
      cases hr : (PState.init Index.new 0).run env.floatOK (env.tokens (accepted (env.readable w.n) d.data)).1 with
      | mk s e =>
        simp only
        split
        · rename_i hc
          have hns := PState.run_noStop env.floatOK (env.tokens (accepted (env.readable w.n) d.data)).1
            (PState.init Index.new 0) (by decide)
          rw [hr] at hns
          rcases hc with hc | ⟨rfl, hc, ht⟩
          · exact absurd hc hns
          · have hg := of_decide_eq_true hc
            rw [hg] at hr ht
            refine .inr ⟨d, s, rfl, ht, hr, rfl, ?_, ?_⟩
            · cases saveIndex env s.ix w.tick with
              | mk r w2 => rcases r with _ | _ | _ <;> rfl
            · cases saveIndex env s.ix w.tick with
              | mk r w2 => rcases r with _ | _ | _ <;> simp
        · exact .inl ⟨rfl, rfl⟩

theorem parse_quiet (env : Env) (w : World) : ∀ l ∈ parseLog env w, l.tells = none ∧ l.kind = 0 := by
  intro l hl
  rcases parse_cases env w with ⟨h, -⟩ | ⟨d, s, -, -, -, h, -⟩
  · rw [h] at hl; simp at hl; subst hl; exact ⟨rfl, rfl⟩
  · rw [h, List.mem_cons] at hl
    rcases hl with rfl | hl
    · exact ⟨rfl, rfl⟩
    · exact save_quiet _ _ _ l hl

/-! ## The steps -/

/-- The same, for logs of calls that may panic. -/
structure Says (env : Env) (log : List LogLine) (r : LRes Unit) (w w' : World) : Prop where
  ne : log ≠ []
  true_ : r ≠ .panic → LogTrue env log r w w'
  kind : ∀ l ∈ log, l.kind = 0

theorem LogTrue.pre {env : Env} {pre log : List LogLine} {r : LRes Unit} {w w1 w' : World} (hne : log ≠ [])
    (hp : ∀ l ∈ pre, l.aside = true) (hs : Same w w1) (h : LogTrue env log r w1 w') : LogTrue env (pre ++ log) r w w' := by
  have hno : ∀ l, l.aside = false → l ∈ pre ++ log → l ∈ log := by
    intro l hl hm
    rcases List.mem_append.1 hm with hm | hm
    · rw [hp l hm] at hl; cases hl
    · exact hm
  refine ⟨?_, ?_, ?_, ?_, ?_, ?_, ?_, ?_⟩
  · rw [ends_append hne]; exact h.failed
  · rw [toldSteps_append hne, aside_tells hp, h.steps, hs.2.2]; rfl
  · refine (hs.wrote (S := LoggedWrite (pre ++ log))).2.trans (h.files.mono ?_)
    intro g hg
    cases g with
    | archive => exact hg.imp (List.mem_append_right _) (List.mem_append_right _)
    | xml => exact hg.imp (List.mem_append_right _) (List.mem_append_right _)
    | compiled => exact hg.imp (List.mem_append_right _) (fun e => by rw [List.getLast?_append_of_ne_nil _ hne]; exact e)
  · exact fun hd => h.downloaded (hno _ rfl hd)
  · exact fun hd => h.unpacked (hno _ rfl hd)
  · intro e; rw [List.getLast?_append_of_ne_nil _ hne] at e; exact h.saved e
  · exact fun a b hm => h.indexed a b (hno _ rfl hm)
  · intro hm
    obtain ⟨a, b, hab⟩ := h.numbers (hno _ rfl hm)
    exact ⟨a, b, List.mem_append_right _ hab⟩

theorem compile_says (env : Env) (w : World) :
    Says env (compileLog env w) (stepCompile env w).1 w (stepCompile env w).2 := by
  have hnp := parse_no_panic env w
  have hw := parse_wrote env w
  have hcase := parse_cases env w
  have hquiet := parse_quiet env w
  have hne : parseLog env w ≠ [] := by unfold parseLog; simp
  have hxml : (parseUpdate env w).2.fs.file .xml = w.fs.file .xml := by
    obtain ⟨l, -, hl⟩ := hw.2
    exact hl _ (by simp) .xml (by simp)
  have hidx : ∀ a b, LogLine.indexed a b ∈ parseLog env w → ∃ d s, (parseUpdate env w).2.fs.file .xml = some d ∧
      (env.tokens d.data).2 = true ∧
      (PState.init Index.new 0).run env.floatOK (env.tokens d.data).1 = (s, none) ∧ a = s.ix.wordsCount ∧
      b = s.ix.nodesCount := by
    intro a b hm
    rcases hcase with ⟨h, -⟩ | ⟨d, s, h1, h2, h3, h4, -⟩
    · rw [h] at hm; simp at hm
    · rw [h4] at hm
      simp only [List.mem_cons, reduceCtorEq, false_or] at hm
      exact ⟨d, s, by rw [hxml]; exact h1, h2, h3, save_numbers hm⟩
  have hnum : LogLine.saved ∈ parseLog env w → ∃ a b, LogLine.indexed a b ∈ parseLog env w := by
    intro hm
    rcases hcase with ⟨h, -⟩ | ⟨d, s, h1, h2, h3, h4, -⟩
    · rw [h] at hm; simp at hm
    · rw [h4] at hm ⊢
      simp only [List.mem_cons, reduceCtorEq, false_or] at hm
      exact ⟨_, _, List.mem_cons_of_mem _ (save_saved hm)⟩
  have htold : (parseLog env w).filterMap LogLine.tells = [] :=
    List.filterMap_eq_nil_iff.2 fun l hl => (hquiet l hl).1
  have hno : ∀ l : LogLine, l.tells ≠ none → l ∉ parseLog env w := fun l h1 h2 => h1 (hquiet l h2).1
  unfold compileLog stepCompile
  cases e : parseUpdate env w with
  | mk r w1 =>
    rw [e] at hnp hw hcase hxml hidx
    simp only at hnp hw hcase hxml hidx
    cases r with
    | panic => exact absurd rfl hnp
    | ok u =>
      simp only [List.append_nil]
      have hlast : (parseLog env w).getLast? = some .saved ∧ ∃ d s n t, w1.fs.file .xml = some d ∧
          (PState.init Index.new 0).run env.floatOK (env.tokens d.data).1 = (s, none) ∧
          s.ix.optimize.1.save.err = none ∧
          w1.fs.file .compiled = some ⟨accepted (env.room n) s.ix.optimize.1.save.bytes, t⟩ ∧
          (env.late n = false → accepted (env.room n) s.ix.optimize.1.save.bytes = s.ix.optimize.1.save.bytes) := by
        rcases hcase with ⟨-, h⟩ | ⟨d, s, h1, h2, h3, h4, h5, h6⟩
        · cases h
        · have hok := h6.1 rfl
          obtain ⟨l, -, -, -, hs⟩ := save_states env s.ix w.tick
          obtain ⟨-, herr, t, n, hf, hn⟩ := hs hok
          rw [← h5] at hf
          have hl := save_last hok
          refine ⟨?_, d, s, n, t, hxml.trans h1, h3, herr, hf, hn⟩
          rw [h4, List.getLast?_cons, hl]; rfl
      refine ⟨hne, fun _ => ⟨?_, ?_, ?_, ?_, ?_, fun _ => hlast.2, hidx, hnum⟩, fun l hl => (hquiet l hl).2⟩
      · refine ⟨fun h => (by cases h), ?_⟩
        rintro ⟨l, h1, h2⟩
        rw [hlast.1] at h1
        obtain rfl := Option.some.inj h1
        cases h2
      · rw [World.note, hw.1]
        unfold toldSteps
        rw [htold, if_pos hlast.1]; rfl
      · exact (hw.2.mono (by rintro g rfl; exact .inr hlast.1)).trans (note_touched _ _)
      · exact fun h => absurd h (hno _ (by simp [LogLine.tells]))
      · exact fun h => absurd h (hno _ (by simp [LogLine.tells]))
    | err =>
      simp only
      refine ⟨by simp, fun _ => ⟨?_, ?_, ?_, ?_, ?_, ?_, ?_, ?_⟩, ?_⟩
      · exact ⟨fun _ => ⟨.compileFailed, by simp, rfl⟩, fun _ => rfl⟩
      · rw [toldSteps_append (by simp), htold, World.note, hw.1]; rfl
      · exact (hw.2.mono (by rintro g rfl; exact .inl (by simp))).trans (note_touched _ _)
      · intro h
        rcases List.mem_append.1 h with h | h
        · exact absurd h (hno _ (by simp [LogLine.tells]))
        · simp at h
      · intro h
        rcases List.mem_append.1 h with h | h
        · exact absurd h (hno _ (by simp [LogLine.tells]))
        · simp at h
      · intro h; simp at h
      · intro a b h
        rcases List.mem_append.1 h with h | h
        · exact hidx a b h
        · simp at h
      · intro h
        rcases List.mem_append.1 h with h | h
        · obtain ⟨a, b, hab⟩ := hnum h
          exact ⟨a, b, List.mem_append_left _ hab⟩
        · simp at h
      · intro l hl
        rcases List.mem_append.1 hl with hl | hl
        · exact (hquiet l hl).2
        · simp at hl; subst hl; rfl

/-- What unpacking leaves if it succeeds. -/
theorem unpack_content {cfg : LoaderCfg} {env : Env} {w w1 : World} (h : unpackUpdate cfg env w = (.ok (), w1)) :
    ∃ a x t, w1.fs.file .archive = some a ∧ env.bunzip a.data = (x, true) ∧ w1.fs.file .xml = some ⟨x, t⟩ := by
  have hw := (unpack_wrote cfg env w).2
  rw [h] at hw
  obtain ⟨l, -, hl⟩ := hw
  have ha : w1.fs.file .archive = w.fs.file .archive := hl _ (by simp) .archive (by simp)
  unfold unpackUpdate at h
  cases e0 : makeDataPath cfg env w with
  | mk b w0 =>
    have hm : w0.fs.file = w.fs.file := by
      unfold makeDataPath at e0
      split at e0
      · simp only [Prod.mk.injEq] at e0; rw [← e0.2]; rfl
      · split at e0 <;> (simp only [Prod.mk.injEq] at e0; rw [← e0.2]; rfl)
    rw [e0] at h
    cases b with
    | false => simp at h
    | true =>
      simp only at h
      unfold openFile at h
      split at h
      · cases h
      · rename_i o bz whole w2 ho
        split at ho
        · simp at ho
        · split at ho
          · simp at ho
          · rename_i d hf
            simp only [Prod.mk.injEq, Option.some.injEq] at ho
            obtain ⟨⟨rfl, rfl⟩, rfl⟩ := ho
            split at h
            · cases h
            · rename_i w3 hc
              unfold copyTo at h
              simp only at h
              split at h
              · cases h
              · rename_i w4 hcp
                simp only [Prod.mk.injEq, true_and] at h hcp
                obtain ⟨hcp, hcw⟩ := hcp
                simp only [Bool.and_eq_true, decide_eq_true_eq] at hcp
                obtain ⟨⟨hwh, hbz⟩, htk⟩ := hcp
                rw [hwh] at hbz htk hcw
                refine ⟨d, _, env.now w3.n, ha.trans (by rw [← hm]; exact hf), Prod.ext rfl hbz, ?_⟩
                rw [← h, ← hcw, htk]
                exact put_self _ _ _

theorem unpack_says (cfg : LoaderCfg) (env : Env) (w : World) :
    Says env (unpackLog cfg env w) (stepUnpack cfg env w).1 w (stepUnpack cfg env w).2 := by
  have hw := unpack_wrote cfg env w
  have hcont := @unpack_content cfg env w
  unfold unpackLog stepUnpack
  cases e : unpackUpdate cfg env w with
  | mk r w1 =>
    rw [e] at hw
    have bad : ∀ r : LRes Unit, r ≠ .ok () → Says env [.unpackFailed] r w (w1.note (.unpacked false)) := by
      intro r hr
      refine ⟨by simp, fun hp => ⟨?_, ?_, ?_, by simp, by simp, by simp, by simp, by simp⟩, by simp [LogLine.kind]⟩
      · refine ⟨fun _ => ⟨.unpackFailed, rfl, rfl⟩, fun _ => ?_⟩
        rcases r with ⟨⟩ | _ | _
        · exact absurd rfl hr
        · rfl
        · exact absurd rfl hp
      · rw [World.note, hw.1]; rfl
      · exact (hw.2.mono (by rintro g rfl; exact .inr (by simp))).trans (note_touched _ _)
    cases r with
    | err => exact bad .err (by simp)
    | panic => exact bad .panic (by simp)
    | ok u =>
      simp only
      obtain ⟨hne, ht, hd⟩ := compile_says env (w1.note (.unpacked true))
      have hcw := (compile_took env (w1.note (.unpacked true)))
      obtain ⟨b, tk⟩ := hcw
      obtain ⟨l, -, hl⟩ := tk.files
      have keep : ∀ g, g ≠ .compiled → (stepCompile env (w1.note (.unpacked true))).2.fs.file g = w1.fs.file g := by
        intro g hg
        refine hl _ (by simp) g ?_
        cases g <;> simp_all [Writes]
      refine ⟨by simp, fun hp => ?_, ?_⟩
      · have h := ht hp
        refine ⟨?_, ?_, ?_, ?_, ?_, ?_, ?_, ?_⟩
        · rw [h.failed, ← ends_append (pre := [.unpacked]) hne]; rfl
        · rw [← List.singleton_append, toldSteps_append hne, h.steps, World.note, hw.1, List.append_assoc]; rfl
        · refine (hw.2.mono (by rintro g rfl; exact .inl (by simp))).trans ((note_touched _ _).trans (h.files.mono ?_))
          intro g hg
          cases g with
          | archive => exact hg.imp (List.mem_cons_of_mem _) (List.mem_cons_of_mem _)
          | xml => exact hg.imp (List.mem_cons_of_mem _) (List.mem_cons_of_mem _)
          | compiled =>
            exact hg.imp (List.mem_cons_of_mem _)
              (fun e => by rw [← List.singleton_append, List.getLast?_append_of_ne_nil _ hne]; exact e)
        · intro hm
          simp only [List.mem_cons, reduceCtorEq, false_or] at hm
          exact h.downloaded hm
        · intro _
          obtain ⟨a, x, t, h1, h2, h3⟩ := hcont e
          exact ⟨a, x, t, by rw [keep _ (by simp)]; exact h1, h2, by rw [keep _ (by simp)]; exact h3⟩
        · intro e
          rw [← List.singleton_append, List.getLast?_append_of_ne_nil _ hne] at e
          exact h.saved e
        · intro a b hm
          simp only [List.mem_cons, reduceCtorEq, false_or] at hm
          exact h.indexed a b hm
        · intro hm
          simp only [List.mem_cons, reduceCtorEq, false_or] at hm
          obtain ⟨a, b, hab⟩ := h.numbers hm
          exact ⟨a, b, List.mem_cons_of_mem _ hab⟩
      · intro l hl
        rw [List.mem_cons] at hl
        rcases hl with rfl | hl
        · rfl
        · exact hd l hl

theorem download_says (cfg : LoaderCfg) (env : Env) (w : World) :
    Says env (downloadLog cfg env w) (stepDownload cfg env w).1 w (stepDownload cfg env w).2 := by
  have hw := download_wrote cfg env w
  have hra := required_aside env w
  have hcont := C59_exact cfg env w
  have hnot : ∀ w1, downloadUpdate cfg env w = (.ok false, w1) → Same w w1 := by
    intro w1 h
    have hs := required_same env w
    unfold downloadUpdate at h
    split at h
    · cases h
    · cases h
    · rename_i w2 e; rw [e] at hs; simp only [Prod.mk.injEq, true_and] at h; rw [← h]; exact hs
    · split at h
      · cases h
      · split at h
        · cases h
        · split at h
          · cases h
          · split at h <;> cases h
  unfold downloadLog stepDownload
  cases e : downloadUpdate cfg env w with
  | mk r w1 =>
    rw [e] at hw hcont
    have hdec : ∀ {log : List LogLine}, (∀ l ∈ log, l.kind = 0) →
        ∀ l ∈ requiredLog env w ++ log, l.kind = 0 := by
      intro log h l hl
      rcases List.mem_append.1 hl with hl | hl
      · exact (hra l hl).2
      · exact h l hl
    have hne : ∀ log, requiredLog env w ++ log ≠ [] := by intro log; unfold requiredLog; simp
    cases r with
    | panic => exact ⟨hne _, fun h => absurd rfl h, hdec (by simp)⟩
    | err =>
      refine ⟨hne _, fun _ => LogTrue.pre (by simp) (fun l hl => (hra l hl).1) (Same.refl w) ?_, hdec (by simp [LogLine.kind])⟩
      refine ⟨⟨fun _ => ⟨.downloadFailed, rfl, rfl⟩, fun _ => rfl⟩, ?_, ?_, by simp, by simp, by simp, by simp, by simp⟩
      · simp only [World.note]; rw [hw.1]; rfl
      · exact (hw.2.mono (by rintro g rfl; exact .inr (by simp))).trans (note_touched _ _)
    | ok b =>
      cases b with
      | false =>
        have hs := hnot w1 e
        refine ⟨hne _, fun _ => LogTrue.pre (by simp) (fun l hl => (hra l hl).1) (Same.refl w) ?_, hdec (by simp [LogLine.kind])⟩
        refine ⟨⟨fun h => (by cases h), ?_⟩, ?_, ?_, by simp, by simp, by simp, by simp, by simp⟩
        · rintro ⟨l, h1, h2⟩
          obtain rfl := Option.some.inj h1
          cases h2
        · simp only [World.note]; rw [hw.1]; rfl
        · exact (hs.wrote (S := LoggedWrite _)).2.trans (note_touched _ _)
      | true =>
        simp only
        obtain ⟨hne2, ht, hd⟩ := unpack_says cfg env (w1.note (.downloaded true))
        refine ⟨hne _, fun hp => LogTrue.pre (by simp) (fun l hl => (hra l hl).1) (Same.refl w) ?_, hdec ?_⟩
        · have h := ht hp
          refine ⟨?_, ?_, ?_, ?_, ?_, ?_, ?_, ?_⟩
          · rw [h.failed, ← ends_append (pre := [.downloaded]) hne2]; rfl
          · rw [← List.singleton_append, toldSteps_append hne2, h.steps]
            simp only [World.note]
            rw [hw.1, List.append_assoc]; rfl
          · refine (hw.2.mono (by rintro g rfl; exact .inl (by simp))).trans ((note_touched _ _).trans (h.files.mono ?_))
            intro g hg
            cases g with
            | archive => exact hg.imp (List.mem_cons_of_mem _) (List.mem_cons_of_mem _)
            | xml => exact hg.imp (List.mem_cons_of_mem _) (List.mem_cons_of_mem _)
            | compiled =>
              exact hg.imp (List.mem_cons_of_mem _)
                (fun e => by rw [← List.singleton_append, List.getLast?_append_of_ne_nil _ hne2]; exact e)
          · intro _
            obtain ⟨-, -, -, -, st, body, hg, -⟩ := hcont.1.1 rfl
            have hf := hcont.2 rfl st body true hg
            have keep : (stepUnpack cfg env (w1.note (.downloaded true))).2.fs.file .archive = w1.fs.file .archive := by
              rcases unpack_took cfg env (w1.note (.downloaded true)) with tk | ⟨b, tk⟩ <;>
              · obtain ⟨l, -, hl⟩ := tk.files
                exact hl _ (by simp) .archive (by simp [Writes])
            simp only at hf
            cases hfa : w1.fs.file .archive with
            | none => rw [hfa] at hf; cases hf
            | some d =>
              rw [hfa] at hf
              obtain ⟨x, t⟩ := d
              obtain rfl := Option.some.inj hf
              exact ⟨_, st, _, t, hg, by rw [keep, hfa]⟩
          · intro hm
            simp only [List.mem_cons, reduceCtorEq, false_or] at hm
            exact h.unpacked hm
          · intro e
            rw [← List.singleton_append, List.getLast?_append_of_ne_nil _ hne2] at e
            exact h.saved e
          · intro a b hm
            simp only [List.mem_cons, reduceCtorEq, false_or] at hm
            exact h.indexed a b hm
          · intro hm
            simp only [List.mem_cons, reduceCtorEq, false_or] at hm
            obtain ⟨a, b, hab⟩ := h.numbers hm
            exact ⟨a, b, List.mem_cons_of_mem _ hab⟩
        · intro l hl
          rw [List.mem_cons] at hl
          rcases hl with rfl | hl
          · rfl
          · exact hd l hl

/-- The whole of `Update`, with what the first decision logs. -/
theorem update_says (cfg : LoaderCfg) (env : Env) (force : Bool) (w : World) :
    let log := updateLog cfg env force w
    ((update cfg env force w).1 ≠ .panic → LogTrue env log (update cfg env force w).1 w (update cfg env force w).2) ∧
    (.upToDate ∈ log ↔ (isUpdateRequired env w).1 = .ok false) ∧
    (.downloading ∈ log ↔ (isUpdateRequired env w).1 = .ok true) ∧
    (.recompile ∈ log ↔ (isUpdateRequired env w).1 = .ok false ∧ force = true) ∧
    ((.checkFailed ∈ log ∨ .recompileUnpacked ∈ log ∨ .recompileDownloaded ∈ log) ↔
      (isUpdateRequired env w).1 = .err) := by
  intro log
  have hra := required_aside env w
  have h1 := required_same env w
  have hlog : updateLog cfg env force w = log := rfl
  unfold updateLog at hlog
  unfold update
  cases e1 : isUpdateRequired env w with
  | mk r w1 =>
    rw [e1] at hlog h1
    simp only at h1
    have main : ∀ c : Option Bool, (∀ dl un w2 w3, fileExists env .archive w1 = (dl, w2) → fileExists env .xml w2 = (un, w3) →
        LogLine.checkUpdates :: (requiredLog env w ++ (existsLog env .archive w1 ++ existsLog env .xml w2 ++
          decideLog c force dl un ++ match decideUpdate c force dl un with
            | .compile => compileLog env w3
            | .unpack => unpackLog cfg env w3
            | .download => downloadLog cfg env w3
            | .ret _ => [])) = log →
        let x := match decideUpdate c force dl un with
          | .compile => stepCompile env w3
          | .unpack => stepUnpack cfg env w3
          | .download => stepDownload cfg env w3
          | .ret true => (.ok (), w3)
          | .ret false => (.err, w3)
        (x.1 ≠ .panic → LogTrue env log x.1 w x.2) ∧ (.upToDate ∈ log ↔ c = some false) ∧
        (.downloading ∈ log ↔ c = some true) ∧ (.recompile ∈ log ↔ c = some false ∧ force = true) ∧
        ((.checkFailed ∈ log ∨ .recompileUnpacked ∈ log ∨ .recompileDownloaded ∈ log) ↔ c = none)) := by
      intro c dl un w2 w3 e2 e3 hlog x
      have h2 := exists_same env .archive w1
      rw [e2] at h2
      simp only at h2
      subst h2
      have h3 := exists_same env .xml w1.tick
      rw [e3] at h3
      simp only at h3
      subst h3
      have hs : Same w w1.tick.tick := (h1.trans (tick_same _)).trans (tick_same _)
      obtain ⟨pre, hpre⟩ : ∃ pre, pre = LogLine.checkUpdates :: (requiredLog env w ++ (existsLog env .archive w1 ++
        existsLog env .xml w1.tick)) := ⟨_, rfl⟩
      have hpa : ∀ l ∈ pre, l.aside = true ∧ l.kind ≠ 1 := by
        intro l hl
        rw [hpre] at hl
        simp only [List.mem_cons, List.mem_append] at hl
        rcases hl with rfl | hl | hl | hl
        · exact ⟨rfl, by simp [LogLine.kind]⟩
        · exact ⟨(hra l hl).1, by rw [(hra l hl).2]; simp⟩
        · exact exists_aside _ _ _ l hl
        · exact exists_aside _ _ _ l hl
      obtain ⟨rest, hrest⟩ : ∃ rest, rest = (match decideUpdate c force dl un with
            | .compile => compileLog env w1.tick.tick
            | .unpack => unpackLog cfg env w1.tick.tick
            | .download => downloadLog cfg env w1.tick.tick
            | .ret _ => []) := ⟨_, rfl⟩
      have hl : log = pre ++ decideLog c force dl un ++ rest := by
        rw [← hlog, hpre, hrest]; simp [List.append_assoc]
      have hda := decide_aside c force dl un
      have hpd : ∀ l ∈ pre ++ decideLog c force dl un, l.aside = true := by
        intro l hm
        rcases List.mem_append.1 hm with hm | hm
        · exact (hpa l hm).1
        · exact hda l hm
      -- the part after the decision
      have hx : (∀ l ∈ rest, l.kind = 0) ∧ (x.1 ≠ .panic → LogTrue env log x.1 w x.2) := by
        have go : ∀ (log1 : List LogLine) (y : LRes Unit × World), rest = log1 → x = y →
            Says env log1 y.1 w1.tick.tick y.2 →
            (∀ l ∈ rest, l.kind = 0) ∧ (x.1 ≠ .panic → LogTrue env log x.1 w x.2) := by
          rintro log1 y rfl e ⟨hne, ht, hd⟩
          rw [e]
          exact ⟨hd, fun hp => by rw [hl]; exact (ht hp).pre hne hpd hs⟩
        have ret : ∀ b, decideUpdate c force dl un = .ret b →
            (∀ l ∈ rest, l.kind = 0) ∧ (x.1 ≠ .panic → LogTrue env log x.1 w x.2) := by
          intro b hb
          have hr : rest = [] := by rw [hrest, hb]
          have hxe : x = ((if b then .ok () else .err), w1.tick.tick) := by
            show (match decideUpdate c force dl un with
              | .compile => stepCompile env w1.tick.tick
              | .unpack => stepUnpack cfg env w1.tick.tick
              | .download => stepDownload cfg env w1.tick.tick
              | .ret true => (.ok (), w1.tick.tick)
              | .ret false => (.err, w1.tick.tick)) = _
            rw [hb]; cases b <;> rfl
          refine ⟨by rw [hr]; simp, fun _ => ?_⟩
          have hdl : decideLog c force dl un = if b then [.upToDate] else [.checkFailed] := by
            revert hb
            unfold decideUpdate decideLog
            rcases c with _ | _ | _ <;> cases force <;> cases dl <;> cases un <;> cases b <;> simp
          rw [hl, hr, hdl, List.append_nil, hxe]
          refine LogTrue.pre (by cases b <;> simp) (fun l hm => (hpa l hm).1) hs ?_
          cases b with
          | true =>
            refine ⟨⟨fun h => (by cases h), ?_⟩, by simp [toldSteps, LogLine.tells], ?_, by simp, by simp, by simp, by simp,
              by simp⟩
            · rintro ⟨l, h1, h2⟩
              obtain rfl := Option.some.inj h1
              cases h2
            · exact ((Same.refl _).wrote (S := LoggedWrite _)).2
          | false =>
            refine ⟨⟨fun _ => ⟨_, rfl, rfl⟩, fun _ => rfl⟩, by simp [toldSteps, LogLine.tells], ?_, by simp, by simp, by simp,
              by simp, by simp⟩
            exact ((Same.refl _).wrote (S := LoggedWrite _)).2
        cases hg : decideUpdate c force dl un with
        | ret b => exact ret b hg
        | compile =>
          refine go _ (stepCompile env w1.tick.tick) (by rw [hrest, hg]) ?_ (compile_says _ _)
          show (match decideUpdate c force dl un with
            | .compile => stepCompile env w1.tick.tick
            | .unpack => stepUnpack cfg env w1.tick.tick
            | .download => stepDownload cfg env w1.tick.tick
            | .ret true => (.ok (), w1.tick.tick)
            | .ret false => (.err, w1.tick.tick)) = _
          rw [hg]
        | unpack =>
          refine go _ (stepUnpack cfg env w1.tick.tick) (by rw [hrest, hg]) ?_ (unpack_says _ _ _)
          show (match decideUpdate c force dl un with
            | .compile => stepCompile env w1.tick.tick
            | .unpack => stepUnpack cfg env w1.tick.tick
            | .download => stepDownload cfg env w1.tick.tick
            | .ret true => (.ok (), w1.tick.tick)
            | .ret false => (.err, w1.tick.tick)) = _
          rw [hg]
        | download =>
          refine go _ (stepDownload cfg env w1.tick.tick) (by rw [hrest, hg]) ?_ (download_says _ _ _)
          show (match decideUpdate c force dl un with
            | .compile => stepCompile env w1.tick.tick
            | .unpack => stepUnpack cfg env w1.tick.tick
            | .download => stepDownload cfg env w1.tick.tick
            | .ret true => (.ok (), w1.tick.tick)
            | .ret false => (.err, w1.tick.tick)) = _
          rw [hg]
      have hmem : ∀ l : LogLine, l.kind = 1 → (l ∈ log ↔ l ∈ decideLog c force dl un) := by
        intro l hd
        rw [hl, List.mem_append, List.mem_append]
        constructor
        · rintro ((h | h) | h)
          · exact absurd hd (hpa l h).2
          · exact h
          · rw [hx.1 l h] at hd; cases hd
        · exact fun h => .inl (.inr h)
      refine ⟨hx.2, ?_⟩
      rw [hmem _ rfl, hmem _ rfl, hmem _ rfl, hmem _ rfl, hmem _ rfl, hmem _ rfl]
      clear * -
      rcases c with _ | _ | _ <;> cases force <;> cases dl <;> cases un <;> decide
    have hnone : r = .panic → ∀ l ∈ log, l.kind = 0 := by
      rintro rfl l hl
      rw [← hlog] at hl
      simp only [List.append_nil, List.mem_cons] at hl
      rcases hl with rfl | hl
      · rfl
      · exact (hra l hl).2
    cases r with
    | panic =>
      have hn := hnone rfl
      refine ⟨fun h => absurd rfl h, ?_, ?_, ?_, ?_⟩
      · exact ⟨fun h => (by have := hn _ h; cases this), fun h => (by cases h)⟩
      · exact ⟨fun h => (by have := hn _ h; cases this), fun h => (by cases h)⟩
      · exact ⟨fun h => (by have := hn _ h; cases this), fun h => (by cases h.1)⟩
      · exact ⟨fun h => (by rcases h with h | h | h <;> (have := hn _ h; cases this)), fun h => (by cases h)⟩
    | err =>
      cases e2 : fileExists env .archive w1 with
      | mk dl w2 =>
        cases e3 : fileExists env .xml w2 with
        | mk un w3 =>
          simp only [e2, e3] at hlog ⊢
          obtain ⟨a, b, c, d, e⟩ := main none dl un w2 w3 e2 e3 hlog
          exact ⟨a, by simpa using b, by simpa using c, by simpa using d, by simpa using e⟩
    | ok b =>
      cases e2 : fileExists env .archive w1 with
      | mk dl w2 =>
        cases e3 : fileExists env .xml w2 with
        | mk un w3 =>
          simp only [e2, e3] at hlog ⊢
          obtain ⟨a, b, c, d, e⟩ := main (some b) dl un w2 w3 e2 e3 hlog
          exact ⟨a, by simpa using b, by simpa using c, by simpa using d, by simpa using e⟩

/-- The parts of the log of `Update`. -/
theorem update_parts (cfg : LoaderCfg) (env : Env) (force : Bool) (w : World) (hp : (isUpdateRequired env w).1 ≠ .panic) :
    ∃ rest w1, w1 = (isUpdateRequired env w).2 ∧
      updateLog cfg env force w = (.checkUpdates :: requiredLog env w) ++ existsLog env .archive w1 ++
        existsLog env .xml w1.tick ++
        decideLog (match (isUpdateRequired env w).1 with | .ok b => some b | _ => none) force
          (fileExists env .archive w1).1 (fileExists env .xml w1.tick).1 ++ rest ∧ ∀ l ∈ rest, l.kind = 0 := by
  unfold updateLog
  cases e1 : isUpdateRequired env w with
  | mk r w1 =>
    rw [e1] at hp
    have h2 := exists_same env .archive w1
    have go : ∀ (g : Goto) (w3 : World), ∀ l ∈ (match (motive := Goto → List LogLine) g with
            | .compile => compileLog env w3
            | .unpack => unpackLog cfg env w3
            | .download => downloadLog cfg env w3
            | .ret _ => []), l.kind = 0 := by
      intro g w3
      cases g with
      | compile => exact (compile_says _ _).kind
      | unpack => exact (unpack_says _ _ _).kind
      | download => exact (download_says _ _ _).kind
      | ret b => simp
    cases e2 : fileExists env .archive w1 with
    | mk dl w2 =>
      rw [e2] at h2
      simp only at h2
      subst h2
      cases e3 : fileExists env .xml w1.tick with
      | mk un w3 =>
        cases r with
        | panic => exact absurd rfl hp
        | err =>
          refine ⟨_, w1, rfl, ?_, go (decideUpdate none force dl un) w3⟩
          simp [e2, e3, List.append_assoc]; rfl
        | ok b =>
          refine ⟨_, w1, rfl, ?_, go (decideUpdate (some b) force dl un) w3⟩
          simp [e2, e3, List.append_assoc]; rfl

end Verif
