import Verif.Props.UpdateLog

/-!
# C116 — when "compiled index saved" and "lemmata updated" are true

`not_C116_saved` and `not_C116_updated` show that these messages can be misleading. Here is exactly when.
-/

namespace Verif

/-- C116, "compiled index saved", exactly: if it is the last message and the dictionary on the disk is a document within
capacity, then what is on the disk is a beginning of the compiled index of that document; if it is all of it, the index loads and
answers as the document says, and otherwise a failed write was noticed only on closing, and nothing can be loaded. -/
theorem C116_saved_exact (cfg : LoaderCfg) (env : Env) (force : Bool) (w : World)
    (hp : (update cfg env force w).1 ≠ .panic) (hl : (updateLog cfg env force w).getLast? = some .saved) :
    let fs := (update cfg env force w).2.fs
    ∃ d, fs.file .xml = some d ∧ ∀ doc, env.tokens d.data = (Xml.tokensAll doc, true) →
      Xml.ValidAll env.floatOK [] doc → Declared (entriesOf doc) → DocRoom (entriesOf doc) →
      let all := (PState.run env.floatOK (PState.init Index.new 0) (Xml.tokensAll doc)).1.ix.optimize.1.save.bytes
      ∃ n t, fs.file .compiled = some ⟨accepted (env.room n) all, t⟩ ∧
        (accepted (env.room n) all = all → ∃ ix, LoadsTo fs ix ∧ ServesExactly doc ix) ∧
        (accepted (env.room n) all ≠ all → env.late n = true ∧ LoadFails fs) := by
  intro fs
  have ht := (update_says cfg env force w).1 hp
  obtain ⟨d, s, n, t, a1, a2, a3, a4, a5⟩ := ht.saved hl
  refine ⟨d, a1, fun doc htok hv hdec m => ?_⟩
  obtain ⟨-, -, -, ix, hload, hserves⟩ := C44_exact env.floatOK doc hv hdec m
  rw [htok] at a2
  intro all
  have hall : all = s.ix.optimize.1.save.bytes := by
    show (PState.run env.floatOK (PState.init Index.new 0) (Xml.tokensAll doc)).1.ix.optimize.1.save.bytes = _
    rw [a2]
  rw [a2] at hload
  simp only at hload
  rw [← hall] at hload a4 a5
  have hstrict : ∀ q, q <+: all → q ≠ all → ∃ e, Index.new.load q = .err e := by
    intro q hq hne
    obtain ⟨r, hr⟩ := hq
    rw [← hr] at hload
    refine (Framed_load Index.new).strict_prefix (NoCrash_load Index.new) hload ?_
    rintro rfl
    rw [List.append_nil] at hr
    exact hne hr
  refine ⟨n, t, a4, fun e => ?_, fun e => ⟨?_, ?_⟩⟩
  · have a4' : fs.file .compiled = some ⟨accepted (env.room n) all, t⟩ := a4
    rw [e] at a4'
    exact ⟨ix, (load_full a4' hload hstrict).2, hserves⟩
  · by_contra hn
    exact e (a5 (by simpa using hn))
  · refine load_prefix a4 fun q hq => hstrict q (hq.trans (accepted_prefix _ _)) ?_
    intro he
    have h1 := hq.length_le
    rw [he] at h1
    have h2 := (accepted_prefix (env.room n) all).length_le
    exact e ((accepted_prefix _ _).eq_of_length (by omega))

/-- The hypotheses are met: the sample document, and a disk that takes four bytes of the index, which shows only on closing. -/
example : let env := { (quietEnv (str "bz") 10 (fun n => 100 + n) (fun _ => (str "xml", true))
      (fun _ => (Xml.tokensAll sampleDoc, true))) with room := fun n => if n = 14 then some 4 else none, late := fun _ => true }
    (updateLog ⟨true⟩ env true emptyWorld).getLast? = some .saved ∧ (update ⟨true⟩ env true emptyWorld).1 = .ok () ∧
    ((update ⟨true⟩ env true emptyWorld).2.fs.file .xml).map (·.data) = some (str "xml") ∧
    ((update ⟨true⟩ env true emptyWorld).2.fs.file .compiled).map (·.data.length) = some 4 := by
  refine ⟨?_, ?_, ?_, ?_⟩ <;> decide +kernel

/-- The messages that report a step are not among those that come before the decision. -/
theorem log_before {env : Env} {w : World} {l : LogLine} (hl : l.aside = false) :
    l ∉ requiredLog env w ∧ ∀ f, l ∉ existsLog env f w := by
  constructor
  · intro h
    rw [(required_aside env w l h).1] at hl
    cases hl
  · intro f h
    rw [(exists_aside env f w l h).1] at hl
    cases hl

/-- Unpacking and compiling leave the archive. -/
theorem stepUnpack_archive (cfg : LoaderCfg) (env : Env) (w : World) :
    (stepUnpack cfg env w).2.fs.file .archive = w.fs.file .archive := by
  have h1 : (unpackUpdate cfg env w).2.fs.file .archive = w.fs.file .archive := by
    obtain ⟨l, -, hl⟩ := (unpack_wrote cfg env w).2
    exact hl _ (by simp) .archive (by simp)
  have h2 : ∀ v, (stepCompile env v).2.fs.file .archive = v.fs.file .archive := by
    intro v
    obtain ⟨l, -, hl⟩ := (parse_wrote env v).2
    have := hl (parseUpdate env v).2.fs (by simp) .archive (by simp)
    unfold stepCompile
    cases e : parseUpdate env v with
    | mk r v2 =>
      rw [e] at this
      rcases r with _ | _ | _ <;> exact this
  unfold stepUnpack
  cases e : unpackUpdate cfg env w with
  | mk r w1 =>
    rw [e] at h1
    rcases r with _ | _ | _
    · exact (h2 _).trans h1
    · exact h1
    · exact h1

/-- C116, "lemmata updated", exactly: it is logged without a download exactly if the check failed and, as an error message
says, the archive downloaded earlier is used; then the archive is not touched. -/
theorem C116_updated_exact (cfg : LoaderCfg) (env : Env) (force : Bool) (w : World)
    (hu : .unpacked ∈ updateLog cfg env force w) :
    (.downloaded ∉ updateLog cfg env force w ↔ .recompileDownloaded ∈ updateLog cfg env force w) ∧
    (.recompileDownloaded ∈ updateLog cfg env force w → (isUpdateRequired env w).1 = .err ∧ force = true ∧
      (update cfg env force w).2.fs.file .archive = w.fs.file .archive) := by
  have hR := fun v => (log_before (env := env) (w := v) (l := .unpacked) rfl).1
  have hE := fun v => (log_before (env := env) (w := v) (l := .unpacked) rfl).2
  have hR' := fun v => (log_before (env := env) (w := v) (l := .downloaded) rfl).1
  have hE' := fun v => (log_before (env := env) (w := v) (l := .downloaded) rfl).2
  have hC : ∀ v, ∀ l ∈ compileLog env v, l ≠ .unpacked ∧ l ≠ .downloaded := by
    intro v l hl
    unfold compileLog at hl
    rcases List.mem_append.1 hl with hl | hl
    · have := (parse_quiet env v l hl).1
      constructor <;> rintro rfl <;> cases this
    · split at hl
      · cases hl
      · simp at hl; subst hl; simp
  have hU : ∀ v, .downloaded ∉ unpackLog cfg env v := by
    intro v hl
    unfold unpackLog at hl
    split at hl
    · rcases List.mem_cons.1 hl with hl | hl
      · cases hl
      · exact (hC _ _ hl).2 rfl
    · simp at hl
  have hD : ∀ v, .unpacked ∈ downloadLog cfg env v → .downloaded ∈ downloadLog cfg env v := by
    intro v hl
    unfold downloadLog at hl ⊢
    rcases List.mem_append.1 hl with hl | hl
    · exact absurd hl (hR v)
    · apply List.mem_append_right
      split at hl <;> simp at hl ⊢
  have hcheck := (update_says cfg env force w).2.2.2.2
  have hcheck' : .recompileDownloaded ∈ updateLog cfg env force w → (isUpdateRequired env w).1 = .err :=
    fun h => hcheck.1 (.inr (.inr h))
  have same := required_same env w
  cases hi : isUpdateRequired env w with
  | mk check w1 =>
    rw [hi] at hcheck' same
    have e1 : updateLog cfg env force w = .checkUpdates :: (requiredLog env w ++
        match (motive := LRes Bool × World → List LogLine) (check, w1) with
        | (.panic, _) => []
        | (check, w1) =>
          match fileExists env .archive w1 with
          | (downloaded, w2) =>
            match fileExists env .xml w2 with
            | (unpacked, w3) =>
              let c := match check with | .ok b => some b | _ => none
              existsLog env .archive w1 ++ existsLog env .xml w2 ++ decideLog c force downloaded unpacked ++
              match decideUpdate c force downloaded unpacked with
              | .compile => compileLog env w3
              | .unpack => unpackLog cfg env w3
              | .download => downloadLog cfg env w3
              | .ret _ => []) := by
      unfold updateLog
      rw [hi]
      rcases check with _ | _ | _ <;> rfl
    have e2 : update cfg env force w = match (motive := LRes Bool × World → LRes Unit × World) (check, w1) with
        | (.panic, w1) => (.panic, w1)
        | (check, w1) =>
          match fileExists env .archive w1 with
          | (downloaded, w2) =>
            match fileExists env .xml w2 with
            | (unpacked, w3) =>
              match decideUpdate (match check with | .ok b => some b | _ => none) force downloaded unpacked with
              | .compile => stepCompile env w3
              | .unpack => stepUnpack cfg env w3
              | .download => stepDownload cfg env w3
              | .ret true => (.ok (), w3)
              | .ret false => (.err, w3) := by
      unfold update
      rw [hi]
      rcases check with _ | _ | _ <;> rfl
    have s2 := exists_same env .archive w1
    cases h2 : fileExists env .archive w1 with
    | mk dl w2 =>
      have s3 := exists_same env .xml w2
      rw [h2] at s2
      cases h3 : fileExists env .xml w2 with
      | mk un w3 =>
        rw [h3] at s3
        rcases check with b | _ | _ <;> simp only [h2, h3] at e1 e2
        · have hno : .recompileDownloaded ∉ updateLog cfg env force w := fun h => by cases hcheck' h
          refine ⟨⟨fun hd => absurd ?_ hd, fun h => absurd h hno⟩, fun h => absurd h hno⟩
          cases b with
          | false => 
            rw [e1] at hu
            cases force <;> simp [decideLog, decideUpdate, hR, hE] at hu
            exact absurd rfl (hC _ _ hu).1
          | true =>
            rw [e1] at hu ⊢
            simp [decideLog, decideUpdate, hR, hE] at hu ⊢
            exact .inr (.inr (.inr (hD _ hu)))
        · cases force with
          | false => 
            rw [e1] at hu
            simp [decideLog, decideUpdate, hR, hE] at hu
          | true =>
            cases un with
            | true =>
              rw [e1] at hu
              simp [decideLog, decideUpdate, hR, hE] at hu
              exact absurd rfl (hC _ _ hu).1
            | false =>
              cases dl with
              | false => 
                rw [e1] at hu
                simp [decideLog, decideUpdate, hR, hE] at hu
              | true =>
                refine ⟨⟨fun _ => ?_, fun _ => ?_⟩, fun _ => ⟨rfl, rfl, ?_⟩⟩
                · rw [e1]; simp [decideLog]
                · rw [e1]; simp [decideLog, decideUpdate, hR', hE', hU]
                · rw [e2]
                  have hs : w3.fs = w.fs := by
                    simp only at s2 s3
                    rw [s3, s2]
                    exact same.1
                  show (stepUnpack cfg env w3).2.fs.file .archive = _
                  rw [← hs]
                  exact stepUnpack_archive cfg env w3
        · rw [e1] at hu
          simp [hR] at hu

/-- The hypothesis is met: a forced update while the server cannot be reached. -/
example : .unpacked ∈ updateLog ⟨true⟩ { plainEnv with head := fun _ => .fail } true archiveWorld ∧
    .recompileDownloaded ∈ updateLog ⟨true⟩ { plainEnv with head := fun _ => .fail } true archiveWorld := by
  constructor <;> decide +kernel

end Verif
