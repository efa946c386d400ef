import Verif.Spec.WholeLog
import Verif.Lemmas.UpdateLog

/-! # Lemmas about the log of all loggers of an update -/

namespace Verif

/-- The log while an index is saved. -/
theorem saveWhole_blocks (env : Env) (ix : Index) (w : World) :
    (saveWhole env ix w = [.loader .saveStart] ∧ saveLog env ix w = [.saveStart] ∧ (saveIndex env ix w).1 = .err) ∨
    ∃ c, saveWhole env ix w = [LogLine.saveStart, .indexed ix.wordsCount ix.nodesCount, .optimizing].map .loader ++
        ix.optimizeTold.1.map .optimize ++ c.map .loader ∧
      saveLog env ix w = [.saveStart, .indexed ix.wordsCount ix.nodesCount, .optimizing] ++ c ∧
      c ≠ [] ∧ .startParse ∉ c ∧ .optimizing ∉ c := by
  unfold saveWhole saveLog saveIndex
  cases createFile env .compiled w with
  | mk b w1 =>
    cases b with
    | false => exact .inl ⟨rfl, rfl, rfl⟩
    | true =>
      simp only
      refine .inr ?_
      cases ix.optimize with
      | mk ix' r =>
        cases r with
        | ok u =>
          cases u
          simp only
          split
          · by_cases hr : env.removeErr (w1.n + 1) = true
            · rw [if_pos hr, if_pos hr]
              exact ⟨[.saving, .finishing, .closeIndex, .saveError, .removeError], by simp, by simp, by simp, by simp, by simp⟩
            · rw [if_neg hr, if_neg hr]
              exact ⟨[.saving, .finishing, .closeIndex, .saveError], by simp, by simp, by simp, by simp, by simp⟩
          · exact ⟨[.saving, .finishing, .saved], by simp, by simp, by simp, by simp, by simp⟩
        | err e => exact ⟨[.finishing, .saved], by simp, by simp, by simp, by simp, by simp⟩
        | panic => exact ⟨[.finishing, .saved], by simp, by simp, by simp, by simp, by simp⟩
        | diverge => exact ⟨[.finishing, .saved], by simp, by simp, by simp, by simp, by simp⟩

/-- What is logged of an import, and of which text: `p` by the parser, `o` by `Optimize`, `b` and `c` by the loader. -/
structure ImportLog (env : Env) (w : World) (p : List ParseLine) (b : List LogLine) (o : List OptLine) (c : List LogLine) :
    Prop where
  read : (p = [] ∧ (w.fs.file .xml = none ∨ env.openErr w.n = true)) ∨ ∃ d, w.fs.file .xml = some d ∧
    p = PState.runLog env.floatOK (PState.init Index.new 0) (env.tokens (accepted (env.readable w.n) d.data)).1
  ended : c ≠ []
  optimizing : o ≠ [] → b.getLast? = some .optimizing
  parse : .startParse ∉ b ++ c
  once : .optimizing ∉ c
  saved : .saved ∈ b ++ c → .optimizing ∈ b
  done : .optimizing ∈ b → ∃ d s, w.fs.file .xml = some d ∧ (env.tokens d.data).2 = true ∧
    (PState.init Index.new 0).run env.floatOK (env.tokens d.data).1 = (s, none) ∧
    p = PState.runLog env.floatOK (PState.init Index.new 0) (env.tokens d.data).1 ∧ o = s.ix.optimizeTold.1

theorem parseWhole_cases (env : Env) (w : World) :
    ∃ p, ((p = [] ∧ (w.fs.file .xml = none ∨ env.openErr w.n = true)) ∨ ∃ d, w.fs.file .xml = some d ∧
        p = PState.runLog env.floatOK (PState.init Index.new 0) (env.tokens (accepted (env.readable w.n) d.data)).1) ∧
      ((parseWhole env w = .loader .startParse :: p.map .parser ∧ parseLog env w = [.startParse] ∧
          (parseUpdate env w).1 = .err) ∨
        ∃ d s, w.fs.file .xml = some d ∧ (env.tokens d.data).2 = true ∧
          (PState.init Index.new 0).run env.floatOK (env.tokens d.data).1 = (s, none) ∧
          p = PState.runLog env.floatOK (PState.init Index.new 0) (env.tokens d.data).1 ∧
          parseWhole env w = .loader .startParse :: (p.map .parser ++ saveWhole env s.ix w.tick) ∧
          parseLog env w = .startParse :: saveLog env s.ix w.tick ∧
          ((parseUpdate env w).1 = .ok () ↔ (saveIndex env s.ix w.tick).1 = .ok ())) := by
  unfold parseWhole parseLog parseUpdate openFile
  by_cases ho : env.openErr w.n = true
  · refine ⟨[], .inl ⟨rfl, .inr ho⟩, .inl ?_⟩
    simp [ho]
  · rw [if_neg ho]
    cases hf : w.fs.file .xml with
    | none => exact ⟨[], .inl ⟨rfl, .inl rfl⟩, .inl ⟨rfl, rfl, rfl⟩⟩
    | some d =>
      simp only
      refine ⟨_, .inr ⟨d, rfl, rfl⟩, ?_⟩
      cases hr : (PState.init Index.new 0).run env.floatOK (env.tokens (accepted (env.readable w.n) d.data)).1 with
      | mk s e =>
        simp only
        split
        · rename_i hc
          have hns := PState.run_noStop env.floatOK (env.tokens (accepted (env.readable w.n) d.data)).1
            (PState.init Index.new 0) (by decide)
          rw [hr] at hns
          rcases hc with hc | ⟨rfl, hc, ht⟩
          · exact absurd hc hns
          · have hg := of_decide_eq_true hc
            rw [hg] at hr ht ⊢
            refine .inr ⟨d, s, rfl, ht, hr, rfl, rfl, rfl, ?_⟩
            cases saveIndex env s.ix w.tick with
            | mk r w2 => rcases r with _ | _ | _ <;> simp
        · exact .inl ⟨by rw [List.append_nil], rfl, rfl⟩

/-- The log of an import. -/
theorem compileWhole_blocks (env : Env) (w : World) :
    ∃ p b o c, ImportLog env w p b o c ∧ compileLog env w = .startParse :: (b ++ c) ∧
      compileWhole env w = .loader .startParse ::
        (p.map .parser ++ b.map .loader ++ o.map .optimize ++ c.map .loader) := by
  obtain ⟨p, hp, h⟩ := parseWhole_cases env w
  -- the end of the log
  have hend : ∃ t : List LogLine, (t = [] ∨ t = [.compileFailed]) ∧ ((parseUpdate env w).1 ≠ .ok () → t = [.compileFailed]) ∧
      compileLog env w = parseLog env w ++ t ∧ compileWhole env w = parseWhole env w ++ t.map .loader := by
    unfold compileWhole compileLog
    cases parseUpdate env w with
    | mk r w1 =>
      rcases r with _ | _ | _
      · exact ⟨[], .inl rfl, fun h => absurd rfl h, rfl, rfl⟩
      · exact ⟨[.compileFailed], .inr rfl, fun _ => rfl, rfl, rfl⟩
      · exact ⟨[.compileFailed], .inr rfl, fun _ => rfl, rfl, rfl⟩
  obtain ⟨t, ht, hf, e1, e2⟩ := hend
  have hts : .startParse ∉ t ∧ .optimizing ∉ t := by rcases ht with rfl | rfl <;> simp
  rw [e1, e2]
  rcases h with ⟨h1, h2, h3⟩ | ⟨d, s, hd, htok, hrun, rfl, h1, h2, h3⟩
  · obtain rfl := hf (by rw [h3]; simp)
    refine ⟨p, [], [], [.compileFailed], ⟨hp, by simp, by simp, by simp, by simp, by simp, by simp⟩, by rw [h2]; rfl, by rw [h1]; simp⟩
  · rcases saveWhole_blocks env s.ix w.tick with ⟨s1, s2, s3⟩ | ⟨c, s1, s2, s3, s4, s5⟩
    · obtain rfl := hf (by rw [ne_eq, h3, s3]; simp)
      refine ⟨_, [.saveStart], [], [.compileFailed], ⟨hp, by simp, by simp, by simp, by simp, by simp, by simp⟩, by rw [h2, s2]; rfl,
        by rw [h1, s1]; simp⟩
    · refine ⟨_, [.saveStart, .indexed s.ix.wordsCount s.ix.nodesCount, .optimizing], s.ix.optimizeTold.1, c ++ t,
        ⟨hp, by simp [s3], fun _ => rfl, by simp [s4, hts], by simp [s5, hts], by simp, fun _ => ⟨d, s, hd, htok, hrun, rfl, rfl⟩⟩,
        by rw [h2, s2]; simp, by rw [h1, s1]; simp⟩

/-- The log up to the import, or all of it if nothing is imported. -/
theorem updateWhole_cases (cfg : LoaderCfg) (env : Env) (force : Bool) (w : World) :
    (.startParse ∉ updateLog cfg env force w ∧ .optimizing ∉ updateLog cfg env force w ∧ .saved ∉ updateLog cfg env force w ∧
      updateWhole cfg env force w = (updateLog cfg env force w).map .loader) ∨
    ∃ a w1, .startParse ∉ a ∧ .optimizing ∉ a ∧ updateLog cfg env force w = a ++ compileLog env w1 ∧
      updateWhole cfg env force w = a.map .loader ++ compileWhole env w1 ∧
      update cfg env force w = stepCompile env w1 := by
  have hreq : ∀ v, .startParse ∉ requiredLog env v ∧ .optimizing ∉ requiredLog env v ∧ .saved ∉ requiredLog env v := by
    intro v
    unfold requiredLog
    split
    · simp
    · split
      · simp
      · split
        · simp
        · split <;> simp
  have hex : ∀ f v, .startParse ∉ existsLog env f v ∧ .optimizing ∉ existsLog env f v ∧ .saved ∉ existsLog env f v := by
    intro f v
    unfold existsLog
    split <;> simp
  have hdec : ∀ c f d u, .startParse ∉ decideLog c f d u ∧ .optimizing ∉ decideLog c f d u ∧ .saved ∉ decideLog c f d u := by
    intro c f d u
    rcases c with _ | _ | _ <;> cases f <;> cases d <;> cases u <;> decide
  have hunp : ∀ v, (.startParse ∉ unpackLog cfg env v ∧ .optimizing ∉ unpackLog cfg env v ∧ .saved ∉ unpackLog cfg env v ∧
      unpackWhole cfg env v = (unpackLog cfg env v).map .loader) ∨
      ∃ w1, unpackLog cfg env v = [.unpacked] ++ compileLog env w1 ∧
        unpackWhole cfg env v = [LogLine.unpacked].map .loader ++ compileWhole env w1 ∧
        stepUnpack cfg env v = stepCompile env w1 := by
    intro v
    unfold unpackLog unpackWhole stepUnpack
    cases unpackUpdate cfg env v with
    | mk r w1 =>
      rcases r with _ | _ | _
      · exact .inr ⟨_, rfl, rfl, rfl⟩
      · exact .inl ⟨by simp, by simp, by simp, rfl⟩
      · exact .inl ⟨by simp, by simp, by simp, rfl⟩
  have hdow : ∀ v, (.startParse ∉ downloadLog cfg env v ∧ .optimizing ∉ downloadLog cfg env v ∧ .saved ∉ downloadLog cfg env v ∧
      downloadWhole cfg env v = (downloadLog cfg env v).map .loader) ∨
      ∃ a w1, .startParse ∉ a ∧ .optimizing ∉ a ∧ downloadLog cfg env v = a ++ compileLog env w1 ∧
        downloadWhole cfg env v = a.map .loader ++ compileWhole env w1 ∧
        stepDownload cfg env v = stepCompile env w1 := by
    intro v
    have hq := hreq v
    unfold downloadLog downloadWhole stepDownload
    cases downloadUpdate cfg env v with
    | mk r w1 =>
      rcases r with b | _ | _
      · cases b with
        | false => exact .inl ⟨by simp [hq], by simp [hq], by simp [hq], by simp⟩
        | true =>
          simp only
          rcases hunp (w1.note (.downloaded true)) with ⟨u1, u2, u4, u3⟩ | ⟨w2, u1, u2, u3⟩
          · exact .inl ⟨by simp [hq, u1], by simp [hq, u2], by simp [hq, u4], by simp [u3]⟩
          · refine .inr ⟨requiredLog env v ++ [.downloaded, .unpacked], w2, by simp [hq], by simp [hq], ?_, ?_, u3⟩
            · rw [u1]; simp
            · rw [u2]; simp
      · exact .inl ⟨by simp [hq], by simp [hq], by simp [hq], by simp⟩
      · exact .inl ⟨by simp [hq], by simp [hq], by simp [hq], by simp⟩
  have hq := hreq w
  cases hi : isUpdateRequired env w with
  | mk check w1 =>
    have main : ∀ k : Option Bool, ((∃ b, check = .ok b ∧ k = some b) ∨ (check = .err ∧ k = none)) →
        (.startParse ∉ updateLog cfg env force w ∧ .optimizing ∉ updateLog cfg env force w ∧ .saved ∉ updateLog cfg env force w ∧
          updateWhole cfg env force w = (updateLog cfg env force w).map .loader) ∨
        ∃ a w1, .startParse ∉ a ∧ .optimizing ∉ a ∧ updateLog cfg env force w = a ++ compileLog env w1 ∧
          updateWhole cfg env force w = a.map .loader ++ compileWhole env w1 ∧
          update cfg env force w = stepCompile env w1 := by
      intro k hk
      have e1 : updateLog cfg env force w = .checkUpdates :: (requiredLog env w ++
          (existsLog env .archive w1 ++ existsLog env .xml (fileExists env .archive w1).2 ++
          decideLog k force (fileExists env .archive w1).1 (fileExists env .xml (fileExists env .archive w1).2).1 ++
          match decideUpdate k force (fileExists env .archive w1).1 (fileExists env .xml (fileExists env .archive w1).2).1 with
          | .compile => compileLog env (fileExists env .xml (fileExists env .archive w1).2).2
          | .unpack => unpackLog cfg env (fileExists env .xml (fileExists env .archive w1).2).2
          | .download => downloadLog cfg env (fileExists env .xml (fileExists env .archive w1).2).2
          | .ret _ => [])) := by
        unfold updateLog
        rw [hi]
        rcases hk with ⟨b, rfl, rfl⟩ | ⟨rfl, rfl⟩ <;> rfl
      have e2 : updateWhole cfg env force w = .loader .checkUpdates :: ((requiredLog env w).map .loader ++
          ((existsLog env .archive w1 ++ existsLog env .xml (fileExists env .archive w1).2 ++
          decideLog k force (fileExists env .archive w1).1 (fileExists env .xml (fileExists env .archive w1).2).1).map .loader ++
          match decideUpdate k force (fileExists env .archive w1).1 (fileExists env .xml (fileExists env .archive w1).2).1 with
          | .compile => compileWhole env (fileExists env .xml (fileExists env .archive w1).2).2
          | .unpack => unpackWhole cfg env (fileExists env .xml (fileExists env .archive w1).2).2
          | .download => downloadWhole cfg env (fileExists env .xml (fileExists env .archive w1).2).2
          | .ret _ => [])) := by
        unfold updateWhole
        rw [hi]
        rcases hk with ⟨b, rfl, rfl⟩ | ⟨rfl, rfl⟩ <;> rfl
      have e3 : update cfg env force w = match decideUpdate k force (fileExists env .archive w1).1
            (fileExists env .xml (fileExists env .archive w1).2).1 with
          | .compile => stepCompile env (fileExists env .xml (fileExists env .archive w1).2).2
          | .unpack => stepUnpack cfg env (fileExists env .xml (fileExists env .archive w1).2).2
          | .download => stepDownload cfg env (fileExists env .xml (fileExists env .archive w1).2).2
          | .ret true => (.ok (), (fileExists env .xml (fileExists env .archive w1).2).2)
          | .ret false => (.err, (fileExists env .xml (fileExists env .archive w1).2).2) := by
        unfold update
        rw [hi]
        rcases hk with ⟨b, rfl, rfl⟩ | ⟨rfl, rfl⟩ <;> rfl
      have h1 := hex .archive w1
      have h2 := hex .xml (fileExists env .archive w1).2
      have h3 := hdec k force (fileExists env .archive w1).1 (fileExists env .xml (fileExists env .archive w1).2).1
      rw [e1, e2, e3]
      generalize (fileExists env .archive w1).1 = b1 at *
      generalize (fileExists env .xml (fileExists env .archive w1).2).1 = b2 at *
      generalize (fileExists env .xml (fileExists env .archive w1).2).2 = w3 at *
      generalize (fileExists env .archive w1).2 = w2 at *
      generalize hA : existsLog env .archive w1 = A at *
      generalize hB : existsLog env .xml w2 = B at *
      generalize hD : decideLog k force b1 b2 = D at *
      cases decideUpdate k force b1 b2 with
      | ret b => exact .inl ⟨by simp [hq, h1, h2, h3], by simp [hq, h1, h2, h3], by simp [hq, h1, h2, h3], by simp⟩
      | compile =>
        exact .inr ⟨.checkUpdates :: (requiredLog env w ++ (A ++ B ++ D)), w3, by simp [hq, h1, h2, h3],
          by simp [hq, h1, h2, h3], by simp, by simp, rfl⟩
      | unpack =>
        simp only
        rcases hunp w3 with ⟨u1, u2, u4, u3⟩ | ⟨w4, u1, u2, u3⟩
        · exact .inl ⟨by simp [hq, h1, h2, h3, u1], by simp [hq, h1, h2, h3, u2], by simp [hq, h1, h2, h3, u4], by simp [u3]⟩
        · exact .inr ⟨.checkUpdates :: (requiredLog env w ++ (A ++ B ++ D ++ [.unpacked])), w4, by simp [hq, h1, h2, h3],
            by simp [hq, h1, h2, h3], by simp [u1], by simp [u2], u3⟩
      | download =>
        simp only
        rcases hdow w3 with ⟨u1, u2, u4, u3⟩ | ⟨a, w4, x1, x2, u1, u2, u3⟩
        · exact .inl ⟨by simp [hq, h1, h2, h3, u1], by simp [hq, h1, h2, h3, u2], by simp [hq, h1, h2, h3, u4], by simp [u3]⟩
        · exact .inr ⟨.checkUpdates :: (requiredLog env w ++ (A ++ B ++ D ++ a)), w4, by simp [hq, h1, h2, h3, x1],
            by simp [hq, h1, h2, h3, x2], by simp [u1], by simp [u2], u3⟩
    rcases check with b | _ | _
    · exact main _ (.inl ⟨b, rfl, rfl⟩)
    · exact main _ (.inr ⟨rfl, rfl⟩)
    · refine .inl ?_
      unfold updateLog updateWhole
      rw [hi]
      exact ⟨by simp [hq], by simp [hq], by simp [hq], by simp⟩

end Verif
