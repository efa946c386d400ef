import Verif.Props.Loader

/-!
# C61, C62 — what there is to load after an update
-/

namespace Verif

/-- An index answers as the document says (the statement of C44): the tags are the declared grammemes; a string (not
starting with NUL) is found exactly if it is a non-empty prefix of a form; the readings of a found string are the tag
lists of the forms spelled like it, each once (said for strings of which no form is without tags). -/
def Serves (doc : List Xml) (ix : Index) : Prop :=
  ix.tags = declaredTags (entriesOf doc) ∧
  ∀ w, NoLeadingNul (decodeRunes w) →
    ((∃ id, (ix.fetchString w).2 = .ok id) ↔
      w ≠ [] ∧ ∃ f ∈ allForms (entriesOf doc), decodeRunes w <+: decodeRunes f.1) ∧
    ((∃ id, (ix.fetchString w).2 = .ok id) ∨ ∃ e, (ix.fetchString w).2 = .err e) ∧
    ∀ id, (ix.fetchString w).2 = .ok id → [] ∉ tagListsOf w (allForms (entriesOf doc)) →
      ∃ L, ix.tagSetsOf id = .ok L ∧ ExactReadings ix.tags (tagListsOf w (allForms (entriesOf doc))) L

/-- `ParseUpdate` returned nil: the file was read completely, parsed to the end, and an index was saved. -/
theorem parse_ok {env : Env} {w w' : World} (h : parseUpdate env w = (.ok (), w')) :
    ∃ d s e, w.fs.file .xml = some d ∧ w'.fs.file .xml = some d ∧ (e = some .controlledStop ∨ e = none) ∧
      (∃ got, (∃ n, got = accepted (env.readable n) d.data) ∧ (PState.init Index.new 0).run env.floatOK (env.tokens got).1 = (s, e) ∧
        (e = none → got = d.data)) ∧
      saveIndex env s.ix w.tick = (.ok (), w') := by
  have hw := (parse_wrote env w).2
  rw [h] at hw
  obtain ⟨l, -, hl⟩ := hw
  have hx : w'.fs.file .xml = w.fs.file .xml := hl w'.fs (by simp) .xml (by simp)
  unfold parseUpdate openFile at h
  split at h
  · cases h
  · rename_i x bytes whole w1 ho
    split at ho
    · cases ho
    · cases hf : w.fs.file .xml with
      | none => rw [hf] at ho; cases ho
      | some d =>
        rw [hf] at ho
        simp only [Prod.mk.injEq, Option.some.injEq] at ho
        obtain ⟨⟨rfl, rfl⟩, rfl⟩ := ho
        obtain ⟨s, e, he⟩ : ∃ s e, (PState.init Index.new 0).run env.floatOK
            (env.tokens (accepted (env.readable w.n) d.data)).1 = (s, e) := ⟨_, _, rfl⟩
        simp only [he] at h
        split at h
        · rename_i hc
          refine ⟨d, s, e, rfl, hx.trans hf, ?_, ⟨_, ⟨_, rfl⟩, he, ?_⟩, ?_⟩
          · rcases hc with hc | hc
            · exact .inl hc
            · exact .inr hc.1
          · rintro rfl
            rcases hc with hc | hc
            · cases hc
            · exact of_decide_eq_true hc.2.1
          · split at h
            · rename_i h'; rw [h']; exact h
            · cases h
        · cases h

/-- If `Update` returns nil it ended with a successful compilation, or it changed nothing at all. -/
theorem update_ok {cfg : LoaderCfg} {env : Env} {force : Bool} {w w' : World}
    (h : update cfg env force w = (.ok (), w')) :
    (∃ w0 w1, parseUpdate env w0 = (.ok (), w1) ∧ w'.fs = w1.fs) ∨
    (w'.fs = w.fs ∧ ∀ b, ¬ (.compiled b ∈ w'.ev.drop w.ev.length)) := by
  have hcomp : ∀ v, stepCompile env v = (.ok (), w') →
      ∃ w0 w1, parseUpdate env w0 = (.ok (), w1) ∧ w'.fs = w1.fs := by
    intro v hv
    unfold stepCompile at hv
    cases e : parseUpdate env v with
    | mk r w1 =>
      rw [e] at hv
      cases r with
      | ok u => simp only [Prod.mk.injEq, true_and] at hv; exact ⟨v, w1, e, by rw [← hv]; rfl⟩
      | err => cases hv
      | panic => cases hv
  have hunp : ∀ v, stepUnpack cfg env v = (.ok (), w') →
      ∃ w0 w1, parseUpdate env w0 = (.ok (), w1) ∧ w'.fs = w1.fs := by
    intro v hv
    unfold stepUnpack at hv
    cases e : unpackUpdate cfg env v with
    | mk r w1 =>
      rw [e] at hv
      cases r with
      | ok u => exact hcomp _ hv
      | err => cases hv
      | panic => cases hv
  have hT := update_took cfg env force w
  rw [h] at hT
  unfold update at h
  cases e1 : isUpdateRequired env w with
  | mk r w1 =>
    rw [e1] at h hT
    have h1 : Same w w1 := by have := required_same env w; rw [e1] at this; exact this
    have h2 := exists_same env .archive w1
    cases e2 : fileExists env .archive w1 with
    | mk dl w2 =>
      rw [e2] at h2
      simp only at h2
      subst h2
      have h3 := exists_same env .xml w1.tick
      cases e3 : fileExists env .xml w1.tick with
      | mk un w3 =>
        rw [e3] at h3
        simp only at h3
        subst h3
        have hs' : Same w w1.tick.tick := (h1.trans (tick_same _)).trans (tick_same _)
        have main : ∀ g, (match g with
            | Goto.compile => stepCompile env w1.tick.tick
            | .unpack => stepUnpack cfg env w1.tick.tick
            | .download => stepDownload cfg env w1.tick.tick
            | .ret true => (.ok (), w1.tick.tick)
            | .ret false => (.err, w1.tick.tick)) = (.ok (), w') →
            (∃ w0 w1, parseUpdate env w0 = (.ok (), w1) ∧ w'.fs = w1.fs) ∨
            (w'.fs = w.fs ∧ ∀ b, ¬ (.compiled b ∈ w'.ev.drop w.ev.length)) := by
          intro g hg
          match g, hg with
          | .compile, hg => exact .inl (hcomp _ hg)
          | .unpack, hg => exact .inl (hunp _ hg)
          | .ret true, hg =>
            right
            simp only [Prod.mk.injEq, true_and] at hg
            rw [← hg]
            exact ⟨hs'.1, by rw [hs'.2.2]; simp⟩
          | .ret false, hg => cases hg
          | .download, hg =>
            simp only at hg
            have ht := download_took cfg env w1.tick.tick
            rw [hg] at ht
            unfold stepDownload at hg
            cases e4 : downloadUpdate cfg env w1.tick.tick with
            | mk r w4 =>
              rw [e4] at hg
              cases r with
              | err => cases hg
              | panic => cases hg
              | ok b =>
                cases b with
                | true => exact .inl (hunp _ hg)
                | false =>
                  right
                  simp only [Prod.mk.injEq, true_and] at hg
                  subst hg
                  have hw := download_wrote cfg env w1.tick.tick
                  rw [e4] at hw
                  obtain ⟨es, t, hes⟩ := ht
                  have ht' := t.ev
                  simp only [World.note] at ht'
                  rw [hw.1, List.append_right_inj] at ht'
                  have hst : w4 = (isUpdateRequired env w1.tick.tick).2 := by
                    unfold downloadUpdate at e4
                    cases e1 : isUpdateRequired env w1.tick.tick with
                    | mk r w5 =>
                      rw [e1] at e4
                      cases r with
                      | err => cases e4
                      | panic => cases e4
                      | ok b =>
                        cases b with
                        | false => simp only [Prod.mk.injEq] at e4; exact e4.2.symm
                        | true =>
                          exfalso
                          simp only at e4
                          split at e4
                          · cases e4
                          · split at e4
                            · cases e4
                            · split at e4
                              · cases e4
                              · split at e4 <;> cases e4
                  have hsm : Same w w4 := by rw [hst]; exact hs'.trans (required_same env _)
                  refine ⟨hsm.1, ?_⟩
                  intro b hb
                  simp only [World.note, hsm.2.2, List.drop_left] at hb
                  simp at hb
        cases r with
        | panic => cases h
        | err => simp only [e2, e3] at h; exact main _ h
        | ok b => simp only [e2, e3] at h; exact main _ h

/-- C61, if `Update` compiled (and no write error went unnoticed): after `Update` returned nil, the compiled index on
the disk is that of the unpacked dictionary on the disk. -/
theorem C61_partial (cfg : LoaderCfg) (env : Env) (force : Bool) (w w' : World) (b : Bool)
    (hlate : ∀ n, env.late n = false) (h : update cfg env force w = (.ok (), w'))
    (hb : .compiled b ∈ w'.ev.drop w.ev.length) :
    ∃ d s got t, w'.fs.file .xml = some d ∧ got <+: d.data ∧
      ((PState.init Index.new 0).run env.floatOK (env.tokens got).1 = (s, none) ∧ got = d.data ∨
        (PState.init Index.new 0).run env.floatOK (env.tokens got).1 = (s, some .controlledStop)) ∧
      s.ix.optimize.1.save.err = none ∧
      w'.fs.file .compiled = some ⟨s.ix.optimize.1.save.bytes, t⟩ := by
  rcases update_ok h with ⟨w0, w1, hp, he⟩ | ⟨-, hno⟩
  · obtain ⟨d, s, e, -, hx, hs, ⟨got, ⟨gn, hg1⟩, hg2, hg3⟩, hsave⟩ := parse_ok hp
    obtain ⟨l, -, -, -, h4⟩ := save_states env s.ix w0.tick
    rw [hsave] at h4
    obtain ⟨-, herr, t, n, hf, hn⟩ := h4 rfl
    rw [hn (hlate n)] at hf
    refine ⟨d, s, got, t, by rw [he]; exact hx, hg1 ▸ accepted_prefix _ _, ?_, herr, by rw [he]; exact hf⟩
    rcases hs with rfl | rfl
    · exact .inr hg2
    · exact .inl ⟨hg2, hg3 rfl⟩
  · exact absurd hb (hno b)

/-! ## C62 — a first update in which nothing fails -/

theorem create_ok {env : Env} (hc : env.Calm) (f : FName) {w : World} (hd : w.fs.dir = true) :
    createFile env f w = (true, (w.set (w.fs.put f (some ⟨[], env.now w.n⟩))).tick) := by
  unfold createFile; rw [if_neg (by simp [hc.create, hd])]

theorem copy_ok {env : Env} (hc : env.Calm) (f : FName) (bytes : Str) (w : World) :
    copyTo env f bytes true w = (true, (w.grow f bytes (env.now w.n)).tick) := by
  unfold copyTo; rw [hc.room]; simp [accepted]

theorem open_ok {env : Env} (hc : env.Calm) {f : FName} {w : World} {d : FileData} (h : w.fs.file f = some d) :
    openFile env f w = (some (d.data, true), w.tick) := by
  unfold openFile; rw [if_neg (by simp [hc.opens]), h, hc.reads]; simp [accepted]

theorem mkdir_ok {env : Env} (hc : env.Calm) (w : World) :
    makeDataPath ⟨true⟩ env w = (true, (w.set { w.fs with dir := true }).tick) := by
  unfold makeDataPath; rw [if_neg (by simp [hc.mkdir])]; rfl

/-- If nothing fails, an update is required and the server delivers an archive that unpacks to a text whose index can be
compiled, saved and loaded, then `Update` returns nil and `LoadIndex` returns that index. -/
theorem update_loads (env : Env) (force : Bool) (w : World) (hc : env.Calm)
    (hreq : ∀ v, v.fs = w.fs → (isUpdateRequired env v).1 = .ok true)
    (body xml : Str) (hget : ∀ n, env.get n = .answer 200 body true) (hbz : env.bunzip body = (xml, true))
    (doc : List Xml) (htok : env.tokens xml = (Xml.tokensAll doc, true)) (ix : Index)
    (p1 : ((PState.init Index.new 0).run env.floatOK (Xml.tokensAll doc)).2 = none)
    (p2 : ((PState.init Index.new 0).run env.floatOK (Xml.tokensAll doc)).1.ix.optimize.2 = .ok ())
    (p3 : ((PState.init Index.new 0).run env.floatOK (Xml.tokensAll doc)).1.ix.optimize.1.save.err = none)
    (p4 : Index.new.load ((PState.init Index.new 0).run env.floatOK (Xml.tokensAll doc)).1.ix.optimize.1.save.bytes =
      .ok (ix, [])) :
    ∃ w', update ⟨true⟩ env force w = (.ok (), w') ∧
      w'.ev = w.ev ++ [.downloaded true, .unpacked true, .compiled true] ∧ LoadsTo w'.fs ix := by
  -- the check
  have h1 := required_same env w
  have r1 := hreq w rfl
  obtain ⟨w1, e1⟩ : ∃ w1, isUpdateRequired env w = (.ok true, w1) := ⟨_, Prod.ext r1 rfl⟩
  rw [e1] at h1
  have e2 := exists_same env .archive w1
  have e3 := exists_same env .xml w1.tick
  obtain ⟨dl, hdl⟩ : ∃ dl, fileExists env .archive w1 = (dl, w1.tick) := ⟨_, Prod.ext rfl e2⟩
  obtain ⟨un, hun⟩ : ∃ un, fileExists env .xml w1.tick = (un, w1.tick.tick) := ⟨_, Prod.ext rfl e3⟩
  have hup : update ⟨true⟩ env force w = stepDownload ⟨true⟩ env w1.tick.tick := by
    unfold update; rw [e1]; simp only [hdl, hun, decideUpdate]
  have hs2 : Same w w1.tick.tick := (h1.trans (tick_same _)).trans (tick_same _)
  -- the download
  have h4 := required_same env w1.tick.tick
  obtain ⟨w4, e4⟩ : ∃ w4, isUpdateRequired env w1.tick.tick = (.ok true, w4) :=
    ⟨_, Prod.ext (hreq _ hs2.1) rfl⟩
  rw [e4] at h4
  replace h4 : Same w w4 := hs2.trans h4
  obtain ⟨w5, e5⟩ : ∃ w5, makeDataPath ⟨true⟩ env w4 = (true, w5) ∧ w5.fs.dir = true ∧ w5.ev = w.ev := by
    rw [mkdir_ok hc]; exact ⟨_, rfl, rfl, h4.2.2⟩
  obtain ⟨w6, e6, d6, v6⟩ : ∃ w6, createFile env .archive w5.tick = (true, w6) ∧ w6.fs.dir = true ∧ w6.ev = w.ev := by
    rw [create_ok hc .archive (show w5.tick.fs.dir = true from e5.2.1)]; exact ⟨_, rfl, e5.2.1, e5.2.2⟩
  obtain ⟨w7, e7, d7, v7, a7⟩ : ∃ w7, copyTo env .archive body true w6 = (true, w7) ∧ w7.fs.dir = true ∧
      w7.ev = w.ev ∧ ∃ t, w7.fs.file .archive = some ⟨body, t⟩ := by
    rw [copy_ok hc]; exact ⟨_, rfl, d6, v6, _, put_self _ _ _⟩
  have hdown : downloadUpdate ⟨true⟩ env w1.tick.tick = (.ok true, w7) := by
    unfold downloadUpdate; rw [e4]; simp only [e5.1, hget, e6, e7]
  obtain ⟨ta, a7⟩ := a7
  -- unpacking
  obtain ⟨w8, e8, d8, v8, a8⟩ : ∃ w8, makeDataPath ⟨true⟩ env (w7.note (.downloaded true)) = (true, w8) ∧
      w8.fs.dir = true ∧ w8.ev = w.ev ++ [.downloaded true] ∧ w8.fs.file .archive = some ⟨body, ta⟩ := by
    rw [mkdir_ok hc]; exact ⟨_, rfl, rfl, by simp [World.tick, World.set, World.note, v7], a7⟩
  have e9 := open_ok hc a8
  obtain ⟨w10, e10, d10, v10⟩ : ∃ w10, createFile env .xml w8.tick = (true, w10) ∧ w10.fs.dir = true ∧
      w10.ev = w.ev ++ [.downloaded true] := by
    rw [create_ok hc .xml (show w8.tick.fs.dir = true from d8)]; exact ⟨_, rfl, d8, v8⟩
  obtain ⟨w11, e11, d11, v11, a11⟩ : ∃ w11, copyTo env .xml xml true w10 = (true, w11) ∧ w11.fs.dir = true ∧
      w11.ev = w.ev ++ [.downloaded true] ∧ ∃ t, w11.fs.file .xml = some ⟨xml, t⟩ := by
    rw [copy_ok hc]; exact ⟨_, rfl, d10, v10, _, put_self _ _ _⟩
  obtain ⟨tx, a11⟩ := a11
  have hunp : unpackUpdate ⟨true⟩ env (w7.note (.downloaded true)) = (.ok (), w11) := by
    unfold unpackUpdate; rw [e8]; simp only [e9, e10, hbz, Bool.and_self, e11]
  -- compiling
  obtain ⟨v, hv12⟩ : ∃ v, v = w11.note (.unpacked true) := ⟨_, rfl⟩
  have a12 : v.fs.file .xml = some ⟨xml, tx⟩ := by rw [hv12]; exact a11
  have e12 := open_ok hc a12
  obtain ⟨s, hs⟩ : ∃ s, (PState.init Index.new 0).run env.floatOK (Xml.tokensAll doc) = (s, none) :=
    ⟨_, Prod.ext rfl p1⟩
  rw [hs] at p1 p2 p3 p4
  simp only at p1 p2 p3 p4
  obtain ⟨jx, hj⟩ : ∃ jx, s.ix.optimize = (jx, .ok ()) := ⟨_, Prod.ext rfl p2⟩
  rw [hj] at p3 p4
  simp only at p3 p4
  obtain ⟨w13, e13, d13, v13⟩ : ∃ w13, createFile env .compiled v.tick = (true, w13) ∧ w13.fs.dir = true ∧
      w13.ev = w.ev ++ [.downloaded true, .unpacked true] := by
    rw [create_ok hc .compiled (show v.tick.fs.dir = true by rw [hv12]; exact d11)]
    exact ⟨_, rfl, by rw [hv12]; exact d11, by rw [hv12]; simp [World.tick, World.set, World.note, v11]⟩
  have e14 : saveIndex env s.ix v.tick = (.ok (), (w13.grow .compiled jx.save.bytes (env.now w13.n)).tick) := by
    unfold saveIndex
    rw [e13]
    simp only [hj]
    have ha : accepted (env.room w13.n) jx.save.bytes = jx.save.bytes := by rw [hc.room]; rfl
    rw [if_neg (by rw [ha]; simp [p3]), ha]
  have hparse : parseUpdate env v = (.ok (), (w13.grow .compiled jx.save.bytes (env.now w13.n)).tick) := by
    unfold parseUpdate
    rw [e12]
    simp only [htok, hs]
    rw [if_pos (by simp), e14]
  refine ⟨(w13.grow .compiled jx.save.bytes (env.now w13.n)).tick.note (.compiled true), ?_, ?_, ?_⟩
  · rw [hup]
    unfold stepDownload
    rw [hdown]
    simp only
    unfold stepUnpack
    rw [hunp]
    simp only
    unfold stepCompile
    rw [← hv12, hparse]
  · simp [World.note, World.tick, World.grow, v13]
  · refine (load_full (p := jx.save.bytes) (t := env.now w13.n) (ix := ix) (put_self _ _ _) p4 ?_).2
    intro q hq hne
    obtain ⟨r, hr⟩ := hq
    rw [← hr] at p4
    refine (Framed_load Index.new).strict_prefix (NoCrash_load Index.new) p4 ?_
    rintro rfl
    rw [List.append_nil] at hr
    exact hne hr

/-- C62 (up to strings starting with NUL and forms without tags, as in C44): if nothing fails, an update is required, the server delivers an archive that unpacks to the text of a
document of the format within capacity, then `Update` returns nil and `LoadIndex` afterwards returns an index that
answers as the document says. -/
theorem C62_partial (env : Env) (force : Bool) (w : World) (hc : env.Calm)
    (hreq : ∀ v, v.fs = w.fs → (isUpdateRequired env v).1 = .ok true)
    (body xml : Str) (hget : ∀ n, env.get n = .answer 200 body true) (hbz : env.bunzip body = (xml, true))
    (doc : List Xml) (htok : env.tokens xml = (Xml.tokensAll doc, true))
    (hv : Xml.ValidAll env.floatOK [] doc) (hd : Declared (entriesOf doc)) (m : DocRoom (entriesOf doc)) :
    ∃ w' ix, update ⟨true⟩ env force w = (.ok (), w') ∧
      w'.ev = w.ev ++ [.downloaded true, .unpacked true, .compiled true] ∧ LoadsTo w'.fs ix ∧ Serves doc ix := by
  obtain ⟨p1, p2, p3, ix, p4, p5, p6⟩ := C44_partial env.floatOK doc hv hd m
  obtain ⟨w', h1, h2, h3⟩ := update_loads env force w hc hreq body xml hget hbz doc htok ix p1 p2 p3 p4
  exact ⟨w', ix, h1, h2, h3, p5, p6⟩

/-- The hypotheses of C62 are met: the sample document, an empty directory. -/
example : ∃ w' ix, update ⟨true⟩ (quietEnv (str "bz") 10 (fun n => 100 + n) (fun _ => (str "xml", true))
      (fun _ => (Xml.tokensAll sampleDoc, true))) true emptyWorld = (.ok (), w') ∧
    w'.ev = emptyWorld.ev ++ [.downloaded true, .unpacked true, .compiled true] ∧ LoadsTo w'.fs ix ∧
    Serves sampleDoc ix := by
  refine C62_partial _ true emptyWorld (quietEnv_calm _ _ _ _ _) ?_ (str "bz") (str "xml") (fun _ => rfl) rfl
    sampleDoc rfl sampleDoc_valid sampleDoc_declared sampleDoc_room
  intro v hv
  unfold isUpdateRequired statFile
  rw [hv]
  rfl

end Verif
