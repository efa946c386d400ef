import Verif.Props.Update
import Verif.Props.LoaderExact

/-!
# C59, C60, C61 — exactly when the loader succeeds

`env.get n`, `env.mkdirErr n` … are the answers of the outside to the `n`-th call; see `Model/Loader.lean`.
-/

namespace Verif

/-- C59, exactly: `DownloadUpdate` reports success if and only if an update is required, the default data directory can be
made, the server answers — *with whatever status* — and the body ends normally, the archive can be created (in the
directory of the loader, which must exist) and the disk takes the body. The body is then the archive. -/
theorem C59_exact (cfg : LoaderCfg) (env : Env) (w : World) :
    let k := (isUpdateRequired env w).2.n
    ((downloadUpdate cfg env w).1 = .ok true ↔
      (isUpdateRequired env w).1 = .ok true ∧ env.mkdirErr k = false ∧ env.createErr (k + 2) = false ∧
      (cfg.standard = true ∨ w.fs.dir = true) ∧
      ∃ status body, env.get (k + 1) = .answer status body true ∧ accepted (env.room (k + 3)) body = body) ∧
    ((downloadUpdate cfg env w).1 = .ok true → ∀ status body c, env.get (k + 1) = .answer status body c →
      ((downloadUpdate cfg env w).2.fs.file .archive).map (·.data) = some body) := by
  intro k
  have hreq := required_same env w
  unfold downloadUpdate
  cases e1 : isUpdateRequired env w with
  | mk r w1 =>
    have hk : k = w1.n := by show (isUpdateRequired env w).2.n = _; rw [e1]
    rw [e1] at hreq
    have hdir : w1.fs = w.fs := hreq.1
    cases r with
    | err => simp
    | panic => simp
    | ok b =>
      cases b with
      | false => simp
      | true =>
        simp only [true_and, hk]
        cases hm : env.mkdirErr w1.n with
        | true => simp [makeDataPath, hm]
        | false =>
          obtain ⟨w2, e2, hn, hd⟩ : ∃ w2, makeDataPath cfg env w1 = (true, w2) ∧ w2.n = w1.n + 1 ∧
              (w2.fs.dir = true ↔ cfg.standard = true ∨ w.fs.dir = true) := by
            unfold makeDataPath
            rw [hm]
            cases hs : cfg.standard with
            | true => exact ⟨_, rfl, rfl, by simp [World.set, World.tick]⟩
            | false => exact ⟨_, rfl, rfl, by simp [World.tick, hdir]⟩
          rw [e2]
          simp only [hn]
          cases hg : env.get (w1.n + 1) with
          | fail => simp
          | answer st body c =>
            simp only
            unfold createFile
            by_cases hc : env.createErr (w1.n + 2) = true ∨ w2.fs.dir = false
            · have hc' : env.createErr w2.tick.n = true ∨ w2.tick.fs.dir = false := by
                rw [show w2.tick.n = w1.n + 2 by show w2.n + 1 = _; rw [hn]]; exact hc
              rw [if_pos hc']
              refine ⟨⟨fun h => (by cases h), ?_⟩, fun h => (by cases h)⟩
              rintro ⟨-, h1, h2, -⟩
              rw [← hd] at h2
              rcases hc with hc | hc
              · rw [h1] at hc; cases hc
              · rw [h2] at hc; cases hc
            · have hc' : ¬ (env.createErr w2.tick.n = true ∨ w2.tick.fs.dir = false) := by
                rw [show w2.tick.n = w1.n + 2 by show w2.n + 1 = _; rw [hn]]; exact hc
              rw [if_neg hc']
              simp only
              have hc1 : env.createErr (w1.n + 2) = false := by
                cases h : env.createErr (w1.n + 2) with
                | false => rfl
                | true => exact absurd (.inl h) hc
              have hc2 : w2.fs.dir = true := by
                cases h : w2.fs.dir with
                | true => rfl
                | false => exact absurd (.inr h) hc
              unfold copyTo
              have hroom : (World.tick ((World.tick w2).set ((World.tick w2).fs.put .archive
                  (some ⟨[], env.now (World.tick w2).n⟩)))).n = w1.n + 3 := by
                show w2.n + 1 + 1 = _; rw [hn]
              simp only [hroom]
              cases c with
              | false =>
                simp only [Bool.false_and]
                exact ⟨⟨fun h => (by cases h), fun ⟨_, _, _, s, b, h, _⟩ => (by cases h)⟩, fun h => (by cases h)⟩
              | true =>
                by_cases ha : accepted (env.room (w1.n + 3)) body = body
                · simp only [ha, decide_true, Bool.and_self]
                  refine ⟨⟨fun _ => ⟨trivial, hc1, hd.1 hc2, st, body, rfl, ha⟩, fun _ => trivial⟩, ?_⟩
                  intro _ s b c' h
                  obtain ⟨-, rfl, -⟩ := GetAns.answer.inj h
                  simp [World.grow, World.tick, FS.put]
                · simp only [ha, decide_false, Bool.and_false]
                  refine ⟨⟨fun h => (by cases h), ?_⟩, fun h => (by cases h)⟩
                  rintro ⟨-, -, -, s, b, h, h'⟩
                  obtain ⟨-, rfl, -⟩ := GetAns.answer.inj h
                  exact absurd h' ha

/-! ## C60 -/

/-- The same disk, the same number of calls and the same steps taken: only the record of earlier states may differ. -/
structure Level (a b : World) : Prop where
  fs : b.fs = a.fs
  n : b.n = a.n
  ev : b.ev = a.ev

/-- The same outcome. -/
def Same2 {α : Type} (x y : LRes α × World) : Prop := y.1 = x.1 ∧ Level x.2 y.2

theorem Level.refl (a : World) : Level a a := ⟨rfl, rfl, rfl⟩

theorem Level.tick {a b : World} (h : Level a b) : Level a.tick b.tick :=
  ⟨h.fs, by show b.n + 1 = a.n + 1; rw [h.n], h.ev⟩

theorem Level.set {a b : World} (h : Level a b) (fs : FS) : Level (a.set fs) (b.set fs) := ⟨rfl, h.n, h.ev⟩

theorem Level.note {a b : World} (h : Level a b) (e : Ev) : Level (a.note e) (b.note e) :=
  ⟨h.fs, h.n, by show b.ev ++ [e] = a.ev ++ [e]; rw [h.ev]⟩

theorem Level.grow {a b : World} (h : Level a b) (f : FName) (x : Str) (t : Int) : Level (a.grow f x t) (b.grow f x t) :=
  ⟨by show b.fs.put f _ = a.fs.put f _; rw [h.fs], h.n, h.ev⟩

theorem Level.stat {a b : World} (h : Level a b) (env : Env) (f : FName) :
    (statFile env f b).1 = (statFile env f a).1 ∧ Level (statFile env f a).2 (statFile env f b).2 := by
  unfold statFile
  rw [h.fs, h.n]
  exact ⟨rfl, h.tick⟩

theorem Level.fileExists {a b : World} (h : Level a b) (env : Env) (f : FName) :
    (fileExists env f b).1 = (fileExists env f a).1 ∧ Level (Verif.fileExists env f a).2 (Verif.fileExists env f b).2 := by
  rw [exists_same, exists_same]
  refine ⟨?_, h.tick⟩
  have hs := (h.stat env f).1
  unfold Verif.fileExists
  cases ea : statFile env f a with
  | mk x y =>
    cases eb : statFile env f b with
    | mk x' y' =>
      rw [ea, eb] at hs
      simp only at hs
      subst hs
      cases x' <;> rfl

theorem Level.required {a b : World} (h : Level a b) (env : Env) :
    Same2 (isUpdateRequired env a) (isUpdateRequired env b) := by
  unfold isUpdateRequired Same2
  obtain ⟨h1, h2⟩ := h.stat env .archive
  cases ea : statFile env .archive a with
  | mk x y =>
    cases eb : statFile env .archive b with
    | mk x' y' =>
      rw [ea, eb] at h1 h2
      simp only at h1 h2
      subst h1
      cases x' with
      | missing => exact ⟨rfl, h2⟩
      | other => exact ⟨by simp only [h2.n], h2.tick⟩
      | found m => exact ⟨by simp only [h2.n], h2.tick⟩

theorem Level.create {a b : World} (h : Level a b) (env : Env) (f : FName) :
    (createFile env f b).1 = (createFile env f a).1 ∧ Level (createFile env f a).2 (createFile env f b).2 := by
  unfold createFile
  rw [h.fs, h.n]
  split
  · exact ⟨rfl, h.tick⟩
  · exact ⟨rfl, (h.set _).tick⟩

theorem Level.copy {a b : World} (h : Level a b) (env : Env) (f : FName) (x : Str) (c : Bool) :
    (copyTo env f x c b).1 = (copyTo env f x c a).1 ∧ Level (copyTo env f x c a).2 (copyTo env f x c b).2 := by
  unfold copyTo
  rw [h.n]
  exact ⟨rfl, (h.grow _ _ _).tick⟩

theorem Level.opened {a b : World} (h : Level a b) (env : Env) (f : FName) :
    (openFile env f b).1 = (openFile env f a).1 ∧ Level (Verif.openFile env f a).2 (Verif.openFile env f b).2 := by
  rw [open_same, open_same]
  refine ⟨?_, h.tick⟩
  unfold Verif.openFile
  rw [h.fs, h.n]
  split
  · rfl
  · split <;> rfl

theorem Level.remove {a b : World} (h : Level a b) (env : Env) (f : FName) :
    Level (removeFile env f a) (removeFile env f b) := by
  unfold removeFile
  rw [h.fs, h.n]
  split
  · exact h.tick
  · exact (h.set _).tick

/-- If the directory exists, it does not matter which loader makes the default directory. -/
theorem Level.mkdir {a b : World} (h : Level a b) (env : Env) (hd : a.fs.dir = true) :
    (makeDataPath ⟨false⟩ env b).1 = (makeDataPath ⟨true⟩ env a).1 ∧
      Level (makeDataPath ⟨true⟩ env a).2 (makeDataPath ⟨false⟩ env b).2 ∧ (makeDataPath ⟨true⟩ env a).2.fs = a.fs := by
  have he : ({ a.fs with dir := true } : FS) = a.fs := by
    cases hf : a.fs with
    | mk d f => rw [hf] at hd; simp only at hd; subst hd; rfl
  unfold makeDataPath
  rw [h.n]
  split
  · exact ⟨rfl, h.tick, rfl⟩
  · rw [if_neg (by simp), if_pos rfl]
    refine ⟨rfl, ⟨?_, h.tick.n, h.ev⟩, he⟩
    show b.fs = { a.fs with dir := true }
    rw [he]; exact h.fs

theorem Level.download {a b : World} (h : Level a b) (env : Env) (hd : a.fs.dir = true) :
    Same2 (downloadUpdate ⟨true⟩ env a) (downloadUpdate ⟨false⟩ env b) := by
  have hr := required_same env a
  obtain ⟨h1, h2⟩ := h.required env
  unfold downloadUpdate
  cases ea : isUpdateRequired env a with
  | mk x a1 =>
    cases eb : isUpdateRequired env b with
    | mk x' b1 =>
      rw [ea, eb] at h1 h2
      rw [ea] at hr
      simp only at h1 h2
      subst h1
      have hd1 : a1.fs.dir = true := by rw [show a1.fs = a.fs from hr.1]; exact hd
      cases x' with
      | err => exact ⟨rfl, h2⟩
      | panic => exact ⟨rfl, h2⟩
      | ok u =>
        cases u with
        | false => exact ⟨rfl, h2⟩
        | true =>
          obtain ⟨m1, m2, -⟩ := h2.mkdir env hd1
          simp only
          cases ma : makeDataPath ⟨true⟩ env a1 with
          | mk p a2 =>
            cases mb : makeDataPath ⟨false⟩ env b1 with
            | mk p' b2 =>
              rw [ma, mb] at m1 m2
              simp only at m1 m2
              subst m1
              cases p' with
              | false => exact ⟨rfl, m2⟩
              | true =>
                simp only [m2.n]
                cases hg : env.get a2.n with
                | fail => exact ⟨rfl, m2.tick⟩
                | answer st body c =>
                  simp only
                  obtain ⟨c1, c2⟩ := m2.tick.create env .archive
                  cases ca : createFile env .archive a2.tick with
                  | mk q a3 =>
                    cases cb : createFile env .archive b2.tick with
                    | mk q' b3 =>
                      rw [ca, cb] at c1 c2
                      simp only at c1 c2
                      subst c1
                      cases q' with
                      | false => exact ⟨rfl, c2⟩
                      | true =>
                        simp only
                        obtain ⟨d1, d2⟩ := c2.copy env .archive body c
                        cases da : copyTo env .archive body c a3 with
                        | mk z a4 =>
                          cases db : copyTo env .archive body c b3 with
                          | mk z' b4 =>
                            rw [da, db] at d1 d2
                            simp only at d1 d2
                            subst d1
                            cases z' <;> exact ⟨rfl, d2⟩

theorem Level.unpack {a b : World} (h : Level a b) (env : Env) (hd : a.fs.dir = true) :
    Same2 (unpackUpdate ⟨true⟩ env a) (unpackUpdate ⟨false⟩ env b) := by
  unfold unpackUpdate
  obtain ⟨m1, m2, -⟩ := h.mkdir env hd
  cases ma : makeDataPath ⟨true⟩ env a with
  | mk p a2 =>
    cases mb : makeDataPath ⟨false⟩ env b with
    | mk p' b2 =>
      rw [ma, mb] at m1 m2
      simp only at m1 m2
      subst m1
      cases p' with
      | false => exact ⟨rfl, m2⟩
      | true =>
        simp only
        obtain ⟨o1, o2⟩ := m2.opened env .archive
        cases oa : openFile env .archive a2 with
        | mk q a3 =>
          cases ob : openFile env .archive b2 with
          | mk q' b3 =>
            rw [oa, ob] at o1 o2
            simp only at o1 o2
            subst o1
            cases q' with
            | none => exact ⟨rfl, o2⟩
            | some y =>
              obtain ⟨bz, whole⟩ := y
              simp only
              obtain ⟨c1, c2⟩ := o2.create env .xml
              cases ca : createFile env .xml a3 with
              | mk q a4 =>
                cases cb : createFile env .xml b3 with
                | mk q' b4 =>
                  rw [ca, cb] at c1 c2
                  simp only at c1 c2
                  subst c1
                  cases q' with
                  | false => exact ⟨rfl, c2⟩
                  | true =>
                    simp only
                    obtain ⟨d1, d2⟩ := c2.copy env .xml (env.bunzip bz).1 (whole && (env.bunzip bz).2)
                    cases da : copyTo env .xml (env.bunzip bz).1 (whole && (env.bunzip bz).2) a4 with
                    | mk z a5 =>
                      cases db : copyTo env .xml (env.bunzip bz).1 (whole && (env.bunzip bz).2) b4 with
                      | mk z' b5 =>
                        rw [da, db] at d1 d2
                        simp only at d1 d2
                        subst d1
                        cases z' <;> exact ⟨rfl, d2⟩

theorem Level.save {a b : World} (h : Level a b) (env : Env) (ix : Index) :
    Same2 (saveIndex env ix a) (saveIndex env ix b) := by
  unfold saveIndex
  obtain ⟨c1, c2⟩ := h.create env .compiled
  cases ca : createFile env .compiled a with
  | mk q a1 =>
    cases cb : createFile env .compiled b with
    | mk q' b1 =>
      rw [ca, cb] at c1 c2
      simp only at c1 c2
      subst c1
      cases q' with
      | false => exact ⟨rfl, c2⟩
      | true =>
        simp only
        cases ho : ix.optimize with
        | mk ix' o =>
          cases o with
          | ok u =>
            simp only [c2.n]
            split
            · exact ⟨rfl, ((c2.grow _ _ _).tick).remove env _⟩
            · exact ⟨rfl, (c2.grow _ _ _).tick⟩
          | err e => exact ⟨rfl, c2⟩
          | panic => exact ⟨rfl, c2⟩
          | diverge => exact ⟨rfl, c2⟩

theorem Level.parse {a b : World} (h : Level a b) (env : Env) : Same2 (parseUpdate env a) (parseUpdate env b) := by
  unfold parseUpdate
  obtain ⟨o1, o2⟩ := h.opened env .xml
  cases oa : openFile env .xml a with
  | mk q a1 =>
    cases ob : openFile env .xml b with
    | mk q' b1 =>
      rw [oa, ob] at o1 o2
      simp only at o1 o2
      subst o1
      cases q' with
      | none => exact ⟨rfl, o2⟩
      | some y =>
        obtain ⟨bytes, whole⟩ := y
        simp only
        split
        · obtain ⟨s1, s2⟩ := o2.save env ((PState.init Index.new 0).run env.floatOK (env.tokens bytes).1).1.ix
          cases sa : saveIndex env ((PState.init Index.new 0).run env.floatOK (env.tokens bytes).1).1.ix a1 with
          | mk z a2 =>
            cases sb : saveIndex env ((PState.init Index.new 0).run env.floatOK (env.tokens bytes).1).1.ix b1 with
            | mk z' b2 =>
              rw [sa, sb] at s1 s2
              simp only at s1 s2
              subst s1
              cases z' <;> exact ⟨rfl, s2⟩
        · exact ⟨rfl, o2⟩

theorem Level.compile {a b : World} (h : Level a b) (env : Env) : Same2 (stepCompile env a) (stepCompile env b) := by
  unfold stepCompile
  obtain ⟨s1, s2⟩ := h.parse env
  cases sa : parseUpdate env a with
  | mk z a2 =>
    cases sb : parseUpdate env b with
    | mk z' b2 =>
      rw [sa, sb] at s1 s2
      simp only at s1 s2
      subst s1
      cases z' <;> exact ⟨rfl, s2.note _⟩

theorem Level.stepUnpack {a b : World} (h : Level a b) (env : Env) (hd : a.fs.dir = true) :
    Same2 (stepUnpack ⟨true⟩ env a) (stepUnpack ⟨false⟩ env b) := by
  unfold Verif.stepUnpack
  obtain ⟨s1, s2⟩ := h.unpack env hd
  cases sa : unpackUpdate ⟨true⟩ env a with
  | mk z a2 =>
    cases sb : unpackUpdate ⟨false⟩ env b with
    | mk z' b2 =>
      rw [sa, sb] at s1 s2
      simp only at s1 s2
      subst s1
      cases z' with
      | ok u => exact (s2.note _).compile env
      | err => exact ⟨rfl, s2.note _⟩
      | panic => exact ⟨rfl, s2.note _⟩

theorem mkdir_dir (env : Env) (w : World) (hd : w.fs.dir = true) (cfg : LoaderCfg) :
    (makeDataPath cfg env w).2.fs.dir = true := by
  unfold makeDataPath
  split
  · exact hd
  · split
    · rfl
    · exact hd

theorem createFile_dir (env : Env) (f : FName) (w : World) : (createFile env f w).2.fs.dir = w.fs.dir := by
  unfold createFile
  split <;> rfl

theorem copy_dir (env : Env) (f : FName) (x : Str) (c : Bool) (w : World) :
    (copyTo env f x c w).2.fs.dir = w.fs.dir := rfl

theorem download_dir (cfg : LoaderCfg) (env : Env) (w : World) :
    (w.fs.dir = true → (downloadUpdate cfg env w).2.fs.dir = true) ∧
    (cfg.standard = false → (downloadUpdate cfg env w).2.fs.dir = w.fs.dir) := by
  have hr := required_same env w
  unfold downloadUpdate
  cases e1 : isUpdateRequired env w with
  | mk x w1 =>
    rw [e1] at hr
    have hfs : w1.fs = w.fs := hr.1
    have key : ∀ v : World, ((w1.fs.dir = true → v.fs.dir = true) ∧ (cfg.standard = false → v.fs.dir = w1.fs.dir)) →
        ((w.fs.dir = true → v.fs.dir = true) ∧ (cfg.standard = false → v.fs.dir = w.fs.dir)) := by
      intro v; rw [hfs]; exact id
    cases x with
    | err => exact key _ ⟨id, fun _ => rfl⟩
    | panic => exact key _ ⟨id, fun _ => rfl⟩
    | ok u =>
      cases u with
      | false => exact key _ ⟨id, fun _ => rfl⟩
      | true =>
        simp only
        have h2 : (w1.fs.dir = true → (makeDataPath cfg env w1).2.fs.dir = true) ∧
            (cfg.standard = false → (makeDataPath cfg env w1).2.fs.dir = w1.fs.dir) := by
          refine ⟨fun h => mkdir_dir env w1 h cfg, fun h => ?_⟩
          unfold makeDataPath
          split
          · rfl
          · rw [if_neg (by rw [h]; simp)]; rfl
        cases e2 : makeDataPath cfg env w1 with
        | mk p w2 =>
          rw [e2] at h2
          cases p with
          | false => exact key _ h2
          | true =>
            simp only
            cases env.get w2.n with
            | fail => exact key _ h2
            | answer st body c =>
              simp only
              have h3 := createFile_dir env .archive w2.tick
              cases e3 : createFile env .archive w2.tick with
              | mk q w3 =>
                rw [e3] at h3
                have h3 : w3.fs.dir = w2.fs.dir := h3
                have h2 : (w1.fs.dir = true → w3.fs.dir = true) ∧ (cfg.standard = false → w3.fs.dir = w1.fs.dir) := by
                  rw [h3]; exact h2
                cases q with
                | false => exact key _ h2
                | true =>
                  simp only
                  have h4 := copy_dir env .archive body c w3
                  cases e4 : copyTo env .archive body c w3 with
                  | mk z w4 =>
                    rw [e4] at h4
                    simp only at h4
                    cases z <;> exact key _ (by simp only [h4]; exact h2)

/-- C60, exactly: a loader with its own data path never makes its directory; and if the directory exists already, it does
what a loader with the default path does — the same results, the same files, the same calls — in every circumstance. -/
theorem C60_exact (env : Env) (force : Bool) (w : World) :
    ((downloadUpdate ⟨false⟩ env w).2.fs.dir = w.fs.dir) ∧
    (w.fs.dir = true →
      Same2 (downloadUpdate ⟨true⟩ env w) (downloadUpdate ⟨false⟩ env w) ∧
      Same2 (unpackUpdate ⟨true⟩ env w) (unpackUpdate ⟨false⟩ env w) ∧
      Same2 (update ⟨true⟩ env force w) (update ⟨false⟩ env force w)) := by
  refine ⟨(download_dir _ env w).2 rfl, fun hd => ⟨(Level.refl w).download env hd, (Level.refl w).unpack env hd, ?_⟩⟩
  unfold update
  have hr := required_same env w
  cases e1 : isUpdateRequired env w with
  | mk x w1 =>
    rw [e1] at hr
    have hd3 : w1.tick.tick.fs.dir = true := by
      show w1.fs.dir = true
      rw [show w1.fs = w.fs from hr.1]; exact hd
    have rest : ∀ g : Goto, Same2
        (match g with
          | .compile => stepCompile env w1.tick.tick
          | .unpack => stepUnpack ⟨true⟩ env w1.tick.tick
          | .download => stepDownload ⟨true⟩ env w1.tick.tick
          | .ret true => (.ok (), w1.tick.tick)
          | .ret false => (.err, w1.tick.tick))
        (match g with
          | .compile => stepCompile env w1.tick.tick
          | .unpack => stepUnpack ⟨false⟩ env w1.tick.tick
          | .download => stepDownload ⟨false⟩ env w1.tick.tick
          | .ret true => (.ok (), w1.tick.tick)
          | .ret false => (.err, w1.tick.tick)) := by
      intro g
      cases g with
      | compile => exact ⟨rfl, .refl _⟩
      | unpack => exact (Level.refl _).stepUnpack env hd3
      | ret b => cases b <;> exact ⟨rfl, .refl _⟩
      | download =>
        simp only
        unfold stepDownload
        obtain ⟨s1, s2⟩ := (Level.refl w1.tick.tick).download env hd3
        have hdd := (download_dir ⟨true⟩ env w1.tick.tick).1 hd3
        cases sa : downloadUpdate ⟨true⟩ env w1.tick.tick with
        | mk z a2 =>
          cases sb : downloadUpdate ⟨false⟩ env w1.tick.tick with
          | mk z' b2 =>
            rw [sa, sb] at s1 s2
            rw [sa] at hdd
            simp only at s1 s2 hdd
            subst s1
            cases z' with
            | ok u =>
              cases u with
              | true => exact (s2.note _).stepUnpack env hdd
              | false => exact ⟨rfl, s2.note _⟩
            | err => exact ⟨rfl, s2.note _⟩
            | panic => exact ⟨rfl, s2.note _⟩
    cases x with
    | panic => exact ⟨rfl, .refl _⟩
    | err =>
      simp only
      have h2 := exists_same env .archive w1
      cases e2 : fileExists env .archive w1 with
      | mk dl w2 =>
        rw [e2] at h2
        simp only at h2
        subst h2
        have h3 := exists_same env .xml w1.tick
        cases e3 : fileExists env .xml w1.tick with
        | mk un w3 =>
          rw [e3] at h3
          simp only at h3
          subst h3
          exact rest _
    | ok u =>
      simp only
      have h2 := exists_same env .archive w1
      cases e2 : fileExists env .archive w1 with
      | mk dl w2 =>
        rw [e2] at h2
        simp only at h2
        subst h2
        have h3 := exists_same env .xml w1.tick
        cases e3 : fileExists env .xml w1.tick with
        | mk un w3 =>
          rw [e3] at h3
          simp only at h3
          subst h3
          exact rest _

/-! ## C61 -/

/-- C61, exactly: if `Update` returned nil, it compiled (and then `C61_partial` says what is on the disk), or it wrote no
file at all: the check or the repeated check had said that no update is required. -/
theorem C61_exact (cfg : LoaderCfg) (env : Env) (force : Bool) (w : World) (h : (update cfg env force w).1 = .ok ()) :
    (.compiled true ∈ (update cfg env force w).2.ev.drop w.ev.length) ∨
    ((update cfg env force w).2.fs.file = w.fs.file ∧
      ((isUpdateRequired env w).1 = .ok false ∧ force = false ∨
        (isUpdateRequired env w).1 = .ok true ∧ (update cfg env force w).2.ev = w.ev ++ [.notUpdated])) := by
  rcases update_took cfg env force w with ⟨es, tk, -, hes⟩ | ⟨hs, hres⟩
  · have hgood := tk.ok.1 h
    have hdrop : (update cfg env force w).2.ev.drop w.ev.length = es := by rw [tk.ev]; simp
    rw [hdrop]
    have quiet : es = [.notUpdated] → (update cfg env force w).2.fs.file = w.fs.file := by
      rintro rfl
      obtain ⟨l, -, hl⟩ := tk.files
      funext g
      refine hl _ (by simp) g ?_
      cases g <;> simp [Writes]
    rcases hes with ⟨hr, h1 | h1 | h1 | ⟨b, h1⟩⟩ | ⟨-, -, b, h1⟩ | ⟨-, -, h1 | ⟨b, h1⟩ | ⟨b, h1⟩⟩
    · subst h1; exact absurd (hgood (.downloaded false) (by simp)) (by simp [Ev.good])
    · exact .inr ⟨quiet h1, .inr ⟨hr, by rw [tk.ev, h1]⟩⟩
    · subst h1; exact absurd (hgood (.unpacked false) (by simp)) (by simp [Ev.good])
    · subst h1
      have := hgood (.compiled b) (by simp)
      simp only [Ev.good] at this
      subst this
      simp
    · subst h1
      have := hgood (.compiled b) (by simp)
      simp only [Ev.good] at this
      subst this
      simp
    · subst h1; exact absurd (hgood (.unpacked false) (by simp)) (by simp [Ev.good])
    · subst h1
      have := hgood (.compiled b) (by simp)
      simp only [Ev.good] at this
      subst this
      simp
    · subst h1
      have := hgood (.compiled b) (by simp)
      simp only [Ev.good] at this
      subst this
      simp
  · refine .inr ⟨by rw [hs.1], .inl ?_⟩
    rcases hres with ⟨-, h1⟩ | ⟨-, h1⟩ | ⟨h1, h2, -⟩
    · rw [h] at h1; cases h1
    · rw [h] at h1; cases h1
    · exact ⟨h1, h2⟩

/-! ## The cases occur -/

example : (downloadUpdate ⟨true⟩ { plainEnv with get := fun _ => .answer 404 (str "no") true } emptyWorld).1 = .ok true := by
  decide

/-- C60: with the directory there, both loaders download. -/
example : archiveWorld.fs.dir = true ∧ emptyWorld.fs.dir = true ∧
    (downloadUpdate ⟨false⟩ plainEnv emptyWorld).1 = .ok true := by decide

end Verif
