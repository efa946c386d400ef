import Verif.Props.LoaderExact

/-!
# C87 — the checks for files tell the truth, and a forced update goes by them

`IsDownloadExists` and `IsUnpackedExists` answer "yes" exactly if the file can be examined and is there. When the server
cannot be asked, a forced `Update` starts with the unpacked text if that check says yes, else with the archive if that
check says yes, else it gives up without touching anything.
-/

namespace Verif

/-- The file is there and the `k`-th call of the loader, which examines it, does not fail. -/
def Seen (env : Env) (fs : FS) (f : FName) (k : Nat) : Prop := env.statErr k = false ∧ ∃ d, fs.file f = some d

/-- C87 for the two checks: "yes" exactly if the file can be examined and is there; nothing is changed, and no step of an
update is taken. -/
theorem C87_checks (env : Env) (f : FName) (w : World) :
    ((fileExists env f w).1 = true ↔ Seen env w.fs f w.n) ∧
    (fileExists env f w).2.fs = w.fs ∧ (fileExists env f w).2.past = w.past ∧ (fileExists env f w).2.ev = w.ev := by
  refine ⟨?_, by rw [exists_same]; exact tick_same w⟩
  unfold Seen
  cases hs : env.statErr w.n with
  | true => simp [fileExists, statFile, hs]
  | false =>
    rw [exists_eq env f w hs]
    cases w.fs.file f <;> simp

/-- The calls made by a check that fails: one to examine the archive, one to the server. -/
theorem required_err {env : Env} {w : World} (h : (isUpdateRequired env w).1 = .err) :
    (isUpdateRequired env w).2 = w.tick.tick := by
  unfold isUpdateRequired at *
  cases e : statFile env .archive w with
  | mk a b =>
    have hb : b = w.tick := by rw [← stat_same env .archive w, e]
    subst hb
    rw [e] at h
    cases a
    · cases h
    · rfl
    · rfl

/-- C87 for a forced update when the server cannot be asked (the check fails): it compiles the unpacked text if that is
seen; else it unpacks the archive if that is seen, and compiles only if the unpacking succeeded; else it returns an error
and neither the disk nor anything else is touched. -/
theorem C87 (cfg : LoaderCfg) (env : Env) (w : World) (h : (isUpdateRequired env w).1 = .err) :
    (Seen env w.fs .xml (w.n + 3) → ∃ b, (update cfg env true w).2.ev = w.ev ++ [.compiled b] ∧
      ((update cfg env true w).1 = .ok () ↔ b = true)) ∧
    (¬ Seen env w.fs .xml (w.n + 3) → Seen env w.fs .archive (w.n + 2) →
      ((update cfg env true w).2.ev = w.ev ++ [.unpacked false] ∧ (update cfg env true w).1 ≠ .ok ()) ∨
      ∃ b, (update cfg env true w).2.ev = w.ev ++ [.unpacked true, .compiled b] ∧
        ((update cfg env true w).1 = .ok () ↔ b = true)) ∧
    (¬ Seen env w.fs .xml (w.n + 3) → ¬ Seen env w.fs .archive (w.n + 2) →
      (update cfg env true w).1 = .err ∧ (update cfg env true w).2.ev = w.ev ∧
      (update cfg env true w).2.fs = w.fs ∧ (update cfg env true w).2.past = w.past) := by
  have hw := required_err h
  obtain ⟨w1, e1⟩ : ∃ w1, isUpdateRequired env w = (.err, w1) := ⟨_, Prod.ext h rfl⟩
  rw [e1] at hw
  simp only at hw
  subst hw
  have ea := (C87_checks env .archive w.tick.tick).1
  have ex := (C87_checks env .xml w.tick.tick.tick).1
  obtain ⟨dl, hdl⟩ : ∃ dl, fileExists env .archive w.tick.tick = (dl, w.tick.tick.tick) :=
    ⟨_, Prod.ext rfl (exists_same _ _ _)⟩
  obtain ⟨un, hun⟩ : ∃ un, fileExists env .xml w.tick.tick.tick = (un, w.tick.tick.tick.tick) :=
    ⟨_, Prod.ext rfl (exists_same _ _ _)⟩
  rw [hdl] at ea
  rw [hun] at ex
  change dl = true ↔ Seen env w.fs .archive (w.n + 2) at ea
  change un = true ↔ Seen env w.fs .xml (w.n + 3) at ex
  have hs : Same w w.tick.tick.tick.tick := ⟨rfl, rfl, rfl⟩
  have hup : update cfg env true w = match decideUpdate none true dl un with
      | .compile => stepCompile env w.tick.tick.tick.tick
      | .unpack => stepUnpack cfg env w.tick.tick.tick.tick
      | .download => stepDownload cfg env w.tick.tick.tick.tick
      | .ret true => (.ok (), w.tick.tick.tick.tick)
      | .ret false => (.err, w.tick.tick.tick.tick) := by
    unfold update; rw [e1]; simp only [hdl, hun]
    cases decideUpdate none true dl un with
    | ret b => cases b <;> rfl
    | _ => rfl
  rw [hup, ← ea, ← ex]
  refine ⟨?_, ?_, ?_⟩
  · rintro rfl
    obtain ⟨b, t⟩ := compile_took env w.tick.tick.tick.tick
    refine ⟨b, t.ev, ?_⟩
    rw [show decideUpdate none true dl true = .compile from rfl]
    have := t.ok
    simp only
    rw [this]
    cases b <;> simp [Ev.good]
  · intro h1 h2
    rw [Bool.not_eq_true] at h1
    subst h1 h2
    rw [show decideUpdate none true true false = .unpack from rfl]
    simp only
    rcases unpack_took cfg env w.tick.tick.tick.tick with t | ⟨b, t⟩
    · left
      refine ⟨t.ev, ?_⟩
      rw [ne_eq, t.ok]
      simp [Ev.good]
    · right
      refine ⟨b, t.ev, ?_⟩
      rw [t.ok]
      cases b <;> simp [Ev.good]
  · intro h1 h2
    rw [Bool.not_eq_true] at h1 h2
    subst h1 h2
    exact ⟨rfl, rfl, rfl, rfl⟩

/-- The three cases occur: a server that does not answer; with the text, with the archive only, with an archive that
cannot be examined a second time. -/
example : ∃ (env : Env) (w w' : World), (isUpdateRequired env w).1 = .err ∧ Seen env w.fs .xml (w.n + 3) ∧
    (isUpdateRequired env w').1 = .err ∧ ¬ Seen env w'.fs .xml (w'.n + 3) ∧ Seen env w'.fs .archive (w'.n + 2) :=
  ⟨{ plainEnv with head := fun _ => .fail },
    { emptyWorld with fs := { dir := true, file := fun f => if f = .compiled then none else some ⟨str "x", 1⟩ } },
    archiveWorld, by decide, ⟨rfl, _, rfl⟩, by decide, (by rintro ⟨-, d, h⟩; cases h), ⟨rfl, _, rfl⟩⟩

example : ∃ (env : Env) (w : World), (isUpdateRequired env w).1 = .err ∧ ¬ Seen env w.fs .xml (w.n + 3) ∧
    ¬ Seen env w.fs .archive (w.n + 2) ∧ ∃ d, w.fs.file .archive = some d :=
  ⟨{ plainEnv with head := fun _ => .fail, statErr := fun n => n == 2 }, { archiveWorld with n := 0 }, by decide,
    (by rintro ⟨-, d, h⟩; cases h), (by rintro ⟨h, -⟩; cases h), ⟨_, rfl⟩⟩

end Verif
