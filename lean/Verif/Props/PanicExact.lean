import Verif.Props.UpdateLog
import Verif.Props.LoaderExact
import Verif.Lemmas.UpdateText

/-!
# C55, C116 — exactly when `Update` panics

`not_C55_update` and `not_C116_panic` show that it can. `CheckPanics` is the one cause; it can strike in the first check, or
in the second one, that of `DownloadUpdate`.
-/

namespace Verif

/-- The check that starts with operation `n` panics: the archive cannot be examined, and the server gives a date. -/
def CheckPanics (env : Env) (n : Nat) : Prop := env.statErr n = true ∧ ∃ t, env.head (n + 1) = .answer 200 (.time t)

/-- The number of operations of a check: the server is asked unless the archive is missing. -/
theorem required_ops (env : Env) (w : World) : (isUpdateRequired env w).2.n =
    if env.statErr w.n = false ∧ w.fs.file .archive = none then w.n + 1 else w.n + 2 := by
  unfold isUpdateRequired statFile
  cases hs : env.statErr w.n with
  | true => simp [World.tick]
  | false => cases hf : w.fs.file .archive <;> simp [World.tick]

/-- C116, panics, exactly: `Update`, forced or not, panics exactly if the first check panics, or if it says that an update is
required and the second check panics. Then no file has changed, no step is recorded but a failed download, and after the
last "check update required" there are only debug messages. -/
theorem C116_panic_exact (cfg : LoaderCfg) (env : Env) (force : Bool) (w : World) :
    ((update cfg env force w).1 = .panic ↔ CheckPanics env w.n ∨
      ((isUpdateRequired env w).1 = .ok true ∧
        CheckPanics env ((if env.statErr w.n = false ∧ w.fs.file .archive = none then w.n + 1 else w.n + 2) + 2))) ∧
    ((update cfg env force w).1 = .panic →
      (update cfg env force w).2.fs = w.fs ∧ (update cfg env force w).2.past = w.past ∧
      ((update cfg env force w).2.ev = w.ev ∨ (update cfg env force w).2.ev = w.ev ++ [.downloaded false]) ∧
      ∃ pre post, updateLog cfg env force w = pre ++ .checkRequired :: post ∧ ∀ l ∈ post, l.level = .debug) := by
  have hfst : ∀ v, (isUpdateRequired env v).1 = .panic ↔ CheckPanics env v.n := fun v => (C55_exact env v).1
  have hs := required_same env w
  have hops := required_ops env w
  -- an update that is required is downloaded
  have hdown : (isUpdateRequired env w).1 = .ok true →
      update cfg env force w = stepDownload cfg env (isUpdateRequired env w).2.tick.tick := by
    intro h
    unfold update
    cases e : isUpdateRequired env w with
    | mk r w1 =>
      rw [e] at h
      simp only at h
      subst h
      simp only [decideUpdate, exists_same]
  have hfirst : (isUpdateRequired env w).1 = .panic → update cfg env force w = (.panic, (isUpdateRequired env w).2) := by
    intro h
    unfold update
    cases e : isUpdateRequired env w with
    | mk r w1 =>
      rw [e] at h
      simp only at h
      subst h
      rfl
  have hstep : ∀ v, (isUpdateRequired env v).1 = .panic → stepDownload cfg env v =
      (.panic, (isUpdateRequired env v).2.note (.downloaded false)) := by
    intro v h
    unfold stepDownload downloadUpdate
    cases e : isUpdateRequired env v with
    | mk r w1 =>
      rw [e] at h
      simp only at h
      subst h
      rfl
  have hback : ∀ v, (stepDownload cfg env v).1 = .panic → (isUpdateRequired env v).1 = .panic := by
    intro v h
    have hd : (downloadUpdate cfg env v).1 = .panic := by
      unfold stepDownload at h
      cases e : downloadUpdate cfg env v with
      | mk r v1 =>
        rw [e] at h
        rcases r with b | _ | _
        · cases b with
          | true => exact absurd h (step_no_panic cfg env _).2
          | false => simp at h
        · simp at h
        · rfl
    unfold downloadUpdate at hd
    cases e : isUpdateRequired env v with
    | mk r v1 =>
      rw [e] at hd
      rcases r with b | _ | _
      · exfalso
        cases b with
        | false => simp at hd
        | true =>
          simp only at hd
          revert hd
          repeat' split
          all_goals simp
      · simp at hd
      · rfl
  rw [← hops, ← hfst]
  have hn : (isUpdateRequired env w).2.n + 2 = (isUpdateRequired env w).2.tick.tick.n := rfl
  rw [hn, ← hfst]
  have key : (update cfg env force w).1 = .panic ↔ (isUpdateRequired env w).1 = .panic ∨
      ((isUpdateRequired env w).1 = .ok true ∧
        (isUpdateRequired env (isUpdateRequired env w).2.tick.tick).1 = .panic) := by
    constructor
    · intro h
      rcases (update_panic h).2 with ⟨c, -⟩ | ⟨c, -⟩
      · exact .inl c
      · rw [hdown c] at h
        exact .inr ⟨c, hback _ h⟩
    · rintro (h | ⟨h, h'⟩)
      · rw [hfirst h]
      · rw [hdown h, hstep _ h']
  refine ⟨key, fun h => ?_⟩
  have hlog := (update_panic h).1
  rcases key.1 h with c | ⟨c, c'⟩
  · rw [hfirst c]
    exact ⟨hs.1, hs.2.1, .inl hs.2.2, hlog⟩
  · have hs2 := required_same env (isUpdateRequired env w).2.tick.tick
    rw [hdown c, hstep _ c']
    refine ⟨hs2.1.trans hs.1, hs2.2.1.trans hs.2.1, .inr ?_, hlog⟩
    show (isUpdateRequired env (isUpdateRequired env w).2.tick.tick).2.ev ++ _ = _
    rw [hs2.2.2]
    exact congrArg (· ++ _) hs.2.2

/-- Both cases occur: an archive that cannot be examined, and one that is missing at first and cannot be examined then. -/
example : (update ⟨true⟩ { plainEnv with statErr := fun _ => true } true archiveWorld).1 = .panic ∧
    (update ⟨true⟩ { plainEnv with statErr := fun n => decide (n = 3) } false emptyWorld).1 = .panic ∧
    (isUpdateRequired { plainEnv with statErr := fun n => decide (n = 3) } emptyWorld).1 = .ok true := by
  decide +kernel

/-- Nothing panics if the archive can be examined. -/
example : ¬ CheckPanics plainEnv 0 := by
  unfold CheckPanics
  intro h
  exact absurd h.1 (by decide)

end Verif
