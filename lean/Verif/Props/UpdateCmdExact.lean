import Verif.Props.UpdateCmd
import Verif.Props.LoaderSuccess

/-!
# C70 — what status 0 says without any assumption about the server or the disk
-/

namespace Verif

/-- **C70, exactly**: if the command, with any accepted arguments without `-h`, ends with status 0, then it compiled the
index, or it wrote no file at all: either `-f` was off and the check said that no update is required, or it said that one
is required and the repeated check of the download said that it is not. -/
theorem C70_exact (args : List Str) (ss : List (FlagName × Bool)) (ha : Accepted args ss)
    (hh : lastSetting .h false ss = false) (logOK : Bool) (env : Env) (w w' : World)
    (h : updateMain args logOK env w = (0, w')) :
    logOK = true ∧ (.compiled true ∈ w'.ev.drop w.ev.length ∨
    (w'.fs.file = w.fs.file ∧
      ((isUpdateRequired env w).1 = .ok false ∧ lastSetting .f true ss = false ∨
        (isUpdateRequired env w).1 = .ok true ∧ w'.ev = w.ev ++ [.notUpdated]))) := by
  have hp := parse_values (f := Flags.default) (g := ⟨lastSetting .f true ss, lastSetting .d false ss,
      lastSetting .h false ss⟩) |>.2 ⟨ss, ha, rfl, rfl, rfl⟩
  unfold updateMain at h
  rw [hp, hh] at h
  simp only [Bool.false_eq_true, if_false] at h
  cases logOK with
  | false => simp at h
  | true =>
    simp only [Bool.not_true, Bool.false_eq_true, if_false] at h
    have hu : update ⟨true⟩ env (lastSetting .f true ss) w = (.ok (), w') := by
      cases e : update ⟨true⟩ env (lastSetting .f true ss) w with
      | mk r v => rw [e] at h; cases r <;> simp_all
    refine ⟨rfl, ?_⟩
    have := C61_exact ⟨true⟩ env (lastSetting .f true ss) w (by rw [hu])
    rw [hu] at this
    exact this

/-- The second case happens: `not_C70_changed`. -/
example : ∃ (env : Env) (w w' : World), updateMain [] true env w = (0, w') ∧ Accepted [] [] := by
  obtain ⟨env, w, w', _, _, h, _⟩ := not_C70_changed
  exact ⟨env, w, w', h, .nil⟩

end Verif
