import Verif.Model.UpdateLog
import Verif.Spec.Loader

/-!
# Words for what a log says
-/

namespace Verif

/-- The step of an update that a message reports. (That compiling succeeded is reported by the *last* message, "compiled
index saved": see `toldSteps`.) -/
def LogLine.tells : LogLine → Option Ev
  | .downloaded => some (.downloaded true)
  | .downloadFailed => some (.downloaded false)
  | .notUpdated => some .notUpdated
  | .unpacked => some (.unpacked true)
  | .unpackFailed => some (.unpacked false)
  | .compileFailed => some (.compiled false)
  | _ => none

/-- The steps a log reports, in order. -/
def toldSteps (log : List LogLine) : List Ev :=
  log.filterMap LogLine.tells ++ if log.getLast? = some .saved then [.compiled true] else []

/-- The last message is an error message. -/
def EndsInError (log : List LogLine) : Prop := ∃ l, log.getLast? = some l ∧ l.level = .error

/-- The files a log says were written, or tried to be written. -/
def LoggedWrite (log : List LogLine) : FName → Prop
  | .archive => .downloaded ∈ log ∨ .downloadFailed ∈ log
  | .xml => .unpacked ∈ log ∨ .unpackFailed ∈ log
  | .compiled => .compileFailed ∈ log ∨ log.getLast? = some .saved

/-- What a log says is true of a call that returned `r` and led from `w` to `w'`. -/
structure LogTrue (env : Env) (log : List LogLine) (r : LRes Unit) (w w' : World) : Prop where
  /-- the last message is an error message exactly if an error is returned -/
  failed : r = .err ↔ EndsInError log
  /-- exactly the steps reported were taken -/
  steps : w'.ev = w.ev ++ toldSteps log
  /-- a file the log does not mention was not touched at any time -/
  files : Touched (LoggedWrite log) w w'
  /-- "downloaded": the archive is a complete body the server sent -/
  downloaded : .downloaded ∈ log → ∃ n status body t, env.get n = .answer status body true ∧
    w'.fs.file .archive = some ⟨body, t⟩
  /-- "unpacked": the dictionary is the content of the archive, all of it -/
  unpacked : .unpacked ∈ log → ∃ a x t, w'.fs.file .archive = some a ∧ env.bunzip a.data = (x, true) ∧
    w'.fs.file .xml = some ⟨x, t⟩
  /-- "saved", as the last message: all that was written of the index is on the disk, the index of the whole dictionary -/
  saved : log.getLast? = some .saved → ∃ d s n t, w'.fs.file .xml = some d ∧
    (PState.init Index.new 0).run env.floatOK (env.tokens d.data).1 = (s, none) ∧ s.ix.optimize.1.save.err = none ∧
    w'.fs.file .compiled = some ⟨accepted (env.room n) s.ix.optimize.1.save.bytes, t⟩ ∧
    (env.late n = false → accepted (env.room n) s.ix.optimize.1.save.bytes = s.ix.optimize.1.save.bytes)
  /-- the numbers are those of the index of the whole dictionary -/
  indexed : ∀ words nodes, .indexed words nodes ∈ log → ∃ d s, w'.fs.file .xml = some d ∧
    (env.tokens d.data).2 = true ∧
    (PState.init Index.new 0).run env.floatOK (env.tokens d.data).1 = (s, none) ∧
    words = s.ix.wordsCount ∧ nodes = s.ix.nodesCount
  /-- no index without the numbers -/
  numbers : .saved ∈ log → ∃ words nodes, .indexed words nodes ∈ log

end Verif
