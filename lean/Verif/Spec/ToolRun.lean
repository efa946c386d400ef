import Verif.Model.ToolRun

/-!
# Specification: how a run of the tool can have failed
-/

namespace Verif

/-- The last thing to be seen tells that the run has failed: the logger could not be set up, or there was nothing to load, at
the start or later, or the line editor could not be opened. -/
def TellsFailure (events : List ToolEvent) : Prop :=
  (∃ e, events.getLast? = some (.printed (str "logging: init: " ++ (e ++ [0x0a])))) ∨
  (∃ e, events.getLast? = some (.logged (.error, str "load index: " ++ e))) ∨
  (∃ e, events.getLast? = some (.logged (.error, str "readline: " ++ e)))

/-- The messages in the log. -/
def loggedOf (events : List ToolEvent) : List (LogLevel × Str) :=
  events.filterMap fun
    | .logged m => some m
    | _ => none

end Verif
