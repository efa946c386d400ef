import Verif.Model.ToolLog

/-!
# Model of a whole run of the interactive tool, with the failures of the logger and of the line editor

`toolMain` (`Model/Cli.lean`) and `mainLog` (`Model/ToolLog.lean`) leave out what happens if the logger cannot be set up or the
line editor (package `readline`) cannot be opened, and the deferred closing of the line editor.
-/

namespace Verif

/-- What goes wrong around the session: the texts of the errors of `logging.Init`, `readline.New` and `rl.Close`, if they
fail — cmd/opencorpora_test/main.go:382, 400, 406 -/
structure ToolFaults where
  init : Option Str
  opening : Option Str
  closing : Option Str

/-- What a run does that can be seen from outside, beside its replies — cmd/opencorpora_test/main.go:374-419 -/
inductive ToolEvent where
  /-- written to the standard output by `main` itself -/
  | printed (text : Str)
  | logged (m : LogLevel × Str)
  /-- the line editor is opened -/
  | opened
  /-- the line editor is closed -/
  | closed
  deriving DecidableEq, Repr

/-- The deferred function — cmd/opencorpora_test/main.go:405-409. `os.Exit` ends the process without deferred functions, and so
does the overflow of the stack; a panic runs them first. -/
def deferredClose (f : ToolFaults) : Ending → List ToolEvent
  | .crash => .closed :: match f.closing with
    | none => []
    | some e => [.logged (.warn, str "readline: close: " ++ e)]
  | .exit _ => []
  | .hang => []

/-- `main` — cmd/opencorpora_test/main.go:374-419. `took` is the duration shown, `reason` what follows "load index: ". -/
def toolRun (lib : Lib) (f : ToolFaults) (disk : Option Index) (took reason : Str) (lines : List TypedLine) :
    List ToolEvent × Ending :=
  match f.init with
  | some e => ([.printed (str "logging: init: " ++ (e ++ [0x0a]))], .exit 1)
  | none => match disk with
    | none => ((mainLog lib none took reason []).map .logged, .exit 1)
    | some ix => match f.opening with
      | some e => ((mainLog lib (some ix) took reason []).map .logged ++ [.logged (.error, str "readline: " ++ e)], .exit 1)
      | none =>
        let ending := (toolLoop lib ix (lines.map fun e => (e.line, e.disk))).2
        ((mainLog lib (some ix) took reason []).map .logged ++ (.opened :: ((sessionLog lib ix lines).map .logged ++
          deferredClose f ending)), ending)

end Verif
