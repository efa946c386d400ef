import Verif.Model.Progress
import Verif.Model.ImportText

/-!
# Model of an import with its clock

`Model/Parser.lean` and `Model/ParserLog.lean` leave out the speed reports, `Model/Progress.lean` has nothing else. Here is
both: the parser as it works through the tokens of a dictionary, reads the clock and logs. The clock is a function, as in
`Model/Progress.lean`; if it goes backwards so far that the time since the start is negative, that time is taken to be zero.
-/

namespace Verif

/-- The messages of the parser with the speed reports — pkg/opencorpora/parser.go:132, 153, 293-297, 309 -/
inductive TimedLine where
  /-- a message that does not depend on the clock -/
  | plain (l : ParseLine)
  /-- "avg … lemma/sec" -/
  | speed (average : Nat)
  deriving DecidableEq, Repr

/-- Why an import stops: an error or a panic of the parser as in `Model/Parser.lean`, or the integer division by zero of the
speed report, also a panic — pkg/opencorpora/parser.go:107-348 -/
inductive TErr where
  | parser (e : PErr)
  | divide
  deriving DecidableEq, Repr

/-- The parser with its clock: the number of readings so far, `parserStarted` and `reportAfter` —
pkg/opencorpora/parser.go:34-53 -/
structure TState where
  s : PState
  reads : Nat
  started : Nat
  reportAfter : Nat

/-- `newParser`: two readings of the clock — pkg/opencorpora/parser.go:55-101 -/
def TState.init (clock : Nat → Nat) (ix : Index) (maxLemmas : Int) : TState :=
  { s := PState.init ix maxLemmas, reads := 2, started := clock 0, reportAfter := clock 1 + second * logEach }

/-- The token ends a lemma, all forms of which were added, and the limit is not reached: the clock is read —
pkg/opencorpora/parser.go:301-308 -/
def PState.lemmaEnds (s : PState) : XTok → Bool
  | .stop _ => decide (handlerOf s.path = some .lem) && decide ((s.onEnd .lem).2 = none)
  | _ => false

/-- The report, if it is time for one; `lemmas` is the number of lemmas so far — pkg/opencorpora/parser.go:308-311 -/
def TState.report (clock : Nat → Nat) (t : TState) (lemmas : Nat) : TState × List TimedLine × Option TErr :=
  if t.reportAfter < clock t.reads then
    let seconds := (clock (t.reads + 1) - t.started) / second
    if seconds = 0 then ({ t with reads := t.reads + 2 }, [], some .divide)
    else ({ t with reads := t.reads + 3, reportAfter := clock (t.reads + 2) + second * logEach },
      [.speed (lemmas / seconds)], none)
  else ({ t with reads := t.reads + 1 }, [], none)

/-- One token — pkg/opencorpora/parser.go:107-172. The path is shortened after the report (the deferred function of
`ProcessEndElement`, lines 147-149). -/
def TState.token (floatOK : Str → Bool) (clock : Nat → Nat) (t : TState) (x : XTok) : TState × List TimedLine × Option TErr :=
  let log := (t.s.tokenLog x).map .plain
  let r := t.s.token floatOK x
  if t.s.lemmaEnds x then
    match t.report clock (t.s.onEnd .lem).1.parsedLemmas with
    | (t', lines, none) => ({ t' with s := r.1 }, log ++ lines, r.2.map .parser)
    | (t', lines, some e) => ({ t' with s := r.1 }, log ++ lines, some e)
  else ({ t with s := r.1 }, log, r.2.map .parser)

/-- The tokens in order, up to the first error: the loop of `libxml.ParseXMLFile` (outside the repository). For
pkg/opencorpora/loader.go:322. -/
def TState.run (floatOK : Str → Bool) (clock : Nat → Nat) : TState → List XTok → TState × List TimedLine × Option TErr
  | t, [] => (t, [], none)
  | t, x :: xs => match t.token floatOK clock x with
    | (t, log, none) => match TState.run floatOK clock t xs with
      | (t', log', e) => (t', log ++ log', e)
    | (t, log, some e) => (t, log, some e)

/-- A message as it is given to the logger — pkg/opencorpora/parser.go:132, 153, 293: debug; 309: info -/
def TimedLine.bytes : TimedLine → LogLevel × Str
  | .plain l => l.bytes
  | .speed n => (.info, str "avg " ++ (itoa n ++ str " lemma/sec"))

end Verif
