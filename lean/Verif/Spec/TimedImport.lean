import Verif.Model.TimedImport

/-!
# Specification: the parts of the parser's log
-/

namespace Verif

/-- The messages that are not speed reports. -/
def withoutReports (log : List TimedLine) : List ParseLine :=
  log.filterMap fun
    | .plain l => some l
    | .speed _ => none

/-- The averages in the speed reports. -/
def averages (log : List TimedLine) : List Nat :=
  log.filterMap fun
    | .plain _ => none
    | .speed n => some n

/-- The number `v` is an average: so many lemmas divided by the whole seconds from the first to another reading of the clock, at
least ten. -/
def SpeedOf (clock : Nat → Nat) (v lemmas : Nat) : Prop :=
  ∃ k seconds, seconds = (clock k - clock 0) / 1000000000 ∧ 10 ≤ seconds ∧ v = lemmas / seconds

/-- The names of the open elements, each with a dot before it, after one more token. -/
def placeStep (place : Str) : XTok → Str
  | .start n _ => place ++ 0x2e :: n
  | .stop n => place.take (place.length - n.length - 1)
  | .chars _ => place
  | .other => place

/-- The names of the elements that are open after these tokens, each with a dot before it. -/
def placeOf (ts : List XTok) : Str := ts.foldl placeStep []

/-- Does the token, at this place, end a lemma? -/
def endsLemma (place : Str) : XTok → Bool
  | .stop _ => decide (place = str ".dictionary.lemmata.lemma")
  | _ => false

/-- The number of lemmas that have ended. -/
def lemmasFrom (place : Str) : List XTok → Nat
  | [] => 0
  | x :: ts => (if endsLemma place x then 1 else 0) + lemmasFrom (placeStep place x) ts

/-- The messages of one level, as bytes. -/
def atLevel (v : LogLevel) (log : List TimedLine) : List Str :=
  ((log.map TimedLine.bytes).filter fun m => decide (m.1 = v)).map (·.2)

end Verif
