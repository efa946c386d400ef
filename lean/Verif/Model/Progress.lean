import Verif.Model.Go

/-!
# Model of the progress reports of an import

The clock is a function: its `k`-th reading in nanoseconds. Go's `time.Now`, `After` and `Since` use the monotonic clock.
`int(d.Seconds())` is the number of whole seconds (the rounding of `float64` is not modelled; it is exact at whole seconds
and keeps the order, so it cannot fall below one). The message itself is not modelled, only its number.
-/

namespace Verif

/-- One second — pkg/opencorpora/parser.go:73, 310 -/
def second : Nat := 1000000000

/-- `defaultLogAverageEachSeconds` — pkg/opencorpora/parser.go:14 -/
def logEach : Nat := 10

/-- The fields of the parser that concern progress, and the number of readings of the clock so far —
pkg/opencorpora/parser.go:34-53 -/
structure Progress where
  reads : Nat
  started : Nat
  reportAfter : Nat
  lemmas : Nat

/-- A report: the reading of the clock that led to it, the whole seconds since the start, the lemmas so far and the printed
average. For pkg/opencorpora/parser.go:308-311. -/
structure Report where
  time : Nat
  seconds : Nat
  lemmas : Nat
  average : Nat

/-- `newParser`: two readings of the clock — pkg/opencorpora/parser.go:72-75 -/
def Progress.init (clock : Nat → Nat) : Progress :=
  { reads := 2, started := clock 0, reportAfter := clock 1 + second * logEach, lemmas := 0 }

/-- The end of a lemma: stop at the limit (`none`), or report when it is time; a division by zero is a panic —
pkg/opencorpora/parser.go:301-313 -/
def Progress.lemmaDone (clock : Nat → Nat) (max : Int) (p : Progress) : Out (Option (Progress × List Report)) :=
  if 0 < max ∧ max ≤ ((p.lemmas + 1 : Nat) : Int) then .ok none
  else if p.reportAfter < clock p.reads then
    let s := (clock (p.reads + 1) - p.started) / second
    if s = 0 then .panic
    else .ok (some ({ p with
        reads := p.reads + 3, lemmas := p.lemmas + 1, reportAfter := clock (p.reads + 2) + second * logEach },
      [⟨clock p.reads, s, p.lemmas + 1, (p.lemmas + 1) / s⟩]))
  else .ok (some ({ p with reads := p.reads + 1, lemmas := p.lemmas + 1 }, []))

/-- The reports during `n` lemmas — pkg/opencorpora/parser.go:301-313 -/
def Progress.run (clock : Nat → Nat) (max : Int) : Nat → Progress → Out (List Report)
  | 0, _ => .ok []
  | n + 1, p => (p.lemmaDone clock max).bind fun
    | none => .ok []
    | some (p, rs) => (Progress.run clock max n p).bind fun rest => .ok (rs ++ rest)

end Verif
