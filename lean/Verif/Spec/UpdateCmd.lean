import Verif.Model.UpdateCmd

/-!
# What the command line of the update command means
-/

namespace Verif

/-- The flags of the command. -/
inductive FlagName where
  | f | d | h
  deriving DecidableEq, Repr

/-- Their names on the command line. -/
def FlagName.text : FlagName → Str
  | .f => str "f"
  | .d => str "d"
  | .h => str "h"

/-- The texts that mean a truth value. -/
def boolTexts : Bool → List Str
  | true => [str "1", str "t", str "T", str "true", str "TRUE", str "True"]
  | false => [str "0", str "f", str "F", str "false", str "FALSE", str "False"]

/-- The argument sets the flag to the value: `-f`, `--f`, `-f=true`, `-f=0`, … -/
def Spells (a : Str) (n : FlagName) (b : Bool) : Prop :=
  ∃ dashes ∈ [str "-", str "--"],
    (a = dashes ++ n.text ∧ b = true) ∨ ∃ v ∈ boolTexts b, a = dashes ++ n.text ++ str "=" ++ v

/-- An argument at which flags end: a word that does not start with `-`, or `-`, or `--`. -/
def Plain (a : Str) : Prop := a = str "-" ∨ a = str "--" ∨ ∀ s, a ≠ str "-" ++ s

/-- The arguments are these settings, followed by nothing or by something that starts with a plain argument. -/
inductive Accepted : List Str → List (FlagName × Bool) → Prop
  | nil : Accepted [] []
  | stop (a : Str) (rest : List Str) : Plain a → Accepted (a :: rest) []
  | cons (a : Str) (rest : List Str) (n : FlagName) (b : Bool) (ss : List (FlagName × Bool)) :
    Spells a n b → Accepted rest ss → Accepted (a :: rest) ((n, b) :: ss)

/-- The value of a flag after the settings: the last one counts. -/
def lastSetting (n : FlagName) : Bool → List (FlagName × Bool) → Bool
  | b, [] => b
  | b, (m, c) :: ss => lastSetting n (if m = n then c else b) ss

/-- The server answers every question alike and files can be examined. -/
structure Env.Steady (env : Env) (a : HeadAns) : Prop where
  stat : ∀ n, env.statErr n = false
  head : ∀ n, env.head n = a

/-- The index file that compiling this text yields, if it can be compiled. -/
def compiledBytes (env : Env) (text : Str) : Option Str :=
  match (PState.init Index.new 0).run env.floatOK (env.tokens text).1 with
  | (s, e) =>
    if (e = some .controlledStop ∨ e = none ∧ (env.tokens text).2 = true) ∧
        s.ix.optimize.2 = .ok () ∧ s.ix.optimize.1.save.err = none then
      some s.ix.optimize.1.save.bytes
    else none

end Verif
