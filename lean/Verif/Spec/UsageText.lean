import Verif.Model.UsageText

/-!
# Specification: what a usage screen says
-/

namespace Verif

/-- The lines of a text. -/
def screenLines : Str → List Str
  | [] => [[]]
  | c :: s => if c = 0x0a then [] :: screenLines s else
    match screenLines s with
    | [] => [[c]]
    | l :: ls => (c :: l) :: ls

/-- The option that a line of the screen is about, and whether the line says that it is on by default. -/
def optionOf (line : Str) : Option (Str × Bool) :=
  if str "  -" <+: line then
    some ((line.drop 3).takeWhile (· ≠ 0x09), decide (str " (default true)" <:+ line))
  else none

/-- The options on a screen, which begin after the heading and an empty line. -/
def optionsOn (screen : Str) : List (Str × Bool) := ((screenLines screen).drop 2).filterMap optionOf

/-- A truth value as it is written in an argument. -/
def boolText (b : Bool) : Str := if b then str "true" else str "false"

end Verif
