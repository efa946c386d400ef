import Verif.Model.Cli
import Verif.Model.Texts

/-!
# Model of the numbers the interactive tool prints and reads

`strconv.ParseInt(s, 0, 0)` and `strconv.ParseUint(s, 0, 32)` of Go's standard library (64-bit `int`), which
`Model/Cli.lean` leaves open, and the formats `%v`, `%X` and `%03d` for numbers. `strings.EqualFold` stays open.
-/

namespace Verif

/-- `lower` of package strconv: `c | ('x' - 'X')`. Used at cmd/opencorpora_test/main.go:152, 194. -/
def lowerByte (c : UInt8) : UInt8 := c ||| 0x20

/-- The value of a digit or letter in `strconv.ParseUint`. Used at cmd/opencorpora_test/main.go:152, 194. -/
def digitOf (c : UInt8) : Option Nat :=
  if 0x30 ≤ c.toNat ∧ c.toNat ≤ 0x39 then some (c.toNat - 0x30)
  else if 0x61 ≤ (lowerByte c).toNat ∧ (lowerByte c).toNat ≤ 0x7a then some ((lowerByte c).toNat - 0x61 + 10)
  else none

/-- The base and the digits of a number for base 0: a prefix `0b`, `0o` or `0x` (in either case) if something follows it,
otherwise a leading `0` for base 8. Used at cmd/opencorpora_test/main.go:152, 194. -/
def baseOf : Str → Nat × Str
  | 0x30 :: c :: d :: s =>
    if lowerByte c = 0x62 then (2, d :: s)
    else if lowerByte c = 0x6f then (8, d :: s)
    else if lowerByte c = 0x78 then (16, d :: s)
    else (8, c :: d :: s)
  | 0x30 :: s => (8, s)
  | s => (10, s)

/-- The loop of `strconv.ParseUint`: underscores are skipped, the value may not exceed `max`. The value after an overflow is not
needed: the tool looks only at the error. Used at cmd/opencorpora_test/main.go:152, 194. -/
def parseLoop (base max : Nat) : Nat → Str → Option Nat
  | n, [] => some n
  | n, c :: s =>
    if c = 0x5f then parseLoop base max n s
    else match digitOf c with
      | none => none
      | some d => if base ≤ d ∨ max < n * base + d then none else parseLoop base max (n * base + d) s

/-- The loop of `underscoreOK` of package strconv; `saw` is the kind of the character before (`'0'` a digit, `'_'`, or
something else). Used at cmd/opencorpora_test/main.go:152, 194. -/
def underscoreLoop (hex : Bool) : UInt8 → Str → Bool
  | saw, [] => saw != 0x5f
  | saw, c :: s =>
    if (0x30 ≤ c.toNat ∧ c.toNat ≤ 0x39) ∨ (hex = true ∧ 0x61 ≤ (lowerByte c).toNat ∧ (lowerByte c).toNat ≤ 0x66) then
      underscoreLoop hex 0x30 s
    else if c = 0x5f then (saw == 0x30) && underscoreLoop hex 0x5f s
    else (saw != 0x5f) && underscoreLoop hex 0x21 s

/-- `underscoreOK` of package strconv, for a string without a sign: underscores only between digits or after the prefix.
Used at cmd/opencorpora_test/main.go:152, 194. -/
def underscoreOK : Str → Bool
  | 0x30 :: c :: s =>
    if lowerByte c = 0x62 ∨ lowerByte c = 0x6f ∨ lowerByte c = 0x78 then underscoreLoop (lowerByte c = 0x78) 0x30 s
    else underscoreLoop false 0x5e (0x30 :: c :: s)
  | s => underscoreLoop false 0x5e s

/-- `strconv.ParseUint(s, 0, bitSize)` with the largest value `max`; `none` is an error. Used at
cmd/opencorpora_test/main.go:194. -/
def parseUint0 (max : Nat) (s : Str) : Option Nat :=
  if s = [] then none
  else match parseLoop (baseOf s).1 max 0 (baseOf s).2 with
    | none => none
    | some n => if 0x5f ∈ (baseOf s).2 ∧ underscoreOK s = false then none else some n

/-- `strconv.ParseInt(s, 0, 0)` for a 64-bit `int`; `none` is an error. Used at cmd/opencorpora_test/main.go:152. -/
def parseInt0 (s : Str) : Option Int :=
  match s with
  | 0x2d :: t => match parseUint0 18446744073709551615 t with
    | some n => if n ≤ 9223372036854775808 then some (-(n : Int)) else none
    | none => none
  | 0x2b :: t => match parseUint0 18446744073709551615 t with
    | some n => if n < 9223372036854775808 then some (n : Int) else none
    | none => none
  | t => match parseUint0 18446744073709551615 t with
    | some n => if n < 9223372036854775808 then some (n : Int) else none
    | none => none

/-- The functions of the standard library as they are, except `strings.EqualFold`. Used at
cmd/opencorpora_test/main.go:44-371. -/
def goLib (equalFold : Str → Str → Bool) : Lib where
  parseInt := parseInt0
  parseUint := fun s => (parseUint0 4294967295 s).map UInt32.ofNat
  equalFold := equalFold

/-- `fmt` with `%X`: hexadecimal with upper-case letters. Used at cmd/opencorpora_test/main.go:305-309. -/
def hexUpper (n : Nat) : Str := (hexText n).map fun c => if 0x61 ≤ c.toNat then c - 0x20 else c

/-- `fmt` with `%03d`: at least three digits, filled with zeros. Used at cmd/opencorpora_test/main.go:223-226. -/
def pad3 (n : Nat) : Str := List.replicate (3 - (itoa n).length) 0x30 ++ itoa n

end Verif
