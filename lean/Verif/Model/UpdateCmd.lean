import Verif.Model.Loader

/-!
# Model of the update command, `cmd/opencorpora_update/main.go`

The command line is parsed by package `flag` of the standard library; the part of it the command uses (boolean flags,
`ExitOnError`) is modelled from its documentation. Logging and the text of the usage screen are dropped.
-/

namespace Verif

/-- `strconv.ParseBool`. For cmd/opencorpora_update/main.go:19-35. -/
def parseBool (s : Str) : Option Bool :=
  if s ∈ [str "1", str "t", str "T", str "true", str "TRUE", str "True"] then some true
  else if s ∈ [str "0", str "f", str "F", str "false", str "FALSE", str "False"] then some false
  else none

/-- The values of the flags — cmd/opencorpora_update/main.go:19-33 -/
structure Flags where
  force : Bool
  debug : Bool
  usage : Bool
  deriving DecidableEq, Repr

/-- The default values — cmd/opencorpora_update/main.go:19-33 -/
def Flags.default : Flags := ⟨true, false, false⟩

/-- What `flag.Parse` comes to: values, or the end of the process — cmd/opencorpora_update/main.go:35 -/
inductive Parsed where
  | values (f : Flags)
  | exit (code : Nat)
  deriving DecidableEq, Repr

/-- Splits at the first `=` after the first byte, as `flag.parseOne` does. For cmd/opencorpora_update/main.go:35. -/
def splitEq : Str → Str × Option Str
  | [] => ([], none)
  | c :: s =>
    match s.dropWhile (· ≠ 0x3d) with
    | [] => (c :: s, none)
    | _ :: v => (c :: s.takeWhile (· ≠ 0x3d), some v)

/-- Sets the flag with this name — cmd/opencorpora_update/main.go:19-33. An unknown name ends the process: with
status 0 for `help`, else 2. -/
def Flags.set (f : Flags) (name : Str) (v : Option Bool) : Parsed :=
  if name = str "f" then match v with | some b => .values { f with force := b } | none => .exit 2
  else if name = str "d" then match v with | some b => .values { f with debug := b } | none => .exit 2
  else if name = str "h" then match v with | some b => .values { f with usage := b } | none => .exit 2
  else if name = str "help" then .exit 0
  else .exit 2

/-- One argument without its leading `-` or `--`: `flag.parseOne`. For cmd/opencorpora_update/main.go:35. -/
def Flags.one (f : Flags) (body : Str) : Parsed :=
  match body with
  | [] => .exit 2
  | c :: _ =>
    if c = 0x2d ∨ c = 0x3d then .exit 2
    else match splitEq body with
      | (name, none) => f.set name (some true)
      | (name, some v) => f.set name (parseBool v)

/-- `flag.Parse` — cmd/opencorpora_update/main.go:35: it stops at the first argument that is not a flag. -/
def Flags.parse (f : Flags) : List Str → Parsed
  | [] => .values f
  | [] :: _ => .values f
  | [_] :: _ => .values f
  | (c :: c2 :: s) :: rest =>
    if c ≠ 0x2d then .values f
    else if c2 = 0x2d then
      if s = [] then .values f
      else match f.one s with
        | .values f' => f'.parse rest
        | .exit k => .exit k
    else match f.one (c2 :: s) with
      | .values f' => f'.parse rest
      | .exit k => .exit k

/-- `main` — cmd/opencorpora_update/main.go:18-58: the exit status and what was done. A panic ends a Go process with
status 2. `logOK`: `logging.Init` succeeds. -/
def updateMain (args : List Str) (logOK : Bool) (env : Env) (w : World) : Nat × World :=
  match Flags.default.parse args with
  | .exit k => (k, w)
  | .values f =>
    if f.usage then (0, w)
    else if !logOK then (1, w)
    else match update ⟨true⟩ env f.force w with
      | (.ok (), w') => (0, w')
      | (.err, w') => (1, w')
      | (.panic, w') => (2, w')

end Verif
