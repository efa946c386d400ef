import Verif.Model.UpdateCmd

/-!
# Model of what the update command writes about its own use

`PrintDefaults`, the default `Usage` and what `ExitOnError` does are those of package `flag` of the standard library, modelled
from its source. The first line of a complaint about an argument, which quotes the argument, is a parameter.
-/

namespace Verif

/-- A boolean flag as it is registered — cmd/opencorpora_update/main.go:19-33 -/
structure FlagDef where
  name : Str
  preset : Bool
  about : Str

/-- The flags in the order of their registration — cmd/opencorpora_update/main.go:19-33 -/
def flagDefs : List FlagDef := [
  ⟨str "f", true, str "force rebuild index from previously downloaded data even if compiled index already present"⟩,
  ⟨str "d", false, str "switch on debug logging causes very noisy logging output"⟩,
  ⟨str "h", false, str "Output this usage screen"⟩]

/-- `programDescription` — cmd/opencorpora_update/main.go:14-16 -/
def programDescription : Str := str "Load and/or build compiled index from downloaded opencorpora.ru dictionary"

/-- The byte order of names that `flag.VisitAll` sorts by, for names of one byte; for cmd/opencorpora_update/main.go:38 -/
def FlagDef.before (a b : FlagDef) : Bool := decide ((a.name.headD 0).toNat ≤ (b.name.headD 0).toNat)

/-- Puts a flag into its place among sorted ones: the sort of `flag.VisitAll`, for cmd/opencorpora_update/main.go:38 -/
def FlagDef.insert (a : FlagDef) : List FlagDef → List FlagDef
  | [] => [a]
  | b :: l => if a.before b then a :: b :: l else b :: a.insert l

/-- One flag in `flag.PrintDefaults`: a short name has its text on the same line; the default is shown if it is not the zero
value. For cmd/opencorpora_update/main.go:38. -/
def FlagDef.line (d : FlagDef) : Str :=
  str "  -" ++ (d.name ++ ((if (str "  -" ++ d.name).length ≤ 4 then [0x09] else 0x0a :: (str "    " ++ [0x09])) ++
    (d.about ++ ((if d.preset then str " (default true)" else []) ++ [0x0a]))))

/-- `flag.PrintDefaults()` — cmd/opencorpora_update/main.go:38 -/
def flagDefaults : Str := (flagDefs.foldr FlagDef.insert []).flatMap FlagDef.line

/-- `path.Base` — cmd/opencorpora_update/main.go:37 -/
def pathBase (p : Str) : Str :=
  if p = [] then str "."
  else
    let q := (p.reverse.dropWhile (· = 0x2f)).takeWhile (· ≠ 0x2f)
    if q = [] then str "/" else q.reverse

/-- The usage screen — cmd/opencorpora_update/main.go:36-40; `argv0` is `os.Args[0]` -/
def usageScreen (argv0 : Str) : Str := pathBase argv0 ++ (str " - " ++ (programDescription ++ (0x0a :: 0x0a :: flagDefaults)))

/-- What `flag` writes about a wrong argument and for `-help`: `flag.Usage` — for cmd/opencorpora_update/main.go:35 -/
def flagUsage (argv0 : Str) : Str := str "Usage of " ++ (argv0 ++ (str ":" ++ (0x0a :: flagDefaults)))

/-- What the command writes about its use on the standard error, before it begins to work — cmd/opencorpora_update/main.go:35-40.
`complaint` is the line of `flag` about the first argument it does not accept; for `-help` there is none. -/
def usageOutput (complaint : Str) (argv0 : Str) (args : List Str) : Str :=
  match Flags.default.parse args with
  | .exit 0 => flagUsage argv0
  | .exit _ => complaint ++ flagUsage argv0
  | .values f => if f.usage then usageScreen argv0 else []

end Verif
