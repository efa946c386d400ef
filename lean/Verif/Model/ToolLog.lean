import Verif.Model.Output
import Verif.Model.Errors
import Verif.Model.UpdateLog

/-!
# Model of what the interactive tool logs for a line typed, as bytes

A message is its level and its text. `fmt` is taken to format as documented; how the logger decorates a message (time, name
of the logger) is not part of this. The durations shown by a search are given from outside. What `main` logs before the
first line is left out.
-/

namespace Verif

/-- `%v` of `time.Since(started)` — cmd/opencorpora_test/main.go:51: the text of a message of a search with its duration -/
def withEta (text eta : Str) : Str := str "< " ++ (text ++ (str ", eta " ++ eta))

/-- The lines about the readings — cmd/opencorpora_test/main.go:60-62; `eta i` is the duration shown by line `i` -/
def readingMessages (eta : Nat → Str) : Nat → List (List Tag) → List (LogLevel × Str)
  | _, [] => []
  | i, t :: L => (.info, withEta (pad2 i ++ (str ": " ++ readingText t)) (eta i)) :: readingMessages eta (i + 1) L

/-- What `processSearch` logs — cmd/opencorpora_test/main.go:44-65 -/
def searchLog (eta : Nat → Str) (ix : Index) (line : Str) : List (LogLevel × Str) :=
  match ix.fetchString line with
  | (ix', .ok id) =>
    match ix'.tagSetsOf id with
    | .ok L => if L.length = 0 then [(.info, withEta (str "empty") (eta 0))] else readingMessages eta 0 L
    | _ => []
  | (_, .err _) =>
    match (MemCall.fetchString line).goError ix with
    | some g => [(.info, withEta g.text (eta 0))]
    | none => []
  | (_, .panic) => []
  | (_, .diverge) => []

/-- The line about a tag — cmd/opencorpora_test/main.go:89, 102 -/
def tagMessage (number : Str) (t : Tag) : Str :=
  str "tag[" ++ (number ++ (str "] " ++ (t.name ++ (str "(" ++ (t.parent ++ str ")")))))

/-- What `processTag` logs, and its error — cmd/opencorpora_test/main.go:67-105 -/
def tagLog (lib : Lib) (ix : Index) (items : List Str) : List (LogLevel × Str) × Option Str :=
  match items with
  | [_, arg] =>
    if arg = str "count" then ([(.info, str "tag.count: " ++ itoa ix.tags.length)], none)
    else match atoi arg with
      | none =>
        match ix.tags.zipIdx.find? (fun e => lib.equalFold e.1.name arg) with
        | some (t, i) => ([(.info, tagMessage (itoa i) t)], none)
        | none => ([], some (str "tag: expected int id: `" ++ (arg ++ str "`")))
      | some n =>
        if n ≥ ix.tags.length then ([], some (str "tag: no such tag id: `" ++ (arg ++ str "`")))
        else match sliceAt ix.tags n with
          | .ok t => ([(.info, tagMessage arg t)], none)
          | _ => ([], none)
  | _ => ([], some (str "tag: expected 2 items"))

/-- One table in the listing of the tables — cmd/opencorpora_test/main.go:126 -/
def tableSize (i : Nat) (size : Nat) : Str := pad2 i ++ (str "(" ++ (itoa size ++ str ")"))

/-- The tables in the listing — cmd/opencorpora_test/main.go:123-128 -/
def tableSizes : Nat → List Nat → List Str
  | _, [] => []
  | i, n :: l => tableSize i n :: tableSizes (i + 1) l

/-- The line about one table; it says `tables` where `table` was typed — cmd/opencorpora_test/main.go:143-149 -/
def tableMessage (n : Int) (sets : List TagSet) : Str :=
  str "set.tables: " ++ (intText n ++ (str ": " ++ joinWith (str ", ") (sets.map tagSetText)))

/-- How the lines about a set begin — cmd/opencorpora_test/main.go:159, 163, 168 -/
def setHead (n : Int) : Str := str "set." ++ (intText n ++ (str "(0x" ++ (intHex n ++ str "): ")))

/-- What `processSet` logs, and its error — cmd/opencorpora_test/main.go:107-182. A set that is not found is a nil slice,
whose text is that of the empty set. -/
def setLog (lib : Lib) (ix : Index) (items : List Str) : List (LogLevel × Str) × Option Str :=
  match items with
  | _ :: sub :: rest =>
    if sub = str "tables" then
      ([(.info, str "set.tables: total " ++ itoa ix.tagSets.length),
        (.info, str "set.tables: " ++ joinWith (str ", ") (tableSizes 0 (ix.tagSets.map List.length)))], none)
    else if sub = str "table" then
      match rest with
      | [arg] =>
        match atoi arg with
        | none => ([], some (str "set.table: `" ++ (arg ++ str "`: int ID required")))
        | some n =>
          if n ≥ ix.tagSets.length then ([], some (str "set.table: `" ++ (intText n ++ str "`: no such set table")))
          else match sliceAt ix.tagSets n with
            | .ok t => ([(.info, tableMessage n t)], none)
            | _ => ([], none)
      | _ => ([], some (str "set.table: 3 items required"))
    else
      let looking : LogLevel × Str := (.info, str "set." ++ (sub ++ (str ": looking tag set " ++ sub)))
      match lib.parseInt sub with
      | none => ([looking], some (str "set." ++ (sub ++ str ": expected int or hex set number")))
      | some n =>
        match ix.tagSets.get (toU32 n) with
        | none => ([looking, (.info, setHead n ++ str "load tag set"),
            (.info, setHead n ++ (str "tag set " ++ (tagSetText [] ++ str " loaded ok false")))],
            some (str "set." ++ (sub ++ str ": tag set not found")))
        | some ts => ([looking, (.info, setHead n ++ str "load tag set"),
            (.info, setHead n ++ (str "tag set " ++ (tagSetText ts ++ str " loaded ok true"))),
            (.info, setHead n ++ (str "tag set " ++ (tagSetText ts ++ (str " len " ++ itoa ts.length))))], none)
  | _ => ([], some (str "set: at least 2 items required"))

/-- The lines about the sets of a collection — cmd/opencorpora_test/main.go:207-212 -/
def collMessages (ix : Index) (c : Coll) : List (LogLevel × Str) :=
  c.flatMap fun id => [(.info, str "unpack tagset " ++ (itoa id.toNat ++ (str "(" ++ (hexUpper id.toNat ++ str ")")))),
    (.info, str "tagset " ++ (itoa id.toNat ++ (str ": " ++ tagSetText ((ix.tagSets.get id).getD []))))]

/-- What `processVar` logs, and its error — cmd/opencorpora_test/main.go:184-231. The error for too few items is that of
`set`. `Variants` returns no error (internal/index/idx.go:577-579). -/
def varLog (lib : Lib) (ix : Index) (items : List Str) : List (LogLevel × Str) × Option Str :=
  match items with
  | _ :: sub :: _ =>
    let looking : LogLevel × Str := (.info, str "looking for var " ++ sub)
    match lib.parseUint sub with
    | none => ([looking], some (str "var.id: `" ++ (sub ++ str "`: expected id var")))
    | some v =>
      let id : LogLevel × Str := (.info, str "looking for ID " ++ (itoa v.toNat ++ (str "(0x" ++ (hexText v.toNat ++ str ")"))))
      match ix.variants v with
      | .ok c => (looking :: id ::
          (.info, str "loaded variants [" ++ (joinWith (str " ") (c.map fun id => itoa id.toNat) ++ str "]")) ::
          collMessages ix c, none)
      | _ => ([looking, id], none)
  | _ => ([], some (str "set: at least 2 items required"))

/-- What `processNode` logs, and its error — cmd/opencorpora_test/main.go:233-331. The error for too few items is that of
`set`. The cause of an error of `Get` is shown as it is. -/
def nodeLog (ix : Index) (items : List Str) : List (LogLevel × Str) × Option Str :=
  match items with
  | _ :: sub :: rest =>
    if sub = str "count" then ([(.info, str "node.count: total " ++ itoa ix.nodesCount)], none)
    else if rest ≠ [] then ([], some (str "node.info: 2 items required"))
    else match atoi sub with
      | none =>
        match ix.fetchItemFromParent 0 (decodeRunes sub) with
        | (ix', .ok id) =>
          let taken : LogLevel × Str := (.debug, str "node " ++ (itoa id.toNat ++ (str " taken by string `" ++ (sub ++ str "`"))))
          match ix'.get id with
          | .ok _ => ([taken], none)
          | _ => ([taken], some (str "node.info: `" ++ (sub ++ (str "`: get node: " ++
              (((MemCall.get id).goError ix').map (·.text)).getD []))))
        | (_, .err _) => ([], some (str "node.info: `" ++ (sub ++ str "`: not found")))
        | _ => ([], none)
      | some n =>
        if n ≥ ix.nodesCount then ([], some (str "node.info: `" ++ (sub ++ str "`: no such node")))
        else match ix.get (toU32 n) with
          | .ok id => ([(.debug, str "node " ++ (itoa id.toNat ++ str " taken by id "))], none)
          | _ => ([], some (str "node.info: `" ++ (sub ++ (str "`: get node: " ++
              (((MemCall.get (toU32 n)).goError ix).map (·.text)).getD []))))
  | _ => ([], some (str "set: at least 2 items required"))

/-- The error of a command is logged last — cmd/opencorpora_test/main.go:368-371 -/
def withError (x : List (LogLevel × Str) × Option Str) : List (LogLevel × Str) :=
  x.1 ++ (match x.2 with
    | some t => [(.error, t)]
    | none => [])

/-- What one line logs — cmd/opencorpora_test/main.go:344-372. A line that crashes the tool logs what comes before the
crash. -/
def toolLog (lib : Lib) (eta : Nat → Str) (ix : Index) (line : Str) : List (LogLevel × Str) :=
  let items := splitSpaces line
  let cmd := items.headD []
  if cmd = str "tag" ∨ cmd = str "t" then withError (tagLog lib ix items)
  else if cmd = str "set" ∨ cmd = str "s" then withError (setLog lib ix items)
  else if cmd = str "node" ∨ cmd = str "n" then withError (nodeLog ix items)
  else if cmd = str "var" ∨ cmd = str "v" then withError (varLog lib ix items)
  else if cmd = str "reload" ∨ cmd = str "r" then [(.info, str "reloading index")]
  else if cmd = str "exit" ∨ cmd = str "e" then [(.info, str "exiting")]
  else searchLog eta ix line

/-- A line typed, with what happens outside: the index a reload would load, the durations shown, and what follows "load index: "
in the message about a failed reload. For cmd/opencorpora_test/main.go:333-342, 411-417. (The code passes a format and the
error to `Error`, not to `Errorf`: whether the error or "%v" and the error follow is up to the logger.) -/
structure TypedLine where
  line : Str
  disk : Option Index
  eta : Nat → Str
  reason : Str

/-- What a run of the loop of `main` logs — cmd/opencorpora_test/main.go:333-342, 411-417. A line that crashes the tool has
logged what comes before the crash. -/
def sessionLog (lib : Lib) (ix : Index) : List TypedLine → List (LogLevel × Str)
  | [] => []
  | e :: rest =>
    match processInput lib e.disk ix e.line with
    | (_, .ok (.exit 0)) => toolLog lib e.eta ix e.line
    | (_, .ok (.exit _)) => toolLog lib e.eta ix e.line ++ [(.error, str "load index: " ++ e.reason)]
    | (ix', .ok _) => toolLog lib e.eta ix e.line ++ sessionLog lib ix' rest
    | (ix', .err _) => toolLog lib e.eta ix e.line ++ sessionLog lib ix' rest
    | (_, .panic) => toolLog lib e.eta ix e.line
    | (_, .diverge) => toolLog lib e.eta ix e.line

/-- What `main` logs, from the start — cmd/opencorpora_test/main.go:388-417, without the failures of the logger and of
`readline`, and without what the loader logs (`loadLog`). `took` is the duration shown, `reason` what follows "load index: " if
there is nothing to load. -/
def mainLog (lib : Lib) (disk : Option Index) (took reason : Str) (lines : List TypedLine) : List (LogLevel × Str) :=
  match disk with
  | none => [(.error, str "load index: " ++ reason)]
  | some ix => (.debug, str "loaded in " ++ took) ::
    (.debug, str "indexed " ++ (itoa ix.wordsCount ++ (str " words " ++ (itoa ix.nodesCount ++ str " nodes")))) ::
    sessionLog lib ix lines

end Verif
