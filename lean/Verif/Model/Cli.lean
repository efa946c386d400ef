import Verif.Model.Node

/-!
# Model of the interactive tool, `cmd/opencorpora_test/main.go`

One input line is processed at a time. What is shown is modelled as data (`Reply`), not as text; logging and timing
are dropped. `os.Exit` is `Reply.exit` with the exit status. `strconv.Atoi` is modelled; `strconv.ParseInt`, `strconv.ParseUint` with
base 0 and `strings.EqualFold` are parameters.
-/

namespace Verif

/-- The parts of the standard library the tool uses and the model leaves open. Used at
cmd/opencorpora_test/main.go:44-371. -/
structure Lib where
  /-- `strconv.ParseInt(s, 0, 0)` -/
  parseInt : Str → Option Int
  /-- `strconv.ParseUint(s, 0, 32)` -/
  parseUint : Str → Option UInt32
  /-- `strings.EqualFold` -/
  equalFold : Str → Str → Bool

/-- What one line leads to — cmd/opencorpora_test/main.go:44-371 -/
inductive Reply where
  /-- the readings of a found string -/
  | readings (L : List (List Tag))
  /-- the string is found but has no readings -/
  | empty
  /-- the string is not found -/
  | notFound
  | tagCount (n : Nat)
  | tag (id : Nat) (t : Tag)
  | tables (sizes : List Nat)
  | table (sets : List TagSet)
  /-- the tags of a set; `none`: the tag is not known -/
  | tagSet (names : List (Option Str))
  /-- the sets of a collection, with their ids; `none`: the set is not known -/
  | variants (sets : List (TagSetID × Option (List (Option Str))))
  | nodesCount (n : Nat)
  | node (id : ID) (word : Str) (item : Item) (readings : List (List Tag)) (children : IdMap)
  /-- an error message -/
  | message
  | reloaded
  /-- the tool ends with this status -/
  | exit (code : Nat)

/-- `strings.Split(line, " ")`; never empty. Used at cmd/opencorpora_test/main.go:344-352. -/
def splitSpaces : Str → List Str
  | [] => [[]]
  | c :: s =>
    if c = 0x20 then [] :: splitSpaces s
    else match splitSpaces s with
      | [] => [[c]]
      | w :: ws => (c :: w) :: ws

/-- A decimal digit. For cmd/opencorpora_test/main.go:67-331. -/
def isDigit (c : UInt8) : Bool := 0x30 ≤ c && c ≤ 0x39

/-- The value of a string of digits. For cmd/opencorpora_test/main.go:67-331. -/
def digitsValue (s : Str) : Nat := s.foldl (fun n c => n * 10 + (c.toNat - 48)) 0

/-- `strconv.Atoi` (64 bit): an optional sign and digits; `none` is an error. Used at
cmd/opencorpora_test/main.go:67-331. -/
def atoi (s : Str) : Option Int :=
  let (neg, ds) := match s with
    | 0x2d :: t => (true, t)
    | 0x2b :: t => (false, t)
    | t => (false, t)
  if ds = [] ∨ ds.all isDigit = false then none
  else
    let v : Int := if neg then -(digitsValue ds : Int) else digitsValue ds
    if -9223372036854775808 ≤ v ∧ v ≤ 9223372036854775807 then some v else none

/-- `dag.ID(n)`, `index.TagSetID(n)`: conversion of an `int` to `uint32`. Used at
cmd/opencorpora_test/main.go:107-331. -/
def toU32 (n : Int) : UInt32 := UInt32.ofNat (n % 4294967296).toNat

/-- Indexing a slice with an `int`: outside the range it is a panic. Used at cmd/opencorpora_test/main.go:107-182. -/
def sliceAt {α : Type} (l : List α) (i : Int) : Out α :=
  if i < 0 then .panic
  else match l[i.toNat]? with
    | some a => .ok a
    | none => .panic

/-- `processSearch` — cmd/opencorpora_test/main.go:44-65 -/
def processSearch (ix : Index) (line : Str) : Index × Out Reply :=
  match ix.fetchString line with
  | (ix, .ok id) => (ix, (ix.tagSetsOf id).bind fun L => .ok (if L.length = 0 then .empty else .readings L))
  | (ix, .err _) => (ix, .ok .notFound)
  | (ix, .panic) => (ix, .panic)
  | (ix, .diverge) => (ix, .diverge)

/-- `processTag` — cmd/opencorpora_test/main.go:67-105 -/
def processTag (lib : Lib) (ix : Index) (items : List Str) : Out Reply :=
  match items with
  | [_, arg] =>
    if arg = str "count" then .ok (.tagCount ix.tags.length)
    else match atoi arg with
      | none =>
        match ix.tags.zipIdx.find? (fun e => lib.equalFold e.1.name arg) with
        | some (t, i) => .ok (.tag i t)
        | none => .ok .message
      | some n =>
        if n ≥ ix.tags.length then .ok .message
        else (sliceAt ix.tags n).bind fun t => .ok (.tag n.toNat t)
  | _ => .ok .message

/-- The names of the tags of a set — cmd/opencorpora_test/main.go:169-176, 215-222 -/
def shownTags (ix : Index) (ts : TagSet) : List (Option Str) := ts.map fun t => (tagsGet ix.tags t).map (·.name)

/-- `processSet` — cmd/opencorpora_test/main.go:107-182 -/
def processSet (lib : Lib) (ix : Index) (items : List Str) : Out Reply :=
  match items with
  | _ :: sub :: rest =>
    if sub = str "tables" then .ok (.tables (ix.tagSets.map List.length))
    else if sub = str "table" then
      match rest with
      | [arg] =>
        match atoi arg with
        | none => .ok .message
        | some n =>
          if n ≥ ix.tagSets.length then .ok .message
          else (sliceAt ix.tagSets n).bind fun t => .ok (.table t)
      | _ => .ok .message
    else match lib.parseInt sub with
      | none => .ok .message
      | some n =>
        match ix.tagSets.get (toU32 n) with
        | none => .ok .message
        | some ts => .ok (.tagSet (shownTags ix ts))
  | _ => .ok .message

/-- `processVar` — cmd/opencorpora_test/main.go:184-231 -/
def processVar (lib : Lib) (ix : Index) (items : List Str) : Out Reply :=
  match items with
  | _ :: sub :: _ =>
    match lib.parseUint sub with
    | none => .ok .message
    | some v => (ix.variants v).bind fun c =>
        .ok (.variants (c.map fun id => (id, (ix.tagSets.get id).map (shownTags ix))))
  | _ => .ok .message

/-- The display of a node — cmd/opencorpora_test/main.go:287-329 -/
def showNode (ix : Index) (id : ID) : Index × Out Reply :=
  match ix.word id with
  | .ok w =>
    match ix.tagSetsOf id with
    | .ok L =>
      match ix.nodeItem id with
      | .ok it => ((ix.getChildrenIDMap id).1, .ok (.node id w it L (ix.getChildrenIDMap id).2))
      | _ => (ix, .panic)
    | _ => (ix, .panic)
  | .diverge => (ix, .diverge)
  | _ => (ix, .panic)

/-- `processNode`; on a lookup by string the node is fetched again with `Get` — cmd/opencorpora_test/main.go:233-331 -/
def processNode (ix : Index) (items : List Str) : Index × Out Reply :=
  match items with
  | _ :: sub :: rest =>
    if sub = str "count" then (ix, .ok (.nodesCount ix.nodesCount))
    else if rest ≠ [] then (ix, .ok .message)
    else match atoi sub with
      | none =>
        match ix.fetchItemFromParent 0 (decodeRunes sub) with
        | (ix, .ok id) =>
          match ix.get id with
          | .ok id => showNode ix id
          | _ => (ix, .ok .message)
        | (ix, .err _) => (ix, .ok .message)
        | (ix, .panic) => (ix, .panic)
        | (ix, .diverge) => (ix, .diverge)
      | some n =>
        if n ≥ ix.nodesCount then (ix, .ok .message)
        else match ix.get (toU32 n) with
          | .ok id => showNode ix id
          | _ => (ix, .ok .message)
  | _ => (ix, .ok .message)

/-- The words that are commands — cmd/opencorpora_test/main.go:20-33 -/
def commands : List Str :=
  [str "tag", str "t", str "set", str "s", str "node", str "n", str "var", str "v", str "reload", str "r",
    str "exit", str "e"]

/-- `processInput` — cmd/opencorpora_test/main.go:344-372, with `processReload`, 333-342: `disk` is the result of
`LoadIndex`, `none` for an error. -/
def processInput (lib : Lib) (disk : Option Index) (ix : Index) (line : Str) : Index × Out Reply :=
  let items := splitSpaces line
  let cmd := items.headD []
  if cmd = str "tag" ∨ cmd = str "t" then (ix, processTag lib ix items)
  else if cmd = str "set" ∨ cmd = str "s" then (ix, processSet lib ix items)
  else if cmd = str "node" ∨ cmd = str "n" then processNode ix items
  else if cmd = str "var" ∨ cmd = str "v" then (ix, processVar lib ix items)
  else if cmd = str "reload" ∨ cmd = str "r" then
    match disk with
    | some ix' => (ix', .ok .reloaded)
    | none => (ix, .ok (.exit 1))
  else if cmd = str "exit" ∨ cmd = str "e" then (ix, .ok (.exit 0))
  else processSearch ix line

/-- How a run of the tool ends — cmd/opencorpora_test/main.go:374-420 -/
inductive Ending where
  | exit (code : Nat)
  | crash
  | hang
  deriving DecidableEq, Repr

/-- The loop of `main` — cmd/opencorpora_test/main.go:411-417: what is shown, line by line, and the end. Each line comes
with what `LoadIndex` would return at that moment. The input ends with an error of `Readline`. -/
def toolLoop (lib : Lib) (ix : Index) : List (Str × Option Index) → List Reply × Ending
  | [] => ([], .exit 0)
  | (line, disk) :: rest =>
    match processInput lib disk ix line with
    | (_, .ok (.exit c)) => ([], .exit c)
    | (ix, .ok r) => let x := toolLoop lib ix rest; (r :: x.1, x.2)
    | (ix, .err _) => let x := toolLoop lib ix rest; (.message :: x.1, x.2)
    | (_, .panic) => ([], .crash)
    | (_, .diverge) => ([], .hang)

/-- `main` — cmd/opencorpora_test/main.go:374-420, without the failures of the logger and of `readline`. -/
def toolMain (lib : Lib) (disk : Option Index) (lines : List (Str × Option Index)) : List Reply × Ending :=
  match disk with
  | none => ([], .exit 1)
  | some ix => toolLoop lib ix lines

end Verif
