import Verif.Model.Printed
import Verif.Model.Records

/-!
# Model of what the interactive tool writes to the standard output, as bytes

For every line typed: the text of a node (`Model/Printed.lean`), of a tag set or of a collection, and the line end that
follows every command. `fmt.Printf` and `fmt.Println` are taken to write exactly the formatted bytes; what the logger
writes is not part of this.
-/

namespace Verif

/-- `fmt` with `%0X` for an `int64`. Used at cmd/opencorpora_test/main.go:178. -/
def intHex (n : Int) : Str := if 0 ≤ n then hexUpper n.toNat else str "-" ++ hexUpper (-n).toNat

/-- `strings.Join` with the separator `sep`. Used at cmd/opencorpora_test/main.go:178. -/
def joinWith (sep : Str) : List Str → Str
  | [] => []
  | [a] => a
  | a :: b :: l => a ++ (sep ++ joinWith sep (b :: l))

/-- What `set` shows for one tag — cmd/opencorpora_test/main.go:171-175 -/
def setName (tags : List Tag) (t : UInt8) : Str :=
  match tagsGet tags t with
  | some tag => tag.name
  | none => str "[" ++ (itoa t.toNat ++ str "]!!!NOT_FOUND!!!")

/-- What `set` prints for the number `n` — cmd/opencorpora_test/main.go:169-178 -/
def setText (tags : List Tag) (n : Int) (ts : TagSet) : Str :=
  str "set." ++ (intText n ++ (str "(0x" ++ (intHex n ++ (str "): " ++ joinWith (str ", ") (ts.map (setName tags))))))

/-- What `var` shows for one tag — cmd/opencorpora_test/main.go:217-221 -/
def varName (tags : List Tag) (t : UInt8) : Str :=
  match tagsGet tags t with
  | some tag => tag.name
  | none => str "!!!NOT FOUND!!!"

/-- What `var` shows for one set — cmd/opencorpora_test/main.go:211-224 -/
def varSet (ix : Index) (id : TagSetID) : Str :=
  match ix.tagSets.get id with
  | none => str "!!!NOT FOUND!!!"
  | some ts => str "TS" ++ (pad3 id.toNat ++ (str ": " ++ joinComma (ts.map (varName ix.tags))))

/-- The lines of the sets of a collection — cmd/opencorpora_test/main.go:206-226 -/
def varLines (ix : Index) : Nat → Coll → Str
  | _, [] => []
  | i, id :: c => str "\n- " ++ (pad2 i ++ (str ": " ++ (pad3 id.toNat ++ (str ": " ++ (varSet ix id ++ varLines ix (i + 1) c)))))

/-- What `var` prints for the number `v`; the collection is shown by `%v` as a slice — cmd/opencorpora_test/main.go:205-228 -/
def varText (ix : Index) (v : VariantID) (c : Coll) : Str :=
  str "variant: " ++ (itoa v.toNat ++ (str ": [" ++ (joinWith (str " ") (c.map fun id => itoa id.toNat) ++ (str "]" ++
    (varLines ix 0 c ++ str "\n")))))

/-- What `processSet` writes — cmd/opencorpora_test/main.go:107-182 -/
def setOutput (lib : Lib) (ix : Index) (items : List Str) : Str :=
  match items with
  | _ :: sub :: _ =>
    if sub = str "tables" then []
    else if sub = str "table" then []
    else match lib.parseInt sub with
      | none => []
      | some n =>
        match ix.tagSets.get (toU32 n) with
        | none => []
        | some ts => setText ix.tags n ts
  | _ => []

/-- What `processVar` writes — cmd/opencorpora_test/main.go:184-231 -/
def varOutput (lib : Lib) (ix : Index) (items : List Str) : Str :=
  match items with
  | _ :: sub :: _ =>
    match lib.parseUint sub with
    | none => []
    | some v =>
      match ix.variants v with
      | .ok c => varText ix v c
      | _ => []
  | _ => []

/-- What `processNode` writes; `order` is the order in which the map of the children is visited —
cmd/opencorpora_test/main.go:233-331 -/
def nodeOutput (order : IdMap → List (Rune × ID)) (ix : Index) (items : List Str) : Str :=
  match (processNode ix items).2 with
  | .ok (.node id w it L m) => nodeText id w it L (order m)
  | _ => []

/-- What one line writes to the standard output, if the command does not end the tool — cmd/opencorpora_test/main.go:344-372:
what the command writes and a line end. `tag`, `reload` and a search write only to the log. -/
def lineOutput (lib : Lib) (order : IdMap → List (Rune × ID)) (ix : Index) (line : Str) : Str :=
  let items := splitSpaces line
  let cmd := items.headD []
  (if cmd = str "tag" ∨ cmd = str "t" then []
   else if cmd = str "set" ∨ cmd = str "s" then setOutput lib ix items
   else if cmd = str "node" ∨ cmd = str "n" then nodeOutput order ix items
   else if cmd = str "var" ∨ cmd = str "v" then varOutput lib ix items
   else []) ++ str "\n"

/-- What a run of the loop of `main` writes to the standard output — cmd/opencorpora_test/main.go:411-417. A line that ends
the tool writes nothing; neither does one that crashes it, see `Crashes`: the crash comes before anything is written. The
prompts of `readline` are not part of this. -/
def transcript (lib : Lib) (order : IdMap → List (Rune × ID)) (ix : Index) : List (Str × Option Index) → Str
  | [] => []
  | (line, disk) :: rest =>
    match processInput lib disk ix line with
    | (_, .ok (.exit _)) => []
    | (ix', .ok _) => lineOutput lib order ix line ++ transcript lib order ix' rest
    | (ix', .err _) => lineOutput lib order ix line ++ transcript lib order ix' rest
    | (_, .panic) => []
    | (_, .diverge) => []

end Verif
