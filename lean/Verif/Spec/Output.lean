import Verif.Model.Cli
import Verif.Spec.Texts

/-!
# What a user of the interactive tool gets to know from a line

Only what is written to the standard output counts, not the log.
-/

namespace Verif

/-- What one line shows. -/
inductive Screen where
  /-- a node: its number, its prefix, the number of its parent and of its collection, the tag names of its readings, its
  children -/
  | node (id : ID) (word : Str) (parent : ID) (collection : VariantID) (readings : List (List Str)) (children : IdMap)
  /-- the tag names of the set with the number typed -/
  | tags (number : Int) (names : List Str)
  /-- the sets of the collection with the number typed, with their numbers and the names of their tags; `none`: there is no
  such set -/
  | sets (number : VariantID) (sets : List (TagSetID × Option (List Str)))
  | nothing

/-- What a line shows: its reply, if that is one about a node, a set or a collection, with the number that was typed. -/
def shownBy (lib : Lib) (disk : Option Index) (ix : Index) (line : Str) : Screen :=
  match (processInput lib disk ix line).2 with
  | .ok (.node id w it L m) => .node id w it.parent it.variants (L.map fun t => t.map (·.name)) m
  | .ok (.tagSet names) => .tags ((lib.parseInt ((splitSpaces line).getD 1 [])).getD 0) (names.map (·.getD []))
  | .ok (.variants sets) => .sets ((lib.parseUint ((splitSpaces line).getD 1 [])).getD 0)
      (sets.map fun e => (e.1, e.2.map fun names => names.map (·.getD [])))
  | _ => .nothing

/-- What the lines of a session show, one after the other, up to the end of the tool. -/
def shownIn (lib : Lib) (ix : Index) : List (Str × Option Index) → List Screen
  | [] => []
  | (line, disk) :: rest =>
    match (processInput lib disk ix line).2 with
    | .ok (.exit _) => []
    | .panic => []
    | .diverge => []
    | _ => shownBy lib disk ix line :: shownIn lib (processInput lib disk ix line).1 rest

/-- Each map is visited in some order, every entry once. -/
def Visits (order : IdMap → List (Rune × ID)) : Prop := ∀ m, Enumerates m (order m)

end Verif
