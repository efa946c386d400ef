import Verif.Model.Go

/-!
# Where a path leads

A location is the list of the names of the directories from the root. Symbolic links are not considered.
-/

namespace Verif

/-- The elements of a path: what stands between its slashes. -/
def Elements (p : Str) (l : List Str) : Prop := List.intercalate [0x2f] l = p ∧ l ≠ [] ∧ ∀ e ∈ l, (0x2f : UInt8) ∉ e

/-- Following one element of a path: nothing and `.` stay, `..` goes up (the root stays), a name goes down. -/
def enter (loc : List Str) (e : Str) : List Str :=
  if e = [] ∨ e = str "." then loc else if e = str ".." then loc.dropLast else loc ++ [e]

/-- Where a path leads from the working directory. -/
def Leads (cwd : List Str) (p : Str) (loc : List Str) : Prop :=
  ∃ l, Elements p l ∧ loc = l.foldl enter (if p.head? = some 0x2f then [] else cwd)

/-- A name that can stand for a file or directory. -/
def PlainName (e : Str) : Prop := e ≠ [] ∧ e ≠ str "." ∧ e ≠ str ".." ∧ (0x2f : UInt8) ∉ e

/-- The absolute path of a location. -/
def slashPath (loc : List Str) : Str := 0x2f :: List.intercalate [0x2f] loc

end Verif
