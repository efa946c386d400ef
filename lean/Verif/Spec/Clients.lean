import Verif.Spec.Reference
import Verif.Spec.Merge

/-!
# Specification: programs that use several dictionaries

A client decides what to do next by the answers it got. It may use any number of dictionaries, told apart by numbers, make
new ones, and save one of them and load the file as another one.
-/

namespace Verif

/-- A program using the interface, with result in `α`. -/
inductive Client (α : Type) where
  /-- end with this result -/
  | done (a : α)
  /-- call or ask dictionary `i` and go on depending on the answer -/
  | ask (i : Nat) (q : Ask) (next : Answer → Client α)
  /-- let dictionary `i` be a new one -/
  | create (i : Nat) (next : Client α)
  /-- save dictionary `i` and load the file into a new index, from now on dictionary `j`; go on depending on whether both
  succeeded -/
  | transfer (i j : Nat) (next : Bool → Client α)

/-- Put `x` at place `j`. -/
def place {β : Type} (s : Nat → β) (j : Nat) (x : β) : Nat → β := fun k => if k = j then x else s k

/-- The index that loading the file of `ix` gives, if saving and loading succeed. -/
def Index.transferred (ix : Index) : Option Index :=
  match ix.save.err with
  | some _ => none
  | none =>
    match Index.new.load ix.save.bytes with
    | .ok (ix', _) => some ix'
    | _ => none

namespace Client

variable {α β : Type}

/-- Result and dictionaries after the program, with the code. -/
def onIndexes : Client α → (Nat → Index) → α × (Nat → Index)
  | .done a, s => (a, s)
  | .ask i q next, s => (next ((s i).answer q)).onIndexes (place s i ((s i).after q))
  | .create i next, s => next.onIndexes (place s i Index.new)
  | .transfer i j next, s =>
    match (s i).transferred with
    | some ix => (next true).onIndexes (place s j ix)
    | none => (next false).onIndexes s

/-- Result and dictionaries after the program, with the reference implementation. -/
def onLists : Client α → (Nat → Dict) → α × (Nat → Dict)
  | .done a, s => (a, s)
  | .ask i q next, s => (next ((s i).answer q)).onLists (place s i ((s i).after q))
  | .create i next, s => next.onLists (place s i Dict.empty)
  | .transfer i j next, s => (next true).onLists (place s j (Op.reload.spec (s i)))

/-- The history a question adds to. -/
def _root_.Verif.Ask.history (h : List Op) : Ask → List Op
  | .call op => h ++ [op]
  | _ => h

/-- The histories of the dictionaries after the program. `h` are those before it; the answers are those of the reference
implementation. -/
def histories : Client α → (Nat → List Op) → Nat → List Op
  | .done _, h => h
  | .ask i q next, h => (next ((dictOf (h i)).answer q)).histories (place h i (q.history (h i)))
  | .create i next, h => next.histories (place h i [])
  | .transfer i j next, h => (next true).histories (place h j (h i ++ [.reload]))

/-- The program stays within the capacity (`Room`) in all dictionaries, as the reference implementation answers. -/
def Within : Client α → (Nat → List Op) → Prop
  | .done _, _ => True
  | .ask i q next, h => Room (q.history (h i)) ∧
    (next ((dictOf (h i)).answer q)).Within (place h i (q.history (h i)))
  | .create i next, h => next.Within (place h i [])
  | .transfer i j next, h => Room (h i ++ [.reload]) ∧ (next true).Within (place h j (h i ++ [.reload]))

/-- One program after the other. -/
def bind : Client α → (α → Client β) → Client β
  | .done a, f => f a
  | .ask i q next, f => .ask i q fun x => (next x).bind f
  | .create i next, f => .create i (next.bind f)
  | .transfer i j next, f => .transfer i j fun x => (next x).bind f

/-- Does the program call, ask, replace or load dictionary `k`? -/
inductive Uses (k : Nat) : Client α → Prop
  | here (q next) : Uses k (.ask k q next)
  | made (next) : Uses k (.create k next)
  | saved (j next) : Uses k (.transfer k j next)
  | loaded (i next) : Uses k (.transfer i k next)
  | ask (i q next a) : Uses k (next a) → Uses k (.ask i q next)
  | create (i next) : Uses k next → Uses k (.create i next)
  | transfer (i j next b) : Uses k (next b) → Uses k (.transfer i j next)

end Client

/-! ## Copying and merging as such programs

The functions of `Spec/Copy.lean` and `Spec/Merge.lean`, here for the dictionaries number 0 and 1. -/

namespace Client

/-- `TagID` of dictionary 0 for each tag. -/
def putTags : List Tag → Client Bool
  | [] => .done true
  | t :: rest => .ask 0 (.call (.tagID t.name t.parent)) fun _ => putTags rest

/-- `AddTagSet` of dictionary 0 for each reading; stops when a call fails. -/
def putReadings (n : ID) : List (List Tag) → Client Bool
  | [] => .done true
  | s :: rest => .ask 0 (.call (.addTagSet n (tagNames s))) fun
    | .done (.ok ()) => putReadings n rest
    | _ => .done false

/-- Ask dictionary 1 for word and readings of a node and put them into dictionary 0. -/
def putNode (id : ID) : Client Bool :=
  .ask 1 (.word id) fun
    | .text (.ok w) => .ask 1 (.tagSets id) fun
      | .sets (.ok sets) => .ask 0 (.call (.addString w)) fun
        | .node (.ok n) => putReadings n sets
        | _ => .done false
      | _ => .done false
    | _ => .done false

/-- The tags and the nodes `1 … n`. -/
def putNodes (tags : List Tag) : Nat → Client Bool
  | 0 => putTags tags
  | n + 1 => (putNodes tags n).bind fun
    | true => putNode (UInt32.ofNat (n + 1))
    | false => .done false

/-- Merge dictionary 1 into dictionary 0. -/
def merge : Client Bool :=
  .ask 1 .tags fun
    | .tags l => .ask 1 .nodesCount fun
      | .count n => putNodes l n
      | _ => .done false
    | _ => .done false

end Client

end Verif
