import Verif.Spec.Document
import Verif.Spec.Readings
import Verif.Spec.Queries

/-! # Specification: the calls an import makes -/

namespace Verif

/-- The forms of the entries in document order: spelling and tags. -/
def allForms : List Entry → List (Str × List Str)
  | [] => []
  | .grammeme _ _ :: es => allForms es
  | .lem fs :: es => fs ++ allForms es

/-- The calls that add forms: `AddString`, then `AddTagSet` on the node of the word. -/
def formCalls (d : Dict) : List (Str × List Str) → List Op
  | [] => []
  | (w, tags) :: rest =>
    let d1 := (Op.addString w).spec d
    let tag := Op.addTagSet (UInt32.ofNat (d1.nodes.idxOf (decodeRunes w))) tags
    .addString w :: tag :: formCalls (tag.spec d1) rest

/-- The calls that make up the import of the entries into an index that stands for `d`. -/
def importCalls (d : Dict) : List Entry → List Op
  | [] => []
  | .grammeme n p :: es => .tagID n p :: importCalls ((Op.tagID n p).spec d) es
  | .lem fs :: es => formCalls d fs ++ importCalls ((formCalls d fs).foldl Op.spec d) es

/-- The tag lists of the forms whose characters are those of `w`, in document order. -/
def tagListsOf (w : Str) (forms : List (Str × List Str)) : List (List Str) :=
  (forms.filter fun f => decodeRunes f.1 = decodeRunes w).map (·.2)

end Verif
