import Verif.Model.ParserLog
import Verif.Spec.Document

/-! # Specification: the words in the parser's log -/

namespace Verif

/-- The reported forms in order: the item shown, the spelling, the tags. -/
def wordsIn : List ParseLine → List (Item × Str × List Str)
  | [] => []
  | .word it w tags :: ls => (it, w, tags) :: wordsIn ls
  | _ :: ls => wordsIn ls

/-- The elements whose end is reported. -/
def closedIn : List ParseLine → List Str
  | [] => []
  | .closed p :: ls => p :: closedIn ls
  | _ :: ls => closedIn ls

/-- The entries an import is to process: all, or those up to the end of the `max`-th lemma. -/
def wanted (max : Int) (es : List Entry) : List Entry := if 0 < max then upToLemma max.toNat es else es

/-- The index rejects the form `f` with the error `e`, after it accepted the forms `done` (and the grammemes between
them), when it processes `es`. -/
def RejectsAfter (ix : Index) (es : List Entry) (done : List (Str × List Str)) (f : Str × List Str) (e : PErr) : Prop :=
  ∃ es1 fs1 fs2 es2, es = es1 ++ .lem (fs1 ++ f :: fs2) :: es2 ∧
    (execEntries ix (es1 ++ [.lem fs1])).2 = none ∧ (execEntries ix (es1 ++ [.lem (fs1 ++ [f])])).2 = some e ∧
    (es1.flatMap fun
      | .lem fs => fs
      | .grammeme _ _ => []) ++ fs1 = done

end Verif
