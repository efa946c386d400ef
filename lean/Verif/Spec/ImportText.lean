import Verif.Model.ImportText

/-! # Specification: what can be read in the parser's messages -/

namespace Verif

/-- What a message of the parser shows: of a node everything but its letter. -/
def ParseLine.visible : ParseLine → ParseLine
  | .word it form tags => .word { it with letter := 0 } form tags
  | l => l

/-- A tag name that can be told from what stands around it in a message: four bytes, not ending in " [". -/
def PlainTag (t : Str) : Prop := t.length = 4 ∧ t.drop 2 ≠ str " ["

instance (t : Str) : Decidable (PlainTag t) := by unfold PlainTag; infer_instance

/-- The tag names in a message. -/
def ParseLine.tags : ParseLine → List Str
  | .word _ _ tags => tags
  | _ => []

/-- All tag names of the forms are plain. -/
def PlainForms (forms : List (Str × List Str)) : Prop := ∀ f ∈ forms, ∀ t ∈ f.2, PlainTag t

instance (forms : List (Str × List Str)) : Decidable (PlainForms forms) := by unfold PlainForms; infer_instance

end Verif
