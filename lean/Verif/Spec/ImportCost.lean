import Verif.Spec.DocRoom

/-!
# Specification: the sizes of a document that count for an import
-/

namespace Verif

/-- The size of a token: one, and two for each attribute. -/
def XTok.size : XTok → Nat
  | .start _ as => 1 + 2 * as.length
  | _ => 1

/-- The size of a document: one for each start tag, end tag, text and comment, two for each attribute. -/
def documentSize (doc : List Xml) : Nat := ((Xml.tokensAll doc).map XTok.size).sum

/-- Number of grammemes. -/
def grammemeCount (es : List Entry) : Nat := (es.filter fun | .grammeme _ _ => true | .lem _ => false).length

/-- Among the tag lists of the forms there are at most `R` different ones (the order of the tags does not matter), at most
`c` of forms with one spelling, and at most `K` different sets of tag lists that a spelling has in the document or in a
beginning of it. -/
structure DocDifferent (es : List Entry) (R c K : Nat) : Prop where
  readings : ∃ L : List (List Str), L.length ≤ R ∧ ∀ f ∈ allForms es, ∃ l ∈ L, l.Perm f.2
  word : ∀ w, ∃ L : List (List Str), L.length ≤ c ∧ ∀ names ∈ tagListsOf w (allForms es), ∃ l ∈ L, l.Perm names
  sets : ∃ L : List (List (List Str)), L.length ≤ K ∧
    ∀ F, F <+: allForms es → ∀ w, tagListsOf w F ≠ [] → ∃ A ∈ L, SameSets A (tagListsOf w F)

/-- What a form may cost, with `T` tags declared: its characters, its tags, and a search through all different tag lists
and all different sets of them. -/
def formCost (T R c K : Nat) (f : Str × List Str) : Nat :=
  1 + (decodeRunes f.1).length + f.2.length + (f.2.length * (T + 2) + R * (f.2.length + 1) + (3 * c + 2) + K * (c + 2))

end Verif
