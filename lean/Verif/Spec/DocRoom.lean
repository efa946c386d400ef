import Verif.Spec.ImportCalls
import Verif.Spec.Room

/-!
# Specification: documents within the capacity of the index

Only what the document says is counted: grammemes, words, and the tag lists of its forms.
-/

namespace Verif

/-- Every form has a non-empty spelling, and its tags are grammemes declared earlier in the document. -/
def Declared (es : List Entry) : Prop :=
  ∀ es1 fs es2, es = es1 ++ .lem fs :: es2 → ∀ f ∈ fs, f.1 ≠ [] ∧ ∀ x ∈ f.2, ∃ p, Entry.grammeme x p ∈ es1

/-- A document within capacity: the spellings have fewer than 2³² different prefixes (the empty one included); at
most 255 different grammemes with names of four bytes; at most 255 tags in a form and 65535 different tag lists; at
most 255 different tag lists for one spelling; and, reading the document from the beginning, at most 65536 different
sets of tag lists that a spelling ever has. There is no bound on the number of lemmas or forms. -/
structure DocRoom (es : List Entry) : Prop where
  prefixes : ∃ L : List (List Rune), L.length < 4294967296 ∧ [] ∈ L ∧
    ∀ f ∈ allForms es, ∀ p, p <+: decodeRunes f.1 → p ∈ L
  grammemes : ∃ L : List Str, L.length ≤ 255 ∧ ∀ n p, Entry.grammeme n p ∈ es → n ∈ L
  names : ∀ n p, Entry.grammeme n p ∈ es → n.length = 4 ∧ n ≠ str "    " ∧ (p = [] ∨ p.length = 4 ∧ p ≠ str "    ")
  tags : ∀ f ∈ allForms es, f.2.length ≤ 255
  tagLists : ∃ L : List (List Str), L.length ≤ 65535 ∧ ∀ f ∈ allForms es, ∃ l ∈ L, l.Perm f.2
  perWord : ∀ w, ∃ L : List (List Str), L.length ≤ 255 ∧ ∀ names ∈ tagListsOf w (allForms es), ∃ l ∈ L, l.Perm names
  sets : ∃ L : List (List (List Str)), L.length ≤ 65536 ∧
    ∀ F, F <+: allForms es → ∀ w, tagListsOf w F ≠ [] → ∃ A ∈ L, SameSets A (tagListsOf w F)

/-- Names of four bytes, not four spaces. -/
def Entry.Plain : Entry → Prop
  | .grammeme n p => n.length = 4 ∧ n ≠ str "    " ∧ (p = [] ∨ p.length = 4 ∧ p ≠ str "    ")
  | .lem _ => True

instance (e : Entry) : Decidable e.Plain := by unfold Entry.Plain; split <;> infer_instance

/-- A simple sufficient condition that can be checked: few characters, grammemes and forms. -/
structure DocSmall (es : List Entry) : Prop where
  chars : ((allForms es).map fun f => (decodeRunes f.1).length).sum < 4294967295
  grammemes : (es.filter fun | .grammeme _ _ => true | .lem _ => false).length ≤ 255
  names : ∀ e ∈ es, e.Plain
  tags : ∀ f ∈ allForms es, f.2.length ≤ 255
  forms : (allForms es).length ≤ 255

/-- `Declared`, as a check: `G` are the names declared before. -/
def declaredB (G : List Str) : List Entry → Bool
  | [] => true
  | .grammeme n _ :: es => declaredB (n :: G) es
  | .lem fs :: es => fs.all (fun f => f.1 ≠ [] && f.2.all (· ∈ G)) && declaredB G es

/-- The grammemes with their parents, in document order; of several with the same name the first. -/
def declaredTags (es : List Entry) : List Tag :=
  es.foldl (fun T e =>
    match e with
    | .grammeme n p =>
      if T.any (·.name == n) then T else T ++ [{ name := n, parent := if p = [] then str "----" else p }]
    | .lem _ => T) []

end Verif
