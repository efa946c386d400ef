import Verif.Spec.Alike
import Verif.Spec.Readings
import Verif.Spec.DocRoom

/-!
# One dictionary is a part of another
-/

namespace Verif

/-- Everything registered, added and attached in `a` is registered, added and attached in `b` — in any order, any number
of times, among other things. -/
structure ContainedIn (a b : Dict) : Prop where
  words : ∀ v ∈ a.words, v ∈ b.words
  tags : ∀ t ∈ a.tags, t ∈ b.tags
  readings : ∀ w, ∀ names ∈ a.readingsFor w, ∃ names' ∈ b.readingsFor w, names.Perm names'

/-- The index `b` knows about the word `w` what `a` knows: if `a` finds it, so does `b`, spelled the same, with every
continuation by one character; and if `b` does not find it, neither does `a`, and the part of it that `a` says to know is
the beginning of the part that `b` says to know. -/
structure KnowsMore (a b : Index) (w : List Rune) : Prop where
  found : ∀ i, (a.fetchRunes w).2 = .ok i → ∃ j, (b.fetchRunes w).2 = .ok j ∧ a.word i = b.word j ∧
    ∀ c, (a.getChildrenMap i c).isSome → (b.getChildrenMap j c).isSome
  missing : w ≠ [] → (∀ j, (b.fetchRunes w).2 ≠ .ok j) → ∃ p c p' c', p <+: p' ∧ p' ++ [c'] <+: w ∧
    (a.fetchRunes w).2 = .err (.notFound (encodeRunes p) c) ∧ (b.fetchRunes w).2 = .err (.notFound (encodeRunes p') c')

/-- Every reading in `L` is one in `M`, with the same tags and parents. -/
def ReadingsIn (L M : List (List Tag)) : Prop := ∀ t ∈ L, ∃ t' ∈ M, t.Perm t'

/-- The readings a word shows if the readings `attached` were attached to it: those, if none of them is empty. An empty
one is shown as the first one-tag reading of the dictionary (`first`); if there is none, all readings are shown empty. -/
def shownAs (first : Option Str) (attached : List (List Str)) : List (List Str) :=
  match first with
  | some x => attached.map fun names => if names = [] then [x] else names
  | none => if [] ∈ attached then attached.map fun _ => [] else attached

/-- A later edition: every declared grammeme is still declared, with the same parent, and every form still has its tag
list. -/
structure Extends (doc₁ doc₂ : List Xml) : Prop where
  grammemes : ∀ t ∈ declaredTags (entriesOf doc₁), t ∈ declaredTags (entriesOf doc₂)
  forms : ∀ f ∈ allForms (entriesOf doc₁), ∃ g ∈ allForms (entriesOf doc₂), decodeRunes f.1 = decodeRunes g.1 ∧ f.2.Perm g.2

end Verif
