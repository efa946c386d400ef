import Verif.Spec.Dictionary

/-! # Specification: the readings of a word -/

namespace Verif

/-- The readings attached to a node, in order of the calls (with repetitions). -/
def Dict.attached (d : Dict) (k : Nat) : List (List Str) := (d.readings.filter (·.1 = k)).map (·.2)

/-- The names of the tags of a reading. -/
def tagNames (t : List Tag) : List Str := t.map (·.name)

/-- `L` lists exactly the attached readings: every attached one, nothing else, none twice. Readings are equal
if one is a permutation of the other. The tags shown are the registered ones (name and parent). -/
structure ExactReadings (registered : List Tag) (attached : List (List Str)) (L : List (List Tag)) : Prop where
  complete : ∀ names ∈ attached, ∃ t ∈ L, (tagNames t).Perm names
  sound : ∀ t ∈ L, ∃ names ∈ attached, (tagNames t).Perm names
  once : L.Pairwise fun a b => ¬ (tagNames a).Perm (tagNames b)
  registered : ∀ t ∈ L, ∀ x ∈ t, x ∈ registered

/-- The tag of a one-tag reading. -/
def singleName : List Str → Option Str
  | [x] => some x
  | _ => none

/-- The tag of the first one-tag reading attached to any node. -/
def Dict.firstSingle (d : Dict) : Option Str := d.readings.findSome? fun e => singleName e.2

/-- `D` has every reading of `A` once, up to the order of tags. -/
structure OneEach (A D : List (List Str)) : Prop where
  sub : ∀ a ∈ D, a ∈ A
  complete : ∀ a ∈ A, ∃ b ∈ D, a.Perm b
  once : D.Pairwise fun a b => ¬ a.Perm b

/-- What is shown instead of the attached readings, if some of them are empty. `first` is the tag of the first one-tag
reading in the dictionary. If there is one, an empty reading is shown as that reading. If there is none, every different
reading of the word is shown as an empty one. -/
def Shown (registered : List Tag) (first : Option Str) (attached : List (List Str)) (L : List (List Tag)) : Prop :=
  match first with
  | some x => ExactReadings registered (attached.map fun names => if names = [] then [x] else names) L
  | none => ([] ∉ attached → ExactReadings registered attached L) ∧
      ([] ∈ attached → ∃ D, OneEach attached D ∧ L = D.map fun _ => [])

end Verif
