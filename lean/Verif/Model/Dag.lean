import Verif.Model.Storage

/-!
# Model of `pkg/dag`: tags and the tag registry
-/

namespace Verif

/-- `dag.Tag` — pkg/dag/tag.go:13-16 -/
structure Tag where
  parent : Str
  name : Str
  deriving DecidableEq, Repr, Inhabited

/-- `EmptyTagName = "----"` — pkg/dag/name.go:14 -/
def emptyTagName : Str := [0x2d, 0x2d, 0x2d, 0x2d]

/-- `NewTag` — pkg/dag/tag.go:49-58 -/
def newTag (parent name : Str) : Tag :=
  { parent := if parent = [] then emptyTagName else parent, name := name }

/-- `NewIndex(knownTags...)` — pkg/dag/idx.go:29-41 -/
def newTagIdx (known : List Tag) : List Tag :=
  known.map fun t => if t.parent = [] then { t with parent := emptyTagName } else t

/-- `Idx.Find` — pkg/dag/idx.go:88-96: first tag with that name; the position is truncated to the
8-bit `TagID`. -/
def tagsFind (tags : List Tag) (name : Str) : Option UInt8 :=
  (tags.findIdx? fun t => t.name = name).map UInt8.ofNat

/-- `Idx.Index` — pkg/dag/idx.go:100-115 -/
def tagsIndex (tags : List Tag) (name parent : Str) : List Tag × UInt8 :=
  let parent := if parent = [] then emptyTagName else parent
  match tagsFind tags name with
  | some id => (tags, id)
  | none => (tags ++ [newTag parent name], UInt8.ofNat tags.length)

/-- `Idx.Get` — pkg/dag/idx.go:119-125 -/
def tagsGet (tags : List Tag) (id : UInt8) : Option Tag :=
  if id.toNat ≥ tags.length then none else tags[id.toNat]?

/-- `TagName.MarshalBinary` — pkg/dag/name.go:67-79 -/
def marshalName (g : Str) : Out Str :=
  if g.length = 0 ∨ g = emptyTagName then .ok [0x20, 0x20, 0x20, 0x20]
  else if g.length ≠ 4 then .err (.marshal g)
  else .ok g

/-- `TagName.UnmarshalBinary` — pkg/dag/name.go:81-101. The byte loop against
`emptyTagNameBytes` and the `== "    "` test both say "all four bytes are spaces". -/
def unmarshalName (b : Str) : Out Str :=
  if b.length ≠ 4 then .err (.marshal b)
  else if b = [0x20, 0x20, 0x20, 0x20] then .ok emptyTagName
  else .ok b

end Verif
