import Verif.Model.Codec

/-! # Limits of the index file format -/

namespace Verif

/-- A tag name (or parent) the format can represent: empty or exactly four bytes. -/
def NameOK (n : Str) : Prop := n = [] ∨ n.length = 4

/-- What a name is after one trip through a file: the empty name and four spaces become `"----"`. -/
def storedName (n : Str) : Str := if n = [] ∨ n = [0x20, 0x20, 0x20, 0x20] then emptyTagName else n

/-- What a tag is after one trip through a file. -/
def storedTag (t : Tag) : Tag := { parent := storedName t.parent, name := storedName t.name }

/-- The counters of the format have fixed widths: at most 255 tags, 255 tags in a set, 65535 different
sets of one length, 255 readings for a word, 2³² − 1 of everything else. -/
structure Index.InLimits (ix : Index) : Prop where
  tags : ix.tags.length ≤ 255
  setTables : ix.tagSets.length < 4294967296
  sets : ∀ t ∈ ix.tagSets, t.length ≤ 65535
  setLen : ∀ t ∈ ix.tagSets, ∀ s ∈ t, s.length ≤ 255
  collTables : ix.collectionIdx.length ≤ 255
  colls : ∀ t ∈ ix.collectionIdx, t.length < 4294967296
  collLen : ∀ t ∈ ix.collectionIdx, ∀ c ∈ t, c.length ≤ 255
  items : ix.items.nextID.toNat ≤ ix.items.items.length

/-- All tag names and parents are representable. -/
def Index.NamesOK (ix : Index) : Prop := ∀ t ∈ ix.tags, NameOK t.parent ∧ NameOK t.name

end Verif
