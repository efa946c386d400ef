import Verif.Model.Codec
import Verif.Spec.Format

/-!
# Specification: the dictionary an `Index` stands for

A dictionary is a list of words (in order of creation, the empty word first; a word's position is its
node id), a tag registry and a log of readings. No tables, no packed ids, no maps of children.
-/

namespace Verif

/-- The non-empty prefixes of a word, shortest first. -/
def prefixes {α : Type} : List α → List (List α)
  | [] => []
  | a :: l => [a] :: (prefixes l).map (a :: ·)

/-- Append a word unless it is there. -/
def addNew (ws : List (List Rune)) (w : List Rune) : List (List Rune) := if w ∈ ws then ws else ws ++ [w]

/-- Append the words that are missing, in order. -/
def addAll (ws : List (List Rune)) (new : List (List Rune)) : List (List Rune) := new.foldl addNew ws

/-- The abstract dictionary. -/
structure Dict where
  /-- the words with a node; position = node id; `[]` first -/
  nodes : List (List Rune)
  /-- every word ever added, in full -/
  words : List (List Rune)
  /-- registered tags; position = tag id -/
  tags : List Tag
  /-- successful `AddTagSet` calls: node id and tag names -/
  readings : List (Nat × List Str)
  /-- `true` after loading an index without the one-character word NUL: leading NULs are skipped then -/
  nul : Bool

namespace Dict

/-- A new dictionary. -/
def empty : Dict := { nodes := [[]], words := [], tags := [], readings := [], nul := false }

/-- The word reached from the word `w` by the characters `rs`. -/
def join (d : Dict) (w rs : List Rune) : List Rune :=
  if w = [] ∧ d.nul = true then rs.dropWhile (· == 0) else w ++ rs

/-- Add the word reached from node `p` by `rs`, with all its prefixes. -/
def insert (d : Dict) (p : Nat) (rs : List Rune) : Dict :=
  match d.nodes[p]? with
  | none => d
  | some w =>
    if rs = [] then d
    else { d with nodes := addAll d.nodes (prefixes (d.join w rs)),
                  words := d.words ++ [d.join w rs] }

/-- Is the tag name registered? -/
def hasTag (d : Dict) (name : Str) : Bool := d.tags.any fun t => t.name == name

end Dict

/-- The calls that may change an index (lookups may too: they create empty child maps). -/
inductive Op where
  /-- `AddRunes` -/
  | addRunes (rs : List Rune)
  /-- `AddString` -/
  | addString (w : Str)
  /-- `AddToNode` -/
  | addToNode (id : ID) (rs : List Rune)
  /-- `FetchFromItem` -/
  | fetchFromItem (id : ID) (rs : List Rune)
  /-- `FetchItemFromParent` -/
  | fetchItemFromParent (id : ID) (rs : List Rune)
  /-- `FetchRunes` -/
  | fetchRunes (rs : List Rune)
  /-- `FetchString` -/
  | fetchString (w : Str)
  /-- `TagID` -/
  | tagID (name parent : Str)
  /-- `Node.AddTagSet` -/
  | addTagSet (id : ID) (names : List Str)
  /-- `Optimize` -/
  | optimize
  /-- `BinaryWriteTo`, then `BinaryReadFrom` into a new index, which replaces the old one -/
  | reload

/-- What the call does to the index (model of the code). -/
def Op.exec (ix : Index) : Op → Index
  | addRunes rs => (ix.addRunes rs).1
  | addString w => (ix.addString w).1
  | addToNode id rs => (ix.addToNode id rs).1
  | fetchFromItem id rs => (ix.fetchFromItem id rs).1
  | fetchItemFromParent id rs => (ix.fetchItemFromParent id rs).1
  | fetchRunes rs => (ix.fetchRunes rs).1
  | fetchString w => (ix.fetchString w).1
  | tagID name parent => (ix.tagID name parent).1
  | addTagSet id names => (ix.addTagSet id names).1
  | optimize => ix.optimize.1
  | reload =>
    if ix.save.err = none then
      match Index.new.load ix.save.bytes with
      | .ok (ix', _) => ix'
      | _ => ix
    else ix

/-- What the call should do to the dictionary. -/
def Op.spec (d : Dict) : Op → Dict
  | addRunes rs => d.insert 0 rs
  | addString w => d.insert 0 (decodeRunes w)
  | addToNode id rs => d.insert id.toNat rs
  | tagID name parent =>
    if d.hasTag name then d else { d with tags := d.tags ++ [newTag parent name] }
  | addTagSet id names =>
    if names.all d.hasTag ∧ 0 < id.toNat ∧ id.toNat < d.nodes.length then
      { d with readings := d.readings ++ [(id.toNat, names)] }
    else d
  | reload => { d with nul := !(d.nodes.contains [0]), tags := d.tags.map storedTag }
  | _ => d

/-- The dictionary after a history of calls on a new index. -/
def dictOf (h : List Op) : Dict := h.foldl Op.spec Dict.empty

/-- Nothing has overflowed: fewer than 2³² nodes, at most 256 tags, at most 65536 tags in a set and
65536 different sets of each size, at most 65535 readings of a word and 65536 different collections of
readings of each size. -/
structure Fits (ix : Index) (d : Dict) : Prop where
  nodes : d.nodes.length < 4294967296
  tags : d.tags.length ≤ 256
  setTables : ix.tagSets.length ≤ 65536
  sets : ∀ t ∈ ix.tagSets, t.length ≤ 65536
  collTables : ix.collectionIdx.length ≤ 65535
  colls : ∀ t ∈ ix.collectionIdx, t.length ≤ 65536

/-- A tag whose name the file format stores faithfully: four bytes, not four spaces; the parent is empty
or four bytes (an empty parent comes back as `"----"`, see `storedTag`). -/
def Savable (t : Tag) : Prop :=
  t.name.length = 4 ∧ t.name ≠ [0x20, 0x20, 0x20, 0x20] ∧ NameOK t.parent

/-- When the outcome of a call is specified: saving needs representable tags and counts. -/
def Op.Allowed (ix : Index) (d : Dict) : Op → Prop
  | reload => ix.InLimits ∧ ∀ t ∈ d.tags, Savable t
  | _ => True

/-- `Run h ix`: the calls `h`, made on a new index, never exceeded the capacity and led to `ix`. -/
inductive Run : List Op → Index → Prop
  | nil : Run [] Index.new
  | step {h ix} (op : Op) : Run h ix → op.Allowed ix (dictOf h) →
      Fits (op.exec ix) (dictOf (h ++ [op])) → Run (h ++ [op]) (op.exec ix)

end Verif
