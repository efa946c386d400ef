import Verif.Spec.Readings

/-!
# Specification: the bytes of an index file

What somebody who writes another program for these files has to know. Four parts, each begun by two letters and a zero
byte; all numbers most significant byte first; everything that is counted is preceded by its number.
-/

namespace Verif

/-- A number in `n` bytes, most significant first. -/
def be : Nat → Nat → Str
  | 0, _ => []
  | n + 1, x => be n (x / 256) ++ [UInt8.ofNat (x % 256)]

/-- One node of the tree. -/
structure NodeRecord where
  /-- number of the node of the word without its last character; 0 for one-character words -/
  parent : Nat
  /-- last character of the word -/
  letter : Rune
  /-- where the readings are: how many, and the position among the combinations of so many; `none`: no readings -/
  readings : Option (Nat × Nat)

/-- What a file contains. -/
structure FileContents where
  /-- parent and name of each tag, four bytes each -/
  tags : List (Str × Str)
  /-- the readings of one tag, of two tags, of three, …; a reading is a list of positions in `tags` -/
  sets : List (List (List Nat))
  /-- the combinations of one reading, of two, …; a reading is given by its number of tags and its position in `sets` -/
  combos : List (List (List (Nat × Nat)))
  /-- nodes 1, 2, 3, … -/
  nodes : List NodeRecord

namespace NodeRecord

/-- 16 bytes: parent, own number, character, readings. -/
def bytes (r : NodeRecord) (number : Nat) : Str :=
  be 4 r.parent ++ be 4 number ++ be 4 r.letter.toUInt32.toNat ++
    match r.readings with
    | none => be 4 0
    | some (n, i) => be 2 n ++ be 2 i

end NodeRecord

namespace FileContents

/-- The file. -/
def bytes (c : FileContents) : Str :=
  str "TD" ++ [0] ++ be 1 c.tags.length ++ c.tags.flatMap (fun t => t.1 ++ t.2) ++
  str "TI" ++ [0] ++ be 4 c.sets.length ++ c.sets.flatMap (fun t => be 2 t.length ++
    t.flatMap fun s => be 1 s.length ++ s.flatMap (be 1)) ++
  str "CD" ++ [0] ++ be 1 c.combos.length ++ c.combos.flatMap (fun t => be 4 t.length ++
    t.flatMap fun s => be 1 s.length ++ s.flatMap fun e => be 2 (e.1 - 1) ++ be 2 e.2) ++
  str "ID" ++ [0] ++ be 4 (c.nodes.length + 1) ++ be 4 0 ++ be 4 0 ++ be 4 0 ++ be 4 0 ++
    (c.nodes.zipIdx 1).flatMap fun e => e.1.bytes e.2

/-- A reading, found by its number of tags and its position. -/
def setAt (c : FileContents) (e : Nat × Nat) : Option (List Nat) := (c.sets.getD (e.1 - 1) [])[e.2]?

/-- The readings of node `k`, as lists of tag numbers. -/
def readingsOf (c : FileContents) (k : Nat) : Option (List (List Nat)) :=
  match c.nodes[k - 1]? with
  | none => none
  | some r => match r.readings with
    | none => some []
    | some (n, i) => ((c.combos.getD (n - 1) [])[i]?).bind fun combo => combo.mapM c.setAt

/-- The words of the nodes are `words`: the root has the empty word, a node its parent's and its own character. -/
structure SpellsWords (c : FileContents) (words : List (List Rune)) : Prop where
  root : words[0]? = some []
  length : words.length = c.nodes.length + 1
  node : ∀ k r, c.nodes[k]? = some r → r.parent ≤ k ∧
    ∃ w, words[r.parent]? = some w ∧ words[k + 1]? = some (w ++ [r.letter])

/-- The tag numbers of the readings resolved: `T` shows the tags of the readings `L`. -/
def Resolve (tags : List Tag) (L : List (List Nat)) (T : List (List Tag)) : Prop :=
  L.mapM (fun s => s.mapM fun t => tags[t]?) = some T

/-- The four bytes of a name: the empty name (and the name `----`) is four spaces. -/
def fourBytes (n : Str) : Str := if n = [] ∨ n = str "----" then str "    " else n

/-- The name four bytes stand for. -/
def nameIn (b : Str) : Str := if b = str "    " then str "----" else b

/-- The file contains the dictionary `d`. -/
structure Describes (c : FileContents) (d : Dict) : Prop where
  tags : c.tags = d.tags.map fun t => (fourBytes t.parent, fourBytes t.name)
  words : c.SpellsWords d.nodes
  readings : ∀ k, 0 < k → k < d.nodes.length → [] ∉ d.attached k →
    ∃ L T, c.readingsOf k = some L ∧ Resolve d.tags L T ∧ ExactReadings d.tags (d.attached k) T

/-- The counters and references have room for what they hold; names are as the program writes them. -/
structure Valid (c : FileContents) : Prop where
  tags : c.tags.length ≤ 255
  names : ∀ t ∈ c.tags, t.1.length = 4 ∧ t.2.length = 4 ∧ t.1 ≠ str "----" ∧ t.2 ≠ str "----"
  setTables : c.sets.length < 4294967296
  setTable : ∀ t ∈ c.sets, t.length ≤ 65535
  sets : ∀ t ∈ c.sets, ∀ s ∈ t, s.length ≤ 255 ∧ ∀ x ∈ s, x < 256
  comboTables : c.combos.length ≤ 255
  comboTable : ∀ t ∈ c.combos, t.length < 4294967296
  combos : ∀ t ∈ c.combos, ∀ s ∈ t, s.length ≤ 255 ∧ ∀ e ∈ s, 1 ≤ e.1 ∧ e.1 ≤ 65536 ∧ e.2 < 65536
  nodes : c.nodes.length + 1 < 4294967296
  node : ∀ r ∈ c.nodes, r.parent < 4294967296 ∧ ∀ n i, r.readings = some (n, i) → 1 ≤ n ∧ n < 65536 ∧ i < 65536

end FileContents

end Verif
