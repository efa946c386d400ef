import Verif.Spec.ReadingOrder
import Verif.Spec.Room
import Verif.Spec.Queries
import Mathlib.Data.List.Sort
import Mathlib.Data.List.Dedup

/-!
# Specification: a reference implementation of the interface

Every call and every question of the interface, answered from the plain lists of a `Dict`: the words, the tags and the log of
attached readings. There are no nodes with parents and children here, no tables of sets and no file.
-/

namespace Verif

/-- What a program can call and ask. -/
inductive Ask where
  /-- a call that may change the index -/
  | call (op : Op)
  /-- `Get` -/
  | get (id : ID)
  /-- `Node.Word` -/
  | word (id : ID)
  /-- `Node.TagSets` -/
  | tagSets (id : ID)
  /-- one entry of `GetChildrenMap`; `Children` is the case `id = 0` -/
  | child (id : ID) (c : Rune)
  /-- `Tags` -/
  | tags
  /-- `NodesCount` -/
  | nodesCount
  /-- `WordsCount` -/
  | wordsCount

/-- What it is answered. -/
inductive Answer where
  | node (o : Out ID)
  | done (o : Out Unit)
  | tagID (id : UInt8)
  | text (o : Out Str)
  | sets (o : Out (List (List Tag)))
  | child (c : Option ID)
  | tags (l : List Tag)
  | count (n : Nat)

/-- What the index answers (model of the code). Of saving and loading only the success is of interest here: a failed save counts
as a panic. -/
def Index.answer (ix : Index) : Ask → Answer
  | .call (.addRunes rs) => .node (ix.addRunes rs).2
  | .call (.addString w) => .node (ix.addString w).2
  | .call (.addToNode id rs) => .node (ix.addToNode id rs).2
  | .call (.fetchFromItem id rs) => .node (ix.fetchFromItem id rs).2
  | .call (.fetchItemFromParent id rs) => .node (ix.fetchItemFromParent id rs).2
  | .call (.fetchRunes rs) => .node (ix.fetchRunes rs).2
  | .call (.fetchString w) => .node (ix.fetchString w).2
  | .call (.tagID name parent) => .tagID (ix.tagID name parent).2
  | .call (.addTagSet id names) => .done (ix.addTagSet id names).2
  | .call .optimize => .done ix.optimize.2
  | .call .reload => .done (match ix.save.err with
    | some _ => .panic
    | none => (Index.new.load ix.save.bytes).bind fun _ => .ok ())
  | .get id => .node (ix.get id)
  | .word id => .text (ix.word id)
  | .tagSets id => .sets (ix.tagSetsOf id)
  | .child id c => .child (ix.getChildrenMap id c)
  | .tags => .tags ix.tags
  | .nodesCount => .count ix.nodesCount
  | .wordsCount => .count ix.wordsCount

/-- The state after it. -/
def Index.after (ix : Index) : Ask → Index
  | .call op => op.exec ix
  | _ => ix

/-- What a program is answered that starts with this index. -/
def Index.answers (ix : Index) : List Ask → List Answer
  | [] => []
  | a :: rest => ix.answer a :: (ix.after a).answers rest

namespace Dict

/-- The number of a word. -/
def number (d : Dict) (w : List Rune) : ID := UInt32.ofNat (d.nodes.idxOf w)

/-- The longest beginning of `t` that is a word. -/
def longest (d : Dict) (t : List Rune) : List Rune := ((prefixes t).filter (· ∈ d.nodes)).getLastD []

/-- Look up what is reached from the word number `p` by the characters `rs`. -/
def find (d : Dict) (p : ID) (rs : List Rune) : Out ID :=
  match rs, d.nodes[p.toNat]? with
  | [], _ => .err .emptyRunes
  | r :: _, none => .err (.notFound (str "no item: " ++ str (toString p.toNat)) r)
  | _ :: _, some w =>
    let t := d.join w rs
    if t ∈ d.nodes then .ok (d.number t)
    else .err (.notFound (encodeRunes (d.longest t)) (t[(d.longest t).length]?.getD 0))

/-- Add what is reached from the word number `p` by the characters `rs`. -/
def add (d : Dict) (p : ID) (rs : List Rune) : Out ID :=
  if rs = [] then .err .emptyRunes
  else match d.nodes[p.toNat]? with
    | none => .err (.noParent p)
    | some w => .ok ((d.insert p.toNat rs).number (d.join w rs))

/-- The tags with these names, in order of registration. -/
def inOrder (d : Dict) (names : List Str) : List Tag :=
  d.tags.flatMap fun t => List.replicate (names.count t.name) t

/-- `a` is shown before `b`. -/
def before (d : Dict) (a b : List Tag) : Prop :=
  a.length < b.length ∨ a.length = b.length ∧ d.firstUse (tagNames a) ≤ d.firstUse (tagNames b)

instance (d : Dict) : DecidableRel d.before := fun a b => by unfold before; infer_instance

/-- The readings of word number `k`, each once. An empty reading is shown as the first one-tag reading of the dictionary; if
there is none, all readings of the word are shown as empty ones. -/
def shown (d : Dict) (k : Nat) : List (List Tag) :=
  match d.firstSingle with
  | some x => ((d.attached k).map fun names => d.inOrder (if names = [] then [x] else names)).dedup.insertionSort d.before
  | none =>
    if [] ∈ d.attached k then ((d.attached k).map d.inOrder).dedup.map fun _ => []
    else ((d.attached k).map d.inOrder).dedup.insertionSort d.before

/-- What the reference implementation answers. -/
def answer (d : Dict) : Ask → Answer
  | .call (.addRunes rs) => .node (d.add 0 rs)
  | .call (.addString w) => .node (if w = [] then .err .emptyWord else d.add 0 (decodeRunes w))
  | .call (.addToNode id rs) => .node (d.add id rs)
  | .call (.fetchFromItem id rs) => .node (d.find id rs)
  | .call (.fetchItemFromParent id rs) => .node (d.find id rs)
  | .call (.fetchRunes rs) => .node (d.find 0 rs)
  | .call (.fetchString w) => .node (d.find 0 (decodeRunes w))
  | .call (.tagID name _) => .tagID (UInt8.ofNat (d.tags.findIdx fun t => t.name == name))
  | .call (.addTagSet id names) => .done (match names.find? fun n => !d.hasTag n with
    | some n => .err (.unknownTag n)
    | none => if 0 < id.toNat ∧ id.toNat < d.nodes.length then .ok () else .panic)
  | .call .optimize => .done (.ok ())
  | .call .reload => .done (.ok ())
  | .get id => .node (if id.toNat < d.nodes.length then .ok id else .err (.noSuchNode id))
  | .word id => .text (.ok (match d.nodes[id.toNat]? with
    | some w => encodeRunes w
    | none => str "no item: " ++ str (toString id.toNat)))
  | .tagSets id => .sets (if 0 < id.toNat ∧ id.toNat < d.nodes.length then .ok (d.shown id.toNat) else .panic)
  | .child id c => .child (match d.nodes[id.toNat]? with
    | some w => if d.join w [c] ∈ d.nodes then some (d.number (d.join w [c])) else none
    | none => none)
  | .tags => .tags d.tags
  | .nodesCount => .count (d.nodes.length - 1)
  | .wordsCount => .count ((List.range d.nodes.length).filter fun k => d.attached k ≠ []).length

/-- The dictionary after it. -/
def after (d : Dict) : Ask → Dict
  | .call op => op.spec d
  | _ => d

/-- What a program is answered. -/
def answers (d : Dict) : List Ask → List Answer
  | [] => []
  | a :: rest => d.answer a :: (d.after a).answers rest

end Dict

/-- The calls of a program that may change the index. -/
def callsMade (p : List Ask) : List Op := p.filterMap fun
  | .call op => some op
  | _ => none

end Verif
