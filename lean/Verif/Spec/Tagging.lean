import Verif.Model.Tagging
import Verif.Spec.Threads
import Verif.Spec.Dictionary

/-! # Specification: what a call reads and writes of an index, and calls at the same time

`Uses ix c l`: the call `c`, made on `ix` with nobody else at work, reads or writes the cell `l`; `Writes ix c l`: it writes
the cell. Two calls *meet* if one of them writes a cell the other one uses. -/

namespace Verif

/-- The nodes whose children a lookup asks for. -/
def visited (kids : ID → IdMap) : ID → List Rune → List ID
  | _, [] => []
  | p, r :: rest => p :: match kids p r with
    | none => []
    | some next => if rest = [] then [] else visited kids next rest

namespace TCall

/-- `AddTagSet` gets to its end: all names are known, and they are the tags `s`; the node is `item`, it has the readings `c`
so far. -/
structure Tags (ix : Index) (id : ID) (names : List Str) (s : TagSet) (item : Item) (c : Coll) : Prop where
  names : Index.findAll ix.tags names = .ok s
  node : ix.items.get id = some item
  readings : ix.collectionIdx.get item.variants = .ok c

/-- The collection is looked up in table `k`. -/
def LooksIn (ix : Index) (v : VariantID) (k : Nat) : Prop :=
  v ≠ 0 ∧ (variantTableNum v).toNat = k + 1 ∧ k < ix.collectionIdx.length

/-- The readings of the word together with the new one. -/
def after (ix : Index) (s : TagSet) (c : Coll) : Coll := Coll.add c (ix.tagSets.index s).2

/-- The table in which a collection is stored. -/
def column (c : Coll) : Nat := (c.length - 1) % 65536

/-- The cells a call writes. -/
inductive Writes (ix : Index) : TCall → TLoc → Prop
  /-- a new tag -/
  | tag {name parent} : tagsFind ix.tags name = none → Writes ix (.tagID name parent) .tags
  /-- the node gets its collection, also if it is the one it had -/
  | node {id names s item c} : Tags ix id names s item c → Writes ix (.addTagSet id names) (.variants id)
  /-- one more word with readings -/
  | count {id names s item c} : Tags ix id names s item c → item.variants = 0 → Writes ix (.addTagSet id names) .count
  /-- more tables of tag sets: no set had so many tags -/
  | sets {id names s item c} : Tags ix id names s item c → ix.tagSets.length < s.length →
      Writes ix (.addTagSet id names) .sets
  | setTables {id names s item c j} : Tags ix id names s item c → ix.tagSets.length ≤ j → j < s.length →
      Writes ix (.addTagSet id names) (.setTable j)
  /-- a new tag set -/
  | set {id names s item c} : Tags ix id names s item c → s ≠ [] → sortAsc s ∉ ix.tagSets.getD (s.length - 1) [] →
      Writes ix (.addTagSet id names) (.setTable (s.length - 1))
  /-- more tables of collections: no word had so many readings -/
  | colls {id names s item c} : Tags ix id names s item c → ix.collectionIdx.length ≤ column (after ix s c) →
      Writes ix (.addTagSet id names) .colls
  | collTables {id names s item c j} : Tags ix id names s item c → ix.collectionIdx.length ≤ j → j ≤ column (after ix s c) →
      Writes ix (.addTagSet id names) (.collTable j)
  /-- a new collection -/
  | coll {id names s item c} : Tags ix id names s item c →
      sortAsc (after ix s c) ∉ ix.collectionIdx.getD (column (after ix s c)) [] →
      Writes ix (.addTagSet id names) (.collTable (column (after ix s c)))
  /-- a lookup that comes to a node without a map of children -/
  | lookup {rs p} : p ∈ visited ix.getChildrenMap 0 rs → ix.childrenMap p = none → Writes ix (.fetchRunes rs) .outer

/-- The cells a call reads or writes. -/
inductive Uses (ix : Index) : TCall → TLoc → Prop
  | writes {c l} : Writes ix c l → Uses ix c l
  | tag {name parent} : Uses ix (.tagID name parent) .tags
  | names {id names} : names ≠ [] → Uses ix (.addTagSet id names) .tags
  | node {id names s item} : Index.findAll ix.tags names = .ok s → ix.items.get id = some item →
      Uses ix (.addTagSet id names) (.variants id)
  | colls {id names s item} : Index.findAll ix.tags names = .ok s → ix.items.get id = some item →
      Uses ix (.addTagSet id names) .colls
  | coll {id names s item k} : Index.findAll ix.tags names = .ok s → ix.items.get id = some item →
      LooksIn ix item.variants k → Uses ix (.addTagSet id names) (.collTable k)
  | sets {id names s item c} : Tags ix id names s item c → s ≠ [] → Uses ix (.addTagSet id names) .sets
  | set {id names s item c} : Tags ix id names s item c → s ≠ [] → Uses ix (.addTagSet id names) (.setTable (s.length - 1))
  | newColl {id names s item c} : Tags ix id names s item c →
      Uses ix (.addTagSet id names) (.collTable (column (after ix s c)))
  | nodeOf {id item} : ix.items.get id = some item → Uses ix (.tagSets id) (.variants id)
  | collsOf {id item} : ix.items.get id = some item → Uses ix (.tagSets id) .colls
  | collOf {id item k} : ix.items.get id = some item → LooksIn ix item.variants k → Uses ix (.tagSets id) (.collTable k)
  /-- the sets are asked for one after the other until one is missing -/
  | setsOf {id item c} : ix.items.get id = some item → ix.collectionIdx.get item.variants = .ok c → c ≠ [] →
      Uses ix (.tagSets id) .sets
  | setOf {id item pre ts post} : ix.items.get id = some item → ix.collectionIdx.get item.variants = .ok (pre ++ ts :: post) →
      (∀ a ∈ pre, ∃ s, ix.tagSets.get a = some s) → (tagSetTableNumber ts).toNat < ix.tagSets.length →
      Uses ix (.tagSets id) (.setTable (tagSetTableNumber ts).toNat)
  | tagsOf {id item pre ts post s} : ix.items.get id = some item →
      ix.collectionIdx.get item.variants = .ok (pre ++ ts :: post) → (∀ a ∈ pre, ∃ s, ix.tagSets.get a = some s) →
      ix.tagSets.get ts = some s → s ≠ [] → Uses ix (.tagSets id) .tags
  | count : Uses ix .wordsCount .count
  | outer {rs} : rs ≠ [] → Uses ix (.fetchRunes rs) .outer
  | kids {rs p} : p ∈ visited ix.getChildrenMap 0 rs → Uses ix (.fetchRunes rs) (.kids p)
  | outerOf {id} : Uses ix (.childrenMap id) .outer
  | kidsOf {id} : Uses ix (.childrenMap id) (.kids id)

/-- One of the calls writes what the other one uses. -/
def Meet (ix : Index) (a b : TCall) : Prop := ∃ l, (Writes ix a l ∧ Uses ix b l) ∨ (Writes ix b l ∧ Uses ix a l)

end TCall

/-- Goroutine `t` of several makes call `t` of the list; the others make none. -/
def goroutine (ix : Index) (calls : List TCall) (t : Nat) : TProg (Option TAns) :=
  match calls[t]? with
  | none => .done none
  | some c => (TProg.call ix c).bind fun a => .done (some a)

/-- All calls of the list at the same time on one index, by a schedule. -/
def Index.together (ix : Index) (calls : List TCall) (sched : List Nat) : Threads TLoc TVal (Option TAns) :=
  (Threads.start (memOf ix) (goroutine ix calls)).run sched

/-- The calls with the given numbers, one after the other. -/
def Index.inOrder (ix : Index) (calls : List TCall) (order : List Nat) : Index :=
  order.foldl (fun ix t => match calls[t]? with
    | none => ix
    | some c => (ix.does c).1) ix

/-- It is as if the calls had been made one after the other, in some order: the answers and the index. -/
def Index.AsInSomeOrder (ix : Index) (calls : List TCall) (s : Threads TLoc TVal (Option TAns)) : Prop :=
  ∃ order : List Nat, order.Perm (List.range calls.length) ∧ s.mem = memOf (ix.inOrder calls order) ∧
    ∀ pre t post c, order = pre ++ t :: post → calls[t]? = some c →
      s.prog t = .done (some ((ix.inOrder calls pre).does c).2)

/-- Node `k` was given this reading, its tags in whatever order. -/
def Dict.Reads (d : Dict) (k : Nat) (names : List Str) : Prop := ∃ n, (k, n) ∈ d.readings ∧ n.Perm names

/-- The node has readings, and some node, perhaps the same one, has all its readings and `names`, and no others. -/
def Dict.Seen (d : Dict) (k : Nat) (names : List Str) : Prop :=
  (∃ n, (k, n) ∈ d.readings) ∧ ∃ k', ∀ n, d.Reads k' n ↔ d.Reads k n ∨ n.Perm names

/-- The calls write nothing of the index but the node they tag, and no two concern the same node if one tags it. Such a call
is a question, a lookup on nodes whose maps of children are there, `TagID` of a known name, or `AddTagSet` that fails or gives
a word the same readings as some word has. -/
def KeepApart (h : List Op) (ix : Index) (calls : List TCall) : Prop :=
  (∀ c ∈ calls, match c with
    | .tagID name _ => (dictOf h).hasTag name = true
    | .addTagSet id names => (names.all (dictOf h).hasTag = false ∨ id.toNat = 0 ∨ (dictOf h).nodes.length ≤ id.toNat) ∨
        (dictOf h).Seen id.toNat names
    | .fetchRunes rs => ∀ p ∈ visited ix.getChildrenMap 0 rs, ix.childrenMap p ≠ none
    | _ => True) ∧
  ∀ (t u : Nat) (id : ID) (names : List Str), t ≠ u → calls[t]? = some (.addTagSet id names) →
    calls[u]? ≠ some (.tagSets id) ∧ ∀ names', calls[u]? ≠ some (.addTagSet id names')

end Verif
