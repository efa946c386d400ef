import Verif.Spec.Copy

/-!
# Specification: merging a dictionary into another by calls of their own interface

The program a user would write: register the tags of `src` in `dst`, then go through the nodes of `src` by number, add the
word of each to `dst` and attach each of its readings. It stops at the first call that fails.
-/

namespace Verif

/-- Merge the tags and the nodes `1 … n` of `src` into `dst`. -/
def mergeNodes (dst src : Index) : Nat → Option Index
  | 0 => some (copyTags dst src.tags)
  | n + 1 => (mergeNodes dst src n).bind fun d => copyNode src d (UInt32.ofNat (n + 1))

/-- `dst` after merging `src` into it; `none` if a call failed on the way. -/
def mergeInto (dst src : Index) : Option Index := mergeNodes dst src src.nodesCount

/-- The index knows the word: `FetchRunes` finds it. -/
def KnowsWord (ix : Index) (w : List Rune) : Prop := ∃ id, (ix.fetchRunes w).2 = .ok id

/-- The names of the tags of the readings that `TagSets` shows for the word; none if the word is not known. -/
def namesAt (ix : Index) (w : List Rune) : List (List Str) :=
  match (ix.fetchRunes w).2 with
  | .ok id =>
    match ix.tagSetsOf id with
    | .ok sets => sets.map tagNames
    | _ => []
  | _ => []

/-- The numbers of the nodes of `b` with a word that `a` does not know. -/
noncomputable def newWords (a b : Index) : List Nat :=
  open Classical in
  (List.range b.nodesCount).filter fun i => ∃ w, b.word (UInt32.ofNat (i + 1)) = .ok w ∧ ¬ KnowsWord a (decodeRunes w)

/-- The numbers of the nodes of `b` with a word that has readings in `b`, but not in `a`. -/
noncomputable def newlyTagged (a b : Index) : List Nat :=
  open Classical in
  (List.range b.nodesCount).filter fun i => ∃ w, b.word (UInt32.ofNat (i + 1)) = .ok w ∧
    namesAt b (decodeRunes w) ≠ [] ∧ namesAt a (decodeRunes w) = []

/-- The tags of `b` with names that `a` does not have. -/
def newTags (a b : Index) : List Tag := b.tags.filter fun t => !(a.tags.any fun t' => t'.name == t.name)

/-- `m` is `a` and `b` in one: it knows the words known to one of them, and shows for each the readings of both, each once.
What was in `a` keeps its number. Lookups that start with NUL are left out. -/
structure Merged (a b m : Index) : Prop where
  knows : ∀ w, NoLeadingNul w → (KnowsWord m w ↔ KnowsWord a w ∨ KnowsWord b w)
  numbers : ∀ w id, NoLeadingNul w → (a.fetchRunes w).2 = .ok id → (m.fetchRunes w).2 = .ok id
  spelled : ∀ id, id.toNat ≤ a.nodesCount → m.word id = a.word id
  readings : ∀ w, NoLeadingNul w → SameSets (namesAt m w) (namesAt a w ++ namesAt b w)
  once : ∀ w, (namesAt m w).Pairwise fun x y => ¬ x.Perm y
  tags : m.tags = a.tags ++ newTags a b
  nodesCount : m.nodesCount = a.nodesCount + (newWords a b).length
  wordsCount : m.wordsCount = a.wordsCount + (newlyTagged a b).length

/-- Everything in `b` is in `a`: its words, their readings and the names of its tags. -/
structure PartOf (b a : Index) : Prop where
  words : ∀ id w, 0 < id.toNat → id.toNat ≤ b.nodesCount → b.word id = .ok w → KnowsWord a (decodeRunes w)
  readings : ∀ id w sets, b.word id = .ok w → b.tagSetsOf id = .ok sets → ∀ s ∈ sets,
    ∃ n ∈ namesAt a (decodeRunes w), n.Perm (tagNames s)
  tags : newTags a b = []

/-- There is room in `a`, the index after `h`, for what is in `b`: see `Room` for the limits. -/
structure MergeRoom (h : List Op) (a b : Index) : Prop where
  nodes : a.nodesCount + (newWords a b).length < 4294967295
  tags : (a.tags ++ newTags a b).length ≤ 255
  readings : ∃ L : List (List Str), L.length ≤ 65535 ∧ (∀ e ∈ (dictOf h).readings, ∃ l ∈ L, l.Perm e.2) ∧
    ∀ id sets, b.tagSetsOf id = .ok sets → ∀ s ∈ sets, ∃ l ∈ L, l.Perm (tagNames s)
  perWord : ∀ id w sets, b.word id = .ok w → b.tagSetsOf id = .ok sets →
    ∃ L : List (List Str), L.length ≤ 255 ∧
      ∀ names ∈ namesAt a (decodeRunes w) ++ sets.map tagNames, ∃ l ∈ L, l.Perm names
  sets : ∃ L : List (List (List Str)), L.length ≤ 65536 ∧
    (∀ q, q <+: h → ∀ k, (dictOf q).attached k ≠ [] → ∃ A ∈ L, SameSets A ((dictOf q).attached k)) ∧
    ∀ id w sets, b.word id = .ok w → b.tagSetsOf id = .ok sets → ∀ q, q <+: sets → q ≠ [] →
      ∃ A ∈ L, SameSets A (namesAt a (decodeRunes w) ++ q.map tagNames)

/-- No word of the index starts with NUL. -/
def NoNulWords (ix : Index) : Prop :=
  ∀ id w, 0 < id.toNat → id.toNat ≤ ix.nodesCount → ix.word id = .ok w → NoLeadingNul (decodeRunes w)

/-- The words of `src` can be added to `dst`: `dst` was never reloaded, or no word of `src` starts with NUL. -/
def NulSafe (hd : List Op) (src : Index) : Prop := NoReload hd ∨ NoNulWords src

/-- The two indexes say the same, whatever the numbers of nodes and tags: the same words, the same readings of each, the
same names of tags. -/
structure SaysTheSame (a b : Index) : Prop where
  knows : ∀ w, NoLeadingNul w → (KnowsWord a w ↔ KnowsWord b w)
  readings : ∀ w, NoLeadingNul w → SameSets (namesAt a w) (namesAt b w)
  tags : ∀ n, (∃ t ∈ a.tags, t.name = n) ↔ ∃ t ∈ b.tags, t.name = n
  nodesCount : a.nodesCount = b.nodesCount
  wordsCount : a.wordsCount = b.wordsCount

end Verif
