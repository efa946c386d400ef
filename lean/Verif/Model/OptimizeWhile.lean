import Verif.Spec.Dictionary

/-!
# `Optimize` while other goroutines use the index

`Optimize` (internal/index/idx.go:488-574) takes no lock. Here it makes one access of the shared index at a time: it reads
the numbers of the stored combinations, then the `Variants` field of each node, then each combination, then assigns the
fields one by one, then the new tables. Calls of other goroutines come in between.

Simplifications: the calls of the other goroutines are whole (what they do to each other when they overlap:
`Model/Tagging.lean`, `Model/TagWhileAdding.lean`), except that a reader may read the field and the table at different
moments (`shownBetween`). A slice is assigned in one piece. `KnownID` reads the tables in one piece; only `AddTagSet` changes
them. The first loop goes over the array of nodes as it was when it began; if `NewChild` moves the nodes to a larger array
meanwhile, the loop misses only what `AddTagSet` assigns after the move. Logging is left out (C76 for a call alone).
-/

namespace Verif

/-- How far `Optimize` has come — internal/index/idx.go:488-574 -/
inductive OPC where
  /-- before `knownCollections := index.collectionIdx.KnownID()` — line 491 -/
  | start
  /-- first loop: `n` nodes to read, `k` next — lines 493-501 -/
  | scan (known : List VariantID) (n k : Nat) (used : VariantID → Option (List ID))
  /-- third loop: combinations still to copy, new tables, renumbering so far — lines 526-544 -/
  | build (used : VariantID → Option (List ID)) (rest : List VariantID) (new : VariantsIndex)
      (acc : List (VariantID × VariantID))
  /-- fourth loop: fields still to assign — lines 548-567; then the assignment of line 570 -/
  | replace (new : VariantsIndex) (todo : List (ID × VariantID))
  /-- returned — lines 514, 574 -/
  | done
  /-- panicked — lines 539, 551, or an index out of range -/
  | panicked

/-- The index and the running `Optimize`. For internal/index/idx.go:488-574. -/
structure OState where
  ix : Index
  pc : OPC

namespace OState

/-- One node in the first loop — internal/index/idx.go:493-501 -/
def addUse (m : VariantID → Option (List ID)) (it : Item) : VariantID → Option (List ID) :=
  if it.variants = 0 then m
  else fun v => if v = it.variants then some ((m v).getD [] ++ [it.id]) else m v

/-- The assignments of the fourth loop, in order — internal/index/idx.go:548-566. Only used combinations have been copied, so
the panic of line 551 does not happen. -/
def writes (used : VariantID → Option (List ID)) (acc : List (VariantID × VariantID)) : List (ID × VariantID) :=
  acc.flatMap fun ab => ((used ab.1).getD []).map fun id => (id, ab.2)

/-- The next access of `Optimize` — internal/index/idx.go:488-574 -/
def opt (s : OState) : OState :=
  match s.pc with
  | .start => { s with pc := .scan s.ix.collectionIdx.knownID s.ix.items.items.length 0 fun _ => none }
  | .scan known n k used =>
    if k < n then
      match s.ix.items.items[k]? with
      | some it => { s with pc := .scan known n (k + 1) (addUse used it) }
      | none => { s with pc := .panicked }
    else if (known.filter fun id => (used id).isNone).length = 0 then { s with pc := .done }
    else { s with pc := .build used known [] [] }
  | .build used [] new acc => { s with pc := .replace new (writes used acc) }
  | .build used (id :: rest) new acc =>
    match used id with
    | none => { s with pc := .build used rest new acc }
    | some _ => match s.ix.collectionIdx.get id with
      | .ok c => match (new.index c).1.get (new.index c).2 with
        | .ok c' =>
          if equalTo (sortAsc c) c' then { s with pc := .build used rest (new.index c).1 (acc ++ [(id, (new.index c).2)]) }
          else { s with pc := .panicked }
        | _ => { s with pc := .panicked }
      | _ => { s with pc := .panicked }
  | .replace new ((id, v) :: todo) =>
    if id.toNat < s.ix.items.items.length then
      { ix := { s.ix with items := Index.setVariants s.ix.items id v }, pc := .replace new todo }
    else { s with pc := .panicked }
  | .replace new [] => { ix := { s.ix with collectionIdx := new }, pc := .done }
  | .done => s
  | .panicked => s

end OState

/-- What happens next: `Optimize` makes an access, or another goroutine a call. For internal/index/idx.go:488-574. -/
inductive OEv where
  | opt
  | call (op : Op)

namespace OState

/-- One event. For internal/index/idx.go:488-574. -/
def step (s : OState) : OEv → OState
  | .opt => s.opt
  | .call op => { s with ix := op.exec s.ix }

/-- Several events. For internal/index/idx.go:488-574. -/
def run (s : OState) (evs : List OEv) : OState := evs.foldl step s

end OState

/-- `Node.TagSets` of a reader that takes the field `Variants` from the index as it was at one moment, and the tables from the
index as it is at a later one — internal/index/node.go:33-47 -/
def shownBetween (before after : Index) (id : ID) : Out (List (List Tag)) :=
  ({ after with items := before.items } : Index).tagSetsOf id

end Verif
