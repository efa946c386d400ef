import Verif.Model.Receiver
import Verif.Spec.Dictionary

/-!
# `BinaryReadFrom` while other goroutines look words up

`BinaryReadFrom` (internal/index/idx.go:220-240) holds `index.mu`, but no lookup takes that lock. Here a load into a new index
proceeds byte by byte through the file and then map access by map access through `rebuildChildrenIndex`; lookups of other
goroutines come in between.

Simplifications: each lookup is whole, and no map is accessed by two goroutines at the same time (in Go that is a fatal error,
see `Model/Concurrent.lean`). What the fields hold after some bytes is what a load that ends there for want of bytes leaves
in them (`Index.fillSections`, the calls of internal/index/idx.go:224-235 with their effects).
-/

namespace Verif

/-- One access of `rebuildChildrenIndex` — internal/index/idx.go:205-216 -/
inductive RAct where
  /-- `index.GetChildrenIDMap(id)` — lines 206, 209, 210 -/
  | make (id : ID)
  /-- `index.childrenMap[item.Parent][item.Letter] = nodeID` — line 211 -/
  | put (parent : ID) (letter : Rune) (id : ID)
  /-- `index.wordsCount++` — line 213 -/
  | count
  deriving DecidableEq

/-- What the access does — internal/index/idx.go:205-216 -/
def RAct.exec (ix : Index) : RAct → Index
  | make id => (ix.getChildrenIDMap id).1
  | put p l id => { ix with childrenMap := Index.setChild ix.childrenMap p l id }
  | count => { ix with wordsCount := ix.wordsCount + 1 }

/-- The accesses of one iteration — internal/index/idx.go:207-215 -/
def RAct.ofItem (e : Item × Nat) : List RAct :=
  [.make e.1.parent, .make (UInt32.ofNat e.2), .put e.1.parent e.1.letter (UInt32.ofNat e.2)] ++
    if e.1.variants ≠ 0 then [.count] else []

/-- The accesses of `rebuildChildrenIndex` — internal/index/idx.go:205-216. `range` fixes the slice when the loop begins. -/
def Index.rebuildActs (ix : Index) : List RAct := .make 0 :: ix.items.items.zipIdx.flatMap RAct.ofItem

/-- A running `BinaryReadFrom`: the index, the bytes read, and, once the four sections are read, the accesses that remain.
For internal/index/idx.go:220-240. -/
structure LoadState where
  ix : Index
  got : Nat
  todo : Option (List RAct)

/-- `BinaryReadFrom` was called on a new index — internal/index/idx.go:220; pkg/opencorpora/loader.go:262-265 -/
def LoadState.start : LoadState := ⟨Index.new, 0, none⟩

/-- The accesses that follow the sections, once they are read — internal/index/idx.go:235-237 -/
def Filled.next (f : Filled Index) : Option (List RAct) :=
  match f.out with
  | .ok _ => some f.val.rebuildActs
  | _ => none

/-- The load goes on: it reads the next byte, or makes the next access — internal/index/idx.go:220-240 -/
def LoadState.load (file : Str) (s : LoadState) : LoadState :=
  match s.todo with
  | none =>
    let f := Index.fillSections Index.new (file.take (s.got + 1))
    { ix := { f.val with childrenMap := s.ix.childrenMap, wordsCount := s.ix.wordsCount }
      got := s.got + 1
      todo := f.next }
  | some (a :: rest) => { s with ix := a.exec s.ix, todo := some rest }
  | some [] => s

/-- What happens next: the load goes on, or another goroutine looks something up. For internal/index/idx.go:220-388. -/
inductive LoadEv where
  | load
  /-- `FetchFromItem` (and with it `FetchRunes`, `FetchString`) -/
  | fetch (id : ID) (rs : List Rune)
  /-- `FetchItemFromParent` -/
  | fetchItem (id : ID) (rs : List Rune)

/-- One event. For internal/index/idx.go:220-388. -/
def LoadState.step (file : Str) (s : LoadState) : LoadEv → LoadState
  | .load => s.load file
  | .fetch id rs => { s with ix := (s.ix.fetchFromItem id rs).1 }
  | .fetchItem id rs => { s with ix := (s.ix.fetchItemFromParent id rs).1 }

/-- Several events. For internal/index/idx.go:220-388. -/
def LoadState.run (file : Str) (s : LoadState) (evs : List LoadEv) : LoadState := evs.foldl (LoadState.step file) s

/-- `BinaryReadFrom` has returned — internal/index/idx.go:239 -/
def LoadState.returned (s : LoadState) : Prop := s.todo = some []

end Verif
