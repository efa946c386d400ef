import Verif.Model.HeapIndex

/-!
# Sorting through `sort.Interface`

`sort.Sort` sees the data only through `Len`, `Less` and `Swap`. An algorithm of that kind is a tree: it asks `Less`
about two positions and goes on according to the answer, or swaps two positions, or stops. Nothing else is assumed about
the algorithm; which one Go uses depends on its version.
-/

namespace Verif

/-- A sorting algorithm after it has been told the length. For internal/index/tagset_def.go:90,
internal/index/variant_idx.go:78, internal/index/variant_table.go:72, internal/index/variant_def.go:122,
internal/index/idx.go:517, internal/index/relation.go:38, pkg/storage/set8.go:36, pkg/storage/set16.go:36. -/
inductive SortProg where
  | done
  | less (i j : Nat) (k : Bool → SortProg)
  | swap (i j : Nat) (k : SortProg)

/-- `Less` of `Set8` (pkg/storage/set8.go:25-27), `Set16` (pkg/storage/set16.go:25-27), `TagSet`
(internal/index/tagset_def.go:79-81), `TagSetIDCollection` (internal/index/variant_def.go:73-75) and `CollectionIDList`
(internal/index/variant_idx.go:140-142), with `key` the identity; of `ChildList` (internal/index/relation.go:24-26) with
`key` the field `Parent`. Outside the range it is a panic. -/
def goLess {α β : Type} [LT β] [DecidableLT β] (key : α → β) (l : List α) (i j : Nat) : Out Bool :=
  match l[i]?, l[j]? with
  | some a, some b => .ok (decide (key a < key b))
  | _, _ => .panic

/-- `Swap` of the same types: both elements are read before they are stored — pkg/storage/set8.go:31-33,
pkg/storage/set16.go:31-33, internal/index/tagset_def.go:85-87, internal/index/variant_def.go:78-80,
internal/index/variant_idx.go:144-146, internal/index/relation.go:29-31 -/
def goSwap {α : Type} (l : List α) (i j : Nat) : Out (List α) :=
  match l[i]?, l[j]? with
  | some a, some b => .ok ((l.set i b).set j a)
  | _, _ => .panic

/-- A run of an algorithm over a list. As at internal/index/tagset_def.go:90. -/
def SortProg.run {α β : Type} [LT β] [DecidableLT β] (key : α → β) : SortProg → List α → Out (List α)
  | .done, l => .ok l
  | .less i j k, l => (goLess key l i j).bind fun b => (k b).run key l
  | .swap i j k, l => (goSwap l i j).bind fun l => k.run key l

/-- `Less` of a slice as a reference. As at internal/index/tagset_def.go:79-81. -/
def hLess {α : Type} [LT α] [DecidableLT α] (h : Heap α) (s : Slice) (i j : Nat) : Out Bool :=
  if i < s.len ∧ j < s.len then
    match (h.getD s.arr [])[i]?, (h.getD s.arr [])[j]? with
    | some a, some b => .ok (decide (a < b))
    | _, _ => .panic
  else .panic

/-- `Swap` of a slice as a reference: two stores into the array. As at internal/index/tagset_def.go:85-87. -/
def hSwap {α : Type} (h : Heap α) (s : Slice) (i j : Nat) : Out (Heap α) :=
  if i < s.len ∧ j < s.len then
    match (h.getD s.arr [])[i]?, (h.getD s.arr [])[j]? with
    | some a, some b => .ok (h.set s.arr (((h.getD s.arr []).set i b).set j a))
    | _, _ => .panic
  else .panic

/-- A run of an algorithm over a slice in memory. As at internal/index/tagset_def.go:90. -/
def SortProg.runIn {α : Type} [LT α] [DecidableLT α] (s : Slice) : SortProg → Heap α → Out (Heap α)
  | .done, h => .ok h
  | .less i j k, h => (hLess h s i j).bind fun b => (k b).runIn s h
  | .swap i j k, h => (hSwap h s i j).bind fun h => k.runIn s h

/-! ## Insertion sort

The algorithm `sort.Sort` itself uses for short data (`insertionSort` of package `sort`):
`for i := a + 1; i < b; i++ { for j := i; j > a && data.Less(j, j-1); j-- { data.Swap(j, j-1) } }`. -/

/-- The inner loop. For internal/index/tagset_def.go:90. -/
def insertDown (next : SortProg) : Nat → SortProg
  | 0 => next
  | j + 1 => .less (j + 1) j fun b => if b then .swap (j + 1) j (insertDown next j) else next

/-- The outer loop, from position `i`, `n` rounds. For internal/index/tagset_def.go:90. -/
def insertRounds (i : Nat) : Nat → SortProg
  | 0 => .done
  | n + 1 => insertDown (insertRounds (i + 1) n) i

/-- `insertionSort(data, 0, n)`. For internal/index/tagset_def.go:90. -/
def insertionProg (n : Nat) : SortProg := insertRounds 1 (n - 1)

/-! ## Lists of children -/

/-- `Child` — internal/index/relation.go:10-13 -/
structure Child where
  parent : ID
  id : ID
  deriving DecidableEq, Repr

end Verif
