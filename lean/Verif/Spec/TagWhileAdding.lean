import Verif.Model.TagWhileAdding

/-! # Specification: taggings that are overtaken -/

namespace Verif

/-- The call has taken its pointer and has not stored yet. -/
def GPC.Holds : GPC → Prop
  | .held _ | .found _ _ => True
  | _ => False

/-- At some moment of the schedule the storage of the nodes moves to another place while tagging goroutine `t` holds its
pointer. -/
def Overtaken (args : Nat → ID × Rune) (word : Nat → Nat) (f : Nat → VariantID → VariantID) (s : GState) (sched : List GEv)
    (t : Nat) : Prop :=
  ∃ pre e post, sched = pre ++ e :: post ∧ ((s.run args word f pre).step args word f e).n.cur ≠ (s.run args word f pre).n.cur ∧
    ((s.run args word f pre).pc t).Holds

/-- The nodes of an index as the goroutines find them. -/
def Index.nodesShared (ix : Index) : GState :=
  GState.init (fun i => ix.items.items.getD i zeroItem) ix.items.items.length ix.items.nextID.toNat

/-- The index with the nodes as the goroutines leave them. -/
def GState.index (s : GState) (ix : Index) : Index :=
  { ix with items := { items := (List.range s.n.len).map (s.n.heap s.n.cur), nextID := UInt32.ofNat s.n.next } }

/-- The collection `AddTagSet` stores with nobody else at work. -/
def Index.stores (ix : Index) (id : ID) (names : List Str) : VariantID :=
  (((ix.addTagSet id names).1.items.get id).map (·.variants)).getD 0

end Verif
