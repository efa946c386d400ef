import Verif.Model.OptimizeWhile

/-! # Specification: the calls made while `Optimize` runs -/

namespace Verif

/-- The calls of the other goroutines, in order. -/
def callsDuring (evs : List OEv) : List Op := evs.filterMap fun | .opt => none | .call op => some op

/-- A call that attaches no reading, and is not another `Optimize` or a load. -/
def Op.Untagging : Op → Prop
  | addTagSet _ _ => False
  | optimize => False
  | reload => False
  | _ => True

instance (op : Op) : Decidable op.Untagging := by cases op <;> unfold Op.Untagging <;> infer_instance

/-- The number under which the combination of readings of a node is stored: the field `Variants` of what `Item` returns. -/
def Index.numberOf (ix : Index) (id : ID) : VariantID := ((ix.items.get id).map (·.variants)).getD 0

end Verif
