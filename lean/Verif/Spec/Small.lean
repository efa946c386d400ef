import Verif.Spec.Queries

/-! # Specification: histories that certainly stay within capacity -/

namespace Verif

/-- Number of characters the call adds at most. -/
def Op.chars : Op → Nat
  | .addRunes rs => rs.length
  | .addString w => (decodeRunes w).length
  | .addToNode _ rs => rs.length
  | _ => 0

/-- Is it a call of `TagID`? -/
def Op.isTagID : Op → Bool
  | .tagID _ _ => true
  | _ => false

/-- Is it a call of `AddTagSet`? -/
def Op.isAddTagSet : Op → Bool
  | .addTagSet _ _ => true
  | _ => false

/-- Tag names of four bytes (as in OpenCorpora), not four spaces; parents of four bytes or empty. At most 255
tags in one reading. -/
def Op.Plain : Op → Prop
  | .tagID name parent => name.length = 4 ∧ name ≠ [0x20, 0x20, 0x20, 0x20] ∧
      (parent = [] ∨ parent.length = 4)
  | .addTagSet _ names => names.length ≤ 255
  | _ => True

instance (op : Op) : Decidable op.Plain := by
  unfold Op.Plain; split <;> infer_instance

/-- A small history: fewer than 2³² − 1 characters, at most 255 calls of `TagID` and 255 of `AddTagSet`. -/
structure Small (h : List Op) : Prop where
  chars : (h.map Op.chars).sum < 4294967295
  tags : (h.filter Op.isTagID).length ≤ 255
  sets : (h.filter Op.isAddTagSet).length ≤ 255
  plain : ∀ op ∈ h, op.Plain

instance (h : List Op) : Decidable (Small h) :=
  decidable_of_iff ((h.map Op.chars).sum < 4294967295 ∧ (h.filter Op.isTagID).length ≤ 255 ∧
    (h.filter Op.isAddTagSet).length ≤ 255 ∧ ∀ op ∈ h, op.Plain)
    ⟨fun ⟨a, b, c, d⟩ => ⟨a, b, c, d⟩, fun ⟨a, b, c, d⟩ => ⟨a, b, c, d⟩⟩

end Verif
