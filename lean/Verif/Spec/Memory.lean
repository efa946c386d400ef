import Verif.Spec.Dictionary

/-! # Specification: what a lookup leaves behind -/

namespace Verif

/-- Since the index was last loaded, a lookup of at least one letter started at this id (`FetchFromItem` or
`FetchItemFromParent`). -/
def Asked (h : List Op) (id : ID) : Prop :=
  ∃ q op t, h = q ++ op :: t ∧ .reload ∉ t ∧
    ∃ rs, rs ≠ [] ∧ (op = .fetchFromItem id rs ∨ op = .fetchItemFromParent id rs)

end Verif
