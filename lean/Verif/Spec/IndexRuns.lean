import Verif.Model.TagSets
import Verif.Spec.Interning

/-! # Histories of the tag set index and of the variants index -/

namespace Verif

/-- A `TagSetIndex` after a sequence of `Index` calls with non-empty sets, with the call log. -/
inductive TagSetIndex.Run : TagSetIndex → List (TagSet × TagSetID) → Prop
  | nil : TagSetIndex.Run [] []
  | index {c c' h s id} : TagSetIndex.Run c h → s ≠ [] → TagSetIndex.index c s = (c', id) →
      TagSetIndex.Run c' (h ++ [(s, id)])

/-- A `VariantsIndex` after a sequence of `Index` calls with non-empty collections. -/
inductive VariantsIndex.Run : VariantsIndex → List (Coll × VariantID) → Prop
  | nil : VariantsIndex.Run [] []
  | index {c c' h s id} : VariantsIndex.Run c h → s ≠ [] → VariantsIndex.index c s = (c', id) →
      VariantsIndex.Run c' (h ++ [(s, id)])

end Verif
