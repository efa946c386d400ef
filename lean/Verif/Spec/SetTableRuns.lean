import Verif.Model.Storage
import Verif.Spec.Interning

/-! # Histories of the set tables of `pkg/storage` -/

namespace Verif

/-- A `Table8` after a sequence of successful `Index` calls on an empty table, with the call log. -/
inductive Table8.Run : List (List UInt8) → List (List UInt8 × UInt8) → Prop
  | nil : Table8.Run [] []
  | index {t t' h s id} : Table8.Run t h → Table8.index t s = .ok (t', id) →
      Table8.Run t' (h ++ [(s, id)])

/-- The same for `Table16`. -/
inductive Table16.Run : List (List UInt16) → List (List UInt16 × UInt16) → Prop
  | nil : Table16.Run [] []
  | index {t t' h s id} : Table16.Run t h → Table16.index t s = .ok (t', id) →
      Table16.Run t' (h ++ [(s, id)])

/-- The same for `Collection8x8`. -/
inductive Collection8.Run : List (List (List UInt8)) → List (List UInt8 × UInt16) → Prop
  | nil : Collection8.Run [] []
  | index {c c' h s id} : Collection8.Run c h → Collection8.index c s = .ok (c', id) →
      Collection8.Run c' (h ++ [(s, id)])

/-- The same for `Collection16`. -/
inductive Collection16.Run : List (List (List UInt16)) → List (List UInt16 × UInt32) → Prop
  | nil : Collection16.Run [] []
  | index {c c' h s id} : Collection16.Run c h → Collection16.index c s = .ok (c', id) →
      Collection16.Run c' (h ++ [(s, id)])

end Verif
