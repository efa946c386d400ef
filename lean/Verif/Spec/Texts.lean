import Verif.Model.Go

/-! # Specification: the order in which the entries of a map are visited -/

namespace Verif

/-- `entries` lists the entries of the map `m`, each once, in some order. -/
structure Enumerates {α β : Type} (m : α → Option β) (entries : List (α × β)) : Prop where
  mem : ∀ k v, (k, v) ∈ entries ↔ m k = some v
  once : (entries.map (·.1)).Nodup

end Verif
