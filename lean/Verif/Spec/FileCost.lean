import Verif.Model.Index

/-!
# Specification: what is in an index file, counted
-/

namespace Verif

/-- The entries of an index: its tags, its readings and their tables, its combinations of readings and their tables, and its
nodes with the root; each reading counts with its tags, each combination with its readings. -/
def Index.entries (ix : Index) : Nat :=
  ix.tags.length +
  ((ix.tagSets.map fun t => (t.map fun s => s.length + 1).sum + 1).sum +
  ((ix.collectionIdx.map fun t => (t.map fun c => c.length + 1).sum + 1).sum +
  ix.items.nextID.toNat))

end Verif
