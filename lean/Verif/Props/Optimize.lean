import Verif.Lemmas.Parallel
import Verif.Props.Capacity

/-! # C23, C24 — `Optimize` -/

namespace Verif

/-- C23: `Optimize` succeeds and changes no answer. -/
theorem C23 {h : List Op} {ix : Index} (r : Run h ix) :
    ix.optimize.2 = .ok () ∧ SameAnswers ix ix.optimize.1 := by
  obtain ⟨h1, h2, h3, h4, _, h6, _⟩ := optimize_spec r.trie r.tag r.caps
  exact ⟨h1, same_of r.refines.1 ⟨h2, h3⟩ r.caps h4 h6⟩

/-- C23: nor does it change any answer after further calls: with or without the call of `Optimize` in the middle
of a history, the final answers are the same. -/
theorem C23_further {h h' : List Op} {ix ix' : Index} (r : Run (h ++ h') ix)
    (r' : Run (h ++ Op.optimize :: h') ix') : SameAnswers ix ix' := by
  have e1 : h ++ Op.optimize :: h' = (h ++ [Op.optimize]) ++ h' := by simp
  rw [e1] at r'
  obtain ⟨jx, s⟩ := r.before
  obtain ⟨jx', s'⟩ := r'.before
  obtain ⟨kx, t, _, _, rfl⟩ := s'.snoc_inv
  obtain rfl := s.unique t
  have hd : dictOf (h ++ [Op.optimize]) = dictOf h := by rw [dictOf_append]; rfl
  obtain ⟨_, _, _, _, _, h6, _⟩ := optimize_spec s.trie s.tag s.caps
  obtain ⟨a1, a2, a3⟩ := parallel h' s s' r r' (by rw [hd]; exact .refl _) h6 (.inl (by rw [hd]))
  have hx : dictOf ((h ++ [Op.optimize]) ++ h') = dictOf (h ++ h') := by
    unfold dictOf
    rw [List.foldl_append, List.foldl_append, List.foldl_append]
    rfl
  have q := r'.refines.1
  rw [hx] at q
  exact same_of r.refines.1 q r.caps r'.caps a2

/-- The collections stored in the index: those with an id. -/
def StoredColl (ix : Index) (v : VariantID) : Prop := v ∈ ix.collectionIdx.knownID

/-- Some word has this collection of readings. -/
def UsedBySome (ix : Index) (v : VariantID) : Prop := v ≠ 0 ∧ ∃ it ∈ ix.items.items, it.variants = v

theorem knownID_ne_zero {ix : Index} (hc : Caps ix) (v : VariantID) (h : v ∈ ix.collectionIdx.knownID) : v ≠ 0 := by
  obtain ⟨p, ⟨s, hp⟩, rfl⟩ := (mem_knownID hc.collTables).1 h
  exact packV_ne_zero (hc.coll hp).1

theorem used_stored {h : List Op} {ix : Index} (r : Run h ix) (v : VariantID) (hu : UsedBySome ix v) : StoredColl ix v := by
  obtain ⟨h0, it, hit, rfl⟩ := hu
  obtain ⟨k, hk, rfl⟩ := List.getElem_of_mem hit
  by_cases hlt : k < (dictOf h).nodes.length
  · obtain ⟨c, hc, _⟩ := r.tag.vars k _ hlt (List.getElem?_eq_getElem hk)
    rcases hc with ⟨hz, _⟩ | ⟨p, hp, he⟩
    · exact absurd hz h0
    · exact (mem_knownID r.caps.collTables).2 ⟨p, ⟨_, hp⟩, he⟩
  · exact absurd (r.tag.slack k _ (by omega) (List.getElem?_eq_getElem hk)) h0

/-- C24: after `Optimize`, a collection is stored if and only if it is used. -/
theorem C24 {h : List Op} {ix : Index} (r : Run h ix) (v : VariantID) :
    StoredColl ix.optimize.1 v ↔ UsedBySome ix.optimize.1 v := by
  obtain ⟨h1, h2, h3, h4, h5, h6, h7⟩ := optimize_spec r.trie r.tag r.caps
  have r' : Refines ix.optimize.1 (dictOf h) := ⟨h2, h3⟩
  constructor
  · intro hs
    refine ⟨knownID_ne_zero h4 v hs, h5 v hs⟩
  · rintro ⟨h0, it, hit, rfl⟩
    obtain ⟨k, hk, rfl⟩ := List.getElem_of_mem hit
    by_cases hlt : k < (dictOf h).nodes.length
    · obtain ⟨c, hc, _⟩ := h3.vars k _ hlt (List.getElem?_eq_getElem hk)
      rcases hc with ⟨hz, _⟩ | ⟨p, hp, he⟩
      · exact absurd hz h0
      · exact (mem_knownID h4.collTables).2 ⟨p, ⟨_, hp⟩, he⟩
    · exact absurd (h3.slack k _ (by omega) (List.getElem?_eq_getElem hk)) h0

/-- C24: each word keeps its collection, under a possibly different id. -/
theorem C24_kept {h : List Op} {ix : Index} (r : Run h ix) (id : ID) :
    ix.optimize.1.tagSetsOf id = ix.tagSetsOf id := (C23 r).2.tagSets id

/-- C24: a second `Optimize` changes nothing. -/
theorem C24_idempotent {h : List Op} {ix : Index} (r : Run h ix) :
    ix.optimize.1.optimize = (ix.optimize.1, .ok ()) := by
  obtain ⟨h1, h2, h3, h4, h5, h6, h7⟩ := optimize_spec r.trie r.tag r.caps
  exact optimize_idle (knownID_ne_zero h4) h5

/-- The sample history contains `Optimize`, and here it has something to do: node 2 changed from one reading to two,
so the collection with one reading was not used any more. -/
example : (execAll (sampleHistory.take 8)).collectionIdx = [[[0]], [[0, 65536]]] ∧
    (execAll (sampleHistory.take 9)).collectionIdx = [[], [[0, 65536]]] := by decide

end Verif
