import Verif.Lemmas.Stray
import Verif.Lemmas.LoadSafe
import Verif.Lemmas.Answers
import Mathlib.Data.List.Perm.Subperm

/-! # Helper lemmas: which maps of children are held -/

namespace Verif

theorem fetch_grows (rs : List Rune) : ∀ (ix : Index) (p k : ID), (ix.childrenMap k).isSome = true →
    ((ix.fetchFromItem p rs).1.childrenMap k).isSome = true ∧
    ((ix.fetchItemFromParent p rs).1.childrenMap k).isSome = true := by
  induction rs with
  | nil => exact fun _ _ _ h => ⟨h, h⟩
  | cons r rest ih =>
    intro ix p k h
    have h1 := childrenMap_grows ix p k h
    unfold Index.fetchFromItem Index.fetchItemFromParent
    generalize ix.getChildrenIDMap p = x at h1 ⊢
    obtain ⟨ix1, cm⟩ := x
    simp only at h1 ⊢
    cases cm r with
    | none => exact ⟨h1, h1⟩
    | some c =>
      simp only
      split
      · exact ⟨h1, h1⟩
      · exact ih ix1 c k h1

theorem fetch_leaves (ix : Index) (p : ID) {rs : List Rune} (hrs : rs ≠ []) :
    ((ix.fetchFromItem p rs).1.childrenMap p).isSome = true ∧
    ((ix.fetchItemFromParent p rs).1.childrenMap p).isSome = true := by
  cases rs with
  | nil => exact absurd rfl hrs
  | cons r rest =>
    have h1 : ((ix.getChildrenIDMap p).1.childrenMap p).isSome = true := by
      obtain ⟨im, e⟩ := ensureChildren_isSome ix.childrenMap p
      simp only [Index.getChildrenIDMap, e, Option.isSome_some]
    unfold Index.fetchFromItem Index.fetchItemFromParent
    generalize ix.getChildrenIDMap p = x at h1 ⊢
    obtain ⟨ix1, cm⟩ := x
    simp only at h1 ⊢
    cases cm r with
    | none => exact ⟨h1, h1⟩
    | some c =>
      simp only
      split
      · exact ⟨h1, h1⟩
      · exact fetch_grows rest ix1 c p h1

theorem addTagSet_childrenMap (ix : Index) (id : ID) (names : List Str) :
    (ix.addTagSet id names).1.childrenMap = ix.childrenMap := by
  unfold Index.addTagSet
  cases Index.findAll ix.tags names with
  | error n => rfl
  | ok ts =>
    simp only
    cases ix.items.get id with
    | none => rfl
    | some it =>
      simp only
      cases ix.collectionIdx.get it.variants <;> rfl

theorem optimize_childrenMap (ix : Index) : ix.optimize.1.childrenMap = ix.childrenMap := by
  unfold Index.optimize
  simp only
  split
  · rfl
  · split
    · split <;> rfl
    · rfl

theorem exec_grows (ix : Index) (op : Op) (ho : op ≠ .reload) (k : ID) (h : (ix.childrenMap k).isSome = true) :
    ((op.exec ix).childrenMap k).isSome = true := by
  have add : ∀ (o p : ID) (rs : List Rune), ((ix.addLoop o p rs).1.childrenMap k).isSome = true := by
    intro o p rs
    rw [(addLoop_orig o 0 ix p rs).1]
    exact addLoop_grows rs ix p k h
  cases op with
  | addRunes rs => exact add 0 0 rs
  | addString w =>
    simp only [Op.exec, Index.addString]
    split
    · exact h
    · exact add 0 0 _
  | addToNode id rs => exact add id id rs
  | fetchFromItem id rs => exact (fetch_grows rs ix id k h).1
  | fetchItemFromParent id rs => exact (fetch_grows rs ix id k h).2
  | fetchRunes rs => exact (fetch_grows rs ix 0 k h).1
  | fetchString w => exact (fetch_grows _ ix 0 k h).1
  | tagID name parent => exact h
  | addTagSet id names =>
    simp only [Op.exec, addTagSet_childrenMap]
    exact h
  | optimize =>
    simp only [Op.exec, optimize_childrenMap]
    exact h
  | reload => exact absurd rfl ho

theorem Asked.snoc_inv {h : List Op} {op : Op} {id : ID} (a : Asked (h ++ [op]) id) :
    (op ≠ .reload ∧ Asked h id) ∨
      ∃ rs, rs ≠ [] ∧ (op = .fetchFromItem id rs ∨ op = .fetchItemFromParent id rs) := by
  obtain ⟨q, op', t, e, ht, hr⟩ := a
  rcases List.eq_nil_or_concat t with rfl | ⟨t, x, rfl⟩
  · obtain ⟨_, e⟩ := List.append_inj' e rfl
    rw [List.cons.inj e |>.1]
    exact .inr hr
  · left
    have e' : h ++ [op] = (q ++ op' :: t) ++ [x] := by rw [e]; simp
    obtain ⟨rfl, e2⟩ := List.append_inj' e' rfl
    rw [List.cons.inj e2 |>.1]
    simp only [List.concat_eq_append, List.mem_append, List.mem_singleton, not_or] at ht
    exact ⟨fun h => ht.2 h.symm, q, op', t, rfl, ht.1, hr⟩

theorem Run.asked_map {h : List Op} {ix : Index} (r : Run h ix) {id : ID} (a : Asked h id) :
    (ix.childrenMap id).isSome = true := by
  induction r with
  | nil =>
    obtain ⟨q, op, t, e, _⟩ := a
    cases q <;> cases e
  | @step h ix op r ha hf ih =>
    rcases a.snoc_inv with ⟨ho, a'⟩ | ⟨rs, hrs, rfl | rfl⟩
    · exact exec_grows ix op ho id (ih a')
    · exact (fetch_leaves ix id hrs).1
    · exact (fetch_leaves ix id hrs).2

theorem Run.loaded_map {h : List Op} {ix : Index} (r : Run (h ++ [.reload]) ix) (id : ID) :
    (ix.childrenMap id).isSome = true ↔ id.toNat < (dictOf h).nodes.length := by
  have hd : (dictOf (h ++ [.reload])).nodes = (dictOf h).nodes := by rw [dictOf_append]; rfl
  constructor
  · intro hk
    have := r.mapsIn id hk
    rw [hd] at this
    refine this.resolve_right fun a => ?_
    rcases a.snoc_inv with ⟨ho, _⟩ | ⟨rs, _, e | e⟩
    · exact ho rfl
    · cases e
    · cases e
  · intro hlt
    obtain ⟨ix0, r0, ha, _, rfl⟩ := r.snoc_inv
    rw [(reload_eq r0.tag ha).2.2]
    refine rebuildFold_isSome _ _ id (.inr ?_)
    have hlen : ix0.items.trim.items.length = (dictOf h).nodes.length := by
      simp only [Items.trim, List.length_take, r0.trie.next]
      have := r0.trie.cap
      omega
    have hl : id.toNat < ix0.items.trim.items.length := by omega
    refine ⟨(ix0.items.trim.items[id.toNat], id.toNat), ?_, by simp⟩
    exact List.mem_zipIdx_iff_getElem?.2 (List.getElem?_eq_getElem hl)

/-- A map for every asked id. -/
theorem count_maps {h : List Op} {ix : Index} (r : Run h ix) {U : List ID}
    (hU : ∀ id, Asked h id → (dictOf h).nodes.length ≤ id.toNat → id ∈ U) {L : List ID} (hL : L.Nodup)
    (hm : ∀ id ∈ L, (ix.childrenMap id).isSome = true) : L.length ≤ (dictOf h).nodes.length + U.length := by
  have hsub : L.map UInt32.toNat ⊆ List.range (dictOf h).nodes.length ++ U.map UInt32.toNat := by
    intro k hk
    obtain ⟨id, hid, rfl⟩ := List.mem_map.1 hk
    rw [List.mem_append, List.mem_range]
    by_cases hlt : id.toNat < (dictOf h).nodes.length
    · exact .inl hlt
    · right
      exact List.mem_map_of_mem (hU id ((r.mapsIn id (hm id hid)).resolve_left hlt) (by omega))
  have hnd : (L.map UInt32.toNat).Nodup := hL.map fun a b h => UInt32.toNat_inj.1 h
  have := (List.subperm_of_subset hnd hsub).length_le
  simpa using this

theorem TrieOK.count_entries {ix : Index} {d : Dict} (t : TrieOK ix d) {E : List (ID × Rune)} (hE : E.Nodup)
    (he : ∀ e ∈ E, (ix.getChildrenMap e.1 e.2).isSome = true) : E.length ≤ d.nodes.length := by
  let f : ID × Rune → Nat := fun e => ((ix.getChildrenMap e.1 e.2).getD 0).toNat
  have hv : ∀ e ∈ E, ∃ c, ix.getChildrenMap e.1 e.2 = some c ∧ f e = c.toNat := by
    intro e hm
    obtain ⟨c, hc⟩ := Option.isSome_iff_exists.1 (he e hm)
    exact ⟨c, hc, by simp only [f, hc, Option.getD_some]⟩
  have hsub : E.map f ⊆ List.range d.nodes.length := by
    intro k hk
    obtain ⟨e, hm, rfl⟩ := List.mem_map.1 hk
    obtain ⟨c, hc, hf⟩ := hv e hm
    rw [List.mem_range, hf]
    rcases (t.child _ _ _).1 hc with ⟨w, _, hcn⟩ | ⟨_, _, _, e0⟩
    · exact (List.getElem?_eq_some_iff.1 hcn).1
    · rw [e0]; exact t.length_pos
  have hnd : (E.map f).Nodup := by
    refine List.Nodup.map_on ?_ hE
    intro e he1 e' he2 hff
    obtain ⟨c, hc, hf⟩ := hv e he1
    obtain ⟨c', hc', hf'⟩ := hv e' he2
    rw [hf, hf'] at hff
    obtain rfl : c = c' := UInt32.toNat_inj.1 hff
    rcases (t.child _ _ _).1 hc with ⟨w, hw, hcn⟩ | ⟨_, p0, l0, e0⟩
    · rcases (t.child _ _ _).1 hc' with ⟨w', hw', hcn'⟩ | ⟨_, p0, l0, e0⟩
      · rw [hcn] at hcn'
        obtain ⟨rfl, hl⟩ := List.append_inj' (Option.some.inj hcn') rfl
        have hp : e.1.toNat = e'.1.toNat := by
          obtain ⟨h1, h2⟩ := List.getElem?_eq_some_iff.1 hw
          obtain ⟨h1', h2'⟩ := List.getElem?_eq_some_iff.1 hw'
          exact (List.Nodup.getElem_inj_iff t.nodup).1 (h2.trans h2'.symm)
        exact Prod.ext (UInt32.toNat_inj.1 hp) (by simpa using hl)
      · rw [e0] at hcn
        rw [show (0 : ID).toNat = 0 from rfl, t.root] at hcn
        simp at hcn
    · rcases (t.child _ _ _).1 hc' with ⟨w', hw', hcn'⟩ | ⟨_, p0', l0', _⟩
      · rw [e0] at hcn'
        rw [show (0 : ID).toNat = 0 from rfl, t.root] at hcn'
        simp at hcn'
      · exact Prod.ext (p0.trans p0'.symm) (l0.trans l0'.symm)
  have := (List.subperm_of_subset hnd hsub).length_le
  simpa using this

/-- A lookup can always be made. -/
theorem Run.look {h : List Op} {ix : Index} (r : Run h ix) (id : ID) (rs : List Rune) :
    Run (h ++ [.fetchFromItem id rs]) (ix.fetchFromItem id rs).1 := by
  refine Run.step (.fetchFromItem id rs) r trivial ?_
  have o := fetchFromItem_obs ix id rs
  have f := r.refines.2
  rw [dictOf_append]
  simp only [Op.exec, Op.spec]
  exact ⟨f.nodes, f.tags, o.tagSets ▸ f.setTables, o.tagSets ▸ f.sets, o.collectionIdx ▸ f.collTables,
    o.collectionIdx ▸ f.colls⟩

theorem Run.look_all {h : List Op} {ix : Index} (r : Run h ix) (rs : List Rune) (ids : List ID) :
    ∃ ix', Run (h ++ ids.map fun id => .fetchFromItem id rs) ix' ∧
      dictOf (h ++ ids.map fun id => .fetchFromItem id rs) = dictOf h := by
  induction ids generalizing h ix with
  | nil => exact ⟨ix, by simpa using r, by simp⟩
  | cons id ids ih =>
    obtain ⟨ix', r', e⟩ := ih (r.look id rs)
    refine ⟨ix', by simpa using r', ?_⟩
    rw [List.map_cons, List.append_cons, e, dictOf_append]
    rfl

end Verif
