import Verif.Lemmas.OptimizeCost
import Verif.Lemmas.Room
import Verif.Props.Size

/-! # Helper lemmas: when `Optimize` changes something -/

namespace Verif

/-- Tables of which one is shorter take up less space. -/
theorem space_lt {α : Type} (a b : Nat) : ∀ (c' c : List (List (List α))) (n : Nat), c'.length ≤ c.length →
    (∀ i, (c'.getD i []).length ≤ (c.getD i []).length) → (∀ i, ∀ s ∈ c'.getD i [], s.length = i + n) →
    (∀ i, ∀ s ∈ c.getD i [], s.length = i + n) → ∀ j, (c'.getD j []).length < (c.getD j []).length →
    (c'.map fun t => a + (t.map fun s => 1 + b * s.length).sum).sum <
      (c.map fun t => a + (t.map fun s => 1 + b * s.length).sum).sum := by
  have one : ∀ (t : List (List α)) (n : Nat), (∀ s ∈ t, s.length = n) →
      (t.map fun s => 1 + b * s.length).sum = t.length * (1 + b * n) := by
    intro t n h
    induction t with
    | nil => simp
    | cons s t ih =>
      rw [List.map_cons, List.sum_cons, ih fun x hx => h x (by simp [hx]), h s (by simp), List.length_cons, Nat.succ_mul]
      omega
  intro c'
  induction c' with
  | nil =>
    intro c n _ _ _ h2 j hj
    induction c generalizing j n with
    | nil => simp at hj
    | cons t c ih =>
      rw [List.map_cons, List.sum_cons]
      cases j with
      | zero =>
        have h0 : t.length ≠ 0 := by
          have : 0 < t.length := by simpa using hj
          omega
        cases t with
        | nil => simp at h0
        | cons s t => simp only [List.map_cons, List.sum_cons, List.map_nil, List.sum_nil]; omega
      | succ j =>
        have := ih (n + 1) (by simp) (by simp) (by simp)
          (fun i s hs => by have := h2 (i + 1) s (by simpa using hs); omega) j (by simpa using hj)
        simp only [List.map_nil, List.sum_nil] at this ⊢
        omega
  | cons t' c' ih =>
    intro c n hl hi h1 h2 j hj
    cases c with
    | nil => simp at hl
    | cons t c =>
      have e1 := one t' n fun s hs => by simpa using h1 0 s (by simpa using hs)
      have e2 := one t n fun s hs => by simpa using h2 0 s (by simpa using hs)
      have hl' : c'.length ≤ c.length := by simpa using hl
      have hi' : ∀ i, (c'.getD i []).length ≤ (c.getD i []).length := fun i => by simpa using hi (i + 1)
      have h1' : ∀ i, ∀ s ∈ c'.getD i [], s.length = i + (n + 1) := fun i s hs => by
        have := h1 (i + 1) s (by simpa using hs); omega
      have h2' : ∀ i, ∀ s ∈ c.getD i [], s.length = i + (n + 1) := fun i s hs => by
        have := h2 (i + 1) s (by simpa using hs); omega
      rw [List.map_cons, List.map_cons, List.sum_cons, List.sum_cons, e1, e2]
      cases j with
      | zero =>
        have := space_le a b c' c (n + 1) hl' hi' h1' h2'
        have hm := Nat.mul_le_mul_right (1 + b * n) (show t'.length < t.length by simpa using hj)
        rw [Nat.succ_mul] at hm
        omega
      | succ j =>
        have := ih c (n + 1) hl' hi' h1' h2' j (by simpa using hj)
        have hm := Nat.mul_le_mul_right (1 + b * n) (show t'.length ≤ t.length by simpa using hi 0)
        omega

/-- A collection no item uses is not stored any more. -/
theorem optimize_drops {h : List Op} {ix : Index} (r : Run h ix) {q : Nat × Nat} {c : Coll}
    (hq : gGet ix.collectionIdx q = some c) (hu : ∀ it ∈ ix.items.items, it.variants ≠ packV q) :
    c ∉ ix.optimize.1.collectionIdx.getD q.1 [] := by
  have hb := gGet_bounds r.caps.collTables r.caps.colls hq
  have hid : packV q ∈ ix.collectionIdx.knownID := (mem_knownID r.caps.collTables).2 ⟨q, ⟨c, hq⟩, rfl⟩
  have hnone : Index.usedCollections ix.items.items (packV q) = none := by
    cases hx : Index.usedCollections ix.items.items (packV q) with
    | none => rfl
    | some ids =>
      obtain ⟨_, it, hit, hv⟩ := used_isSome.1 (show (Index.usedCollections ix.items.items (packV q)).isSome = true by rw [hx]; rfl)
      exact absurd hv (hu it hit)
  have hne : (ix.collectionIdx.knownID.filter fun id => (Index.usedCollections ix.items.items id).isNone).length ≠ 0 := by
    intro h0
    have : packV q ∈ ix.collectionIdx.knownID.filter fun id => (Index.usedCollections ix.items.items id).isNone :=
      List.mem_filter.2 ⟨hid, by simp [hnone]⟩
    rw [List.length_eq_zero_iff.1 h0] at this
    cases this
  obtain ⟨acc, _, _, _, _, hinv, hfst, _⟩ := optimizeT_busy r hne
  intro hm
  obtain ⟨j, hj⟩ := List.getElem?_of_mem hm
  obtain ⟨a, ha⟩ := hinv.full (q.1, j) c hj
  obtain ⟨q', p', c', rfl, hq', e, hp'⟩ := hinv.pairs a _ ha
  have b1 := hinv.bounds r.tag.colls r.caps.collTables r.caps.colls (p := (q.1, j)) hj
  have b2 := hinv.bounds r.tag.colls r.caps.collTables r.caps.colls hp'
  obtain rfl := packV_inj b1.1 b1.2 b2.1 b2.2 e
  rw [show gGet ix.optimize.1.collectionIdx (q.1, j) = some c from hj] at hp'
  obtain rfl := Option.some.inj hp'
  obtain rfl := gGet_inj r.tag.colls hq hq'
  have : packV q ∈ acc.map (·.1) := List.mem_map.2 ⟨_, ha, rfl⟩
  rw [hfst] at this
  have := (List.mem_filter.1 this).2
  rw [hnone] at this
  cases this

/-- If a stored collection is unused, the file gets shorter. -/
theorem optimize_shorter {h : List Op} {ix : Index} (r : Run h ix) (hs : ix.save.err = none) {q : Nat × Nat} {c : Coll}
    (hq : gGet ix.collectionIdx q = some c) (hu : ∀ it ∈ ix.items.items, it.variants ≠ packV q) :
    ix.optimize.1.save.bytes.length < ix.save.bytes.length := by
  obtain ⟨_, hO, hT, _, _, he, ⟨hl, hi⟩, _⟩ := optimize_spec r.trie r.tag r.caps
  have r' := r.optimized
  have hs' : ix.optimize.1.save.err = none := (C98_optimize r hs).1
  rw [C77_size r' hs', C77_size r hs, he, hT.tags, r.tag.tags, hO.nodesCount, r.trie.nodesCount]
  have hcol : (ix.optimize.1.collectionIdx.getD q.1 []).length < (ix.collectionIdx.getD q.1 []).length := by
    have hnm := optimize_drops r hq hu
    have hsub : (c :: ix.optimize.1.collectionIdx.getD q.1 []) ⊆ ix.collectionIdx.getD q.1 [] := by
      have hne : (ix.collectionIdx.knownID.filter fun id => (Index.usedCollections ix.items.items id).isNone).length ≠ 0 := by
        intro h0
        have hsame : ix.optimize.1 = ix := by
          unfold Index.optimize
          simp only
          rw [if_pos h0]
        rw [hsame] at hnm
        exact hnm (gGet_mem hq)
      obtain ⟨acc, _, _, _, _, hinv, _⟩ := optimizeT_busy r hne
      intro x hx
      rcases List.mem_cons.1 hx with rfl | hx
      · exact gGet_mem hq
      · obtain ⟨j, hj⟩ := List.getElem?_of_mem hx
        obtain ⟨q', hq'⟩ := hinv.sub (q.1, j) x hj
        have h1 := (gGet_sorted hinv.inv (p := (q.1, j)) hj).2
        have h2 := (gGet_sorted r.tag.colls hq').2
        have : q'.1 = q.1 := by simp only at h1; omega
        rw [← this]
        exact gGet_mem hq'
    have := (List.subperm_of_subset (List.nodup_cons.2 ⟨hnm, (hT.colls q.1).1⟩) hsub).length_le
    rw [List.length_cons] at this
    exact this
  have := space_lt 4 4 ix.optimize.1.collectionIdx ix.collectionIdx 1 hl hi
    (fun i s hs => ((hT.colls i).2 s hs).1) (fun i s hs => ((r.tag.colls i).2 s hs).1) q.1 hcol
  exact Nat.add_lt_add_right (Nat.add_lt_add_left this _) _

/-! ## What is stored stays stored until `Optimize` -/

theorem exec_keeps_colls {h : List Op} {ix : Index} (r : Run h ix) (op : Op) (ha : op.Allowed ix (dictOf h))
    (ho : op ≠ .optimize) (p : Nat × Nat) (c : Coll) (hp : gGet ix.collectionIdx p = some c) :
    gGet (op.exec ix).collectionIdx p = some c := by
  have same : (op.exec ix).collectionIdx = ix.collectionIdx → gGet (op.exec ix).collectionIdx p = some c := fun e => by
    rw [e]; exact hp
  cases op with
  | addRunes rs => exact same (addLoop_colls rs 0 ix 0)
  | addString w =>
    refine same ?_
    simp only [Op.exec, Index.addString]
    split
    · rfl
    · exact addLoop_colls _ 0 ix 0
  | addToNode id rs => exact same (addLoop_colls rs id ix id)
  | fetchFromItem id rs => exact same (fetchFromItem_obs ix id rs).collectionIdx
  | fetchItemFromParent id rs => exact same (fetchItemFromParent_obs ix id rs).collectionIdx
  | fetchRunes rs => exact same (fetchFromItem_obs ix 0 rs).collectionIdx
  | fetchString w => exact same (fetchFromItem_obs ix 0 _).collectionIdx
  | tagID name parent => exact same rfl
  | addTagSet id names =>
    simp only [Op.exec]
    unfold Index.addTagSet
    split
    · exact hp
    · split
      · exact hp
      · split
        · rename_i coll hg
          simp only
          generalize hx : Coll.add coll _ = x
          have hne : x ≠ [] := by
            rw [← hx]
            exact List.ne_nil_of_mem (Coll.mem_add.2 (.inr rfl))
          have hl : x.length ≤ 65536 := by
            rw [← hx]
            have := get_length_le r.tag.colls hg
            have := r.caps.collTables
            unfold Coll.add
            split
            · omega
            · rw [length_sortAsc]; simp; omega
          rw [VariantsIndex.index_eq _ hne hl]
          exact gGet_gIndex_mono hp
        · exact hp
  | optimize => exact absurd rfl ho
  | reload =>
    refine same ?_
    rw [(reload_eq r.tag ha).2.2]
    exact (rebuildFold_other _ _).2.2.1

theorem Run.keeps_colls {h h' : List Op} {ix ix' : Index} (r : Run h ix) (r' : Run (h ++ h') ix') (ho : .optimize ∉ h')
    (p : Nat × Nat) (c : Coll) (hp : gGet ix.collectionIdx p = some c) : gGet ix'.collectionIdx p = some c := by
  induction h' using list_reverse_induction generalizing ix' with
  | nil =>
    rw [List.append_nil] at r'
    rw [r.unique r'] at hp
    exact hp
  | snoc l op ih =>
    rw [← List.append_assoc] at r'
    obtain ⟨ix1, r1, ha, _, rfl⟩ := r'.snoc_inv
    refine exec_keeps_colls r1 op ha ?_ p c (ih r1 fun hm => ho (List.mem_append_left _ hm))
    rintro rfl
    exact ho (by simp)

theorem Run.tsid_mono {h h' : List Op} {ix ix' : Index} (r : Run h ix) (r' : Run (h ++ h') ix') {names : List Str}
    {i : TagSetID} (ht : TSId (dictOf h).tags ix.tagSets names i) : TSId (dictOf (h ++ h')).tags ix'.tagSets names i := by
  obtain ⟨ids, h1, h2⟩ := ht
  refine ⟨ids, ?_, ?_⟩
  · rw [findAll_ok] at h1 ⊢
    exact h1.imp fun a b hab => r'.find_mono _ _ hab
  · rcases h2 with h2 | ⟨h0, p, hp, rfl⟩
    · exact .inl h2
    · exact .inr ⟨h0, p, r.tagSets_mono r' p _ hp, rfl⟩

/-- A word has the readings `A` exactly if its collection is that of `A`. -/
theorem Run.same_coll {h : List Op} {ix : Index} (r : Run h ix) {A : List (List Str)} {c c' : Coll} {k : Nat} {w : List Rune}
    (hA : ∀ n ∈ A, ∃ i, TSId (dictOf h).tags ix.tagSets n i)
    (hc : ∀ i, i ∈ c ↔ ∃ n ∈ A, TSId (dictOf h).tags ix.tagSets n i) (hk : (dictOf h).nodes[k]? = some w)
    (hc' : ∀ i, i ∈ c' ↔ ∃ n, (k, n) ∈ (dictOf h).readings ∧ TSId (dictOf h).tags ix.tagSets n i) :
    (∀ i, i ∈ c' ↔ i ∈ c) ↔ SameSets ((dictOf h).combination w) (A.map (dictOf h).kept) := by
  have hw : ∀ n, n ∈ (dictOf h).readingsFor w ↔ (k, n) ∈ (dictOf h).readings := by
    intro n
    rw [readingsFor_eq r.trie.nodup hk, mem_attached]
  unfold Dict.combination
  constructor
  · intro he
    constructor
    · intro a ha
      obtain ⟨n, hn, rfl⟩ := List.mem_map.1 ha
      have hn := (hw n).1 hn
      obtain ⟨_, _, i, hi⟩ := r.tag.readings k n hn
      obtain ⟨n', hn', hi'⟩ := (hc i).1 ((he i).1 ((hc' i).2 ⟨n, hn, hi⟩))
      exact ⟨_, List.mem_map.2 ⟨n', hn', rfl⟩, (r.same_id hi hi').1 rfl⟩
    · intro b hb
      obtain ⟨n, hn, rfl⟩ := List.mem_map.1 hb
      obtain ⟨i, hi⟩ := hA n hn
      obtain ⟨n', hn', hi'⟩ := (hc' i).1 ((he i).2 ((hc i).2 ⟨n, hn, hi⟩))
      exact ⟨_, List.mem_map.2 ⟨n', (hw n').2 hn', rfl⟩, (r.same_id hi' hi).1 rfl⟩
  · intro hs i
    constructor
    · intro hi
      obtain ⟨n, hn, ht⟩ := (hc' i).1 hi
      obtain ⟨b, hb, p⟩ := hs.1 _ (List.mem_map.2 ⟨n, (hw n).2 hn, rfl⟩)
      obtain ⟨n', hn', rfl⟩ := List.mem_map.1 hb
      obtain ⟨j, hj⟩ := hA n' hn'
      rw [(r.same_id ht hj).2 p]
      exact (hc j).2 ⟨n', hn', hj⟩
    · intro hi
      obtain ⟨n, hn, ht⟩ := (hc i).1 hi
      obtain ⟨a, ha, p⟩ := hs.2 _ (List.mem_map.2 ⟨n, hn, rfl⟩)
      obtain ⟨n', hn', rfl⟩ := List.mem_map.1 ha
      have hn' := (hw n').1 hn'
      obtain ⟨_, _, j, hj⟩ := r.tag.readings k n' hn'
      rw [← (r.same_id hj ht).2 p]
      exact (hc' j).2 ⟨n', hn', hj⟩

/-- Who uses a stored collection has its readings. -/
theorem Run.user {h : List Op} {ix : Index} (r : Run h ix) {p : Nat × Nat} {c : Coll}
    (hp : gGet ix.collectionIdx p = some c) {it : Item} (hit : it ∈ ix.items.items) (hv : it.variants = packV p) :
    ∃ k w, (dictOf h).nodes[k]? = some w ∧
      ∀ i, i ∈ c ↔ ∃ n, (k, n) ∈ (dictOf h).readings ∧ TSId (dictOf h).tags ix.tagSets n i := by
  obtain ⟨k, hk⟩ := List.getElem?_of_mem hit
  have hb := gGet_bounds r.caps.collTables r.caps.colls hp
  obtain ⟨_, hkn, _⟩ := item_id_of_variants r.trie r.tag hk (by rw [hv]; exact packV_ne_zero hb.1)
  obtain ⟨c', hc', hm⟩ := r.tag.vars k it hkn hk
  refine ⟨k, _, List.getElem?_eq_getElem hkn, ?_⟩
  rcases hc' with ⟨h0, _⟩ | ⟨q, hq, hq'⟩
  · exact absurd (hv.symm.trans h0) (packV_ne_zero hb.1)
  · have hb' := gGet_bounds r.caps.collTables r.caps.colls hq
    rw [hv] at hq'
    obtain rfl := packV_inj hb.1 hb.2 hb'.1 hb'.2 hq'
    rw [hp] at hq
    obtain rfl := Option.some.inj hq
    exact hm

/-! ## Where a stored collection comes from -/

theorem gGet_gIndex_or {α : Type} [DecidableEq α] [LE α] [DecidableRel (α := α) (· ≤ ·)]
    [Std.Total (α := α) (· ≤ ·)] [IsTrans α (· ≤ ·)] {c : List (List (List α))} {x s : List α} {p : Nat × Nat}
    (h : gGet (gIndex c x).1 p = some s) : gGet c p = some s ∨ p = (gIndex c x).2 := by
  unfold gGet at h
  rw [gIndex_getD] at h
  split at h
  · rename_i hi
    rw [gIndex_snd, hi]
    unfold gTable at h ⊢
    split at h
    · exact .inl h
    · by_cases hp : p.2 < (c.getD p.1 []).length
      · rw [List.getElem?_append_left hp] at h
        exact .inl h
      · right
        have := (List.getElem?_eq_some_iff.1 h).1
        simp only [List.length_append, List.length_singleton] at this
        exact Prod.ext rfl (by simp only; omega)
  · exact .inl h

theorem addTagSet_new_coll {h : List Op} {ix : Index} (r : Run h ix) (id : ID) (names : List Str) (p : Nat × Nat) (c : Coll)
    (hp : gGet (ix.addTagSet id names).1.collectionIdx p = some c) :
    gGet ix.collectionIdx p = some c ∨ ∃ it ∈ (ix.addTagSet id names).1.items.items, it.variants = packV p := by
  cases hf : Index.findAll ix.tags names with
  | error n => left; rw [Index.addTagSet, hf] at hp; exact hp
  | ok set =>
    cases hit : ix.items.get id with
    | none => left; rw [Index.addTagSet, hf, hit] at hp; exact hp
    | some it =>
      cases hg : ix.collectionIdx.get it.variants with
      | ok coll =>
        generalize hx : Coll.add coll (ix.tagSets.index set).2 = x
        have hne : x ≠ [] := by
          rw [← hx]
          exact List.ne_nil_of_mem (Coll.mem_add.2 (.inr rfl))
        have hl : x.length ≤ 65536 := by
          rw [← hx]
          have := get_length_le r.tag.colls hg
          have := r.caps.collTables
          unfold Coll.add
          split
          · omega
          · rw [length_sortAsc]; simp; omega
        have hix := VariantsIndex.index_eq ix.collectionIdx hne hl
        have e1 : (ix.addTagSet id names).1.collectionIdx = (gIndex ix.collectionIdx x).1 := by
          rw [Index.addTagSet, hf, hit]
          simp only
          rw [hg]
          simp only [hx, hix]
        have e2 : (ix.addTagSet id names).1.items = Index.setVariants ix.items id (packV (gIndex ix.collectionIdx x).2) := by
          rw [Index.addTagSet, hf, hit]
          simp only
          rw [hg]
          simp only [hx, hix]
        rw [e1] at hp
        rw [e2]
        rcases gGet_gIndex_or hp with h1 | h1
        · exact .inl h1
        · right
          have hi : ∃ y, ix.items.items[id.toNat]? = some y := by
            unfold Items.get at hit
            split at hit
            · cases hit
            · split at hit
              · cases hit
              · exact ⟨_, hit⟩
          obtain ⟨y, hy⟩ := hi
          refine ⟨{ y with variants := packV (gIndex ix.collectionIdx x).2 }, ?_, by rw [h1]⟩
          apply List.mem_of_getElem? (i := id.toNat)
          simp only [Index.setVariants, List.getElem?_modify, if_true, hy]
          rfl
      | err e => left; rw [Index.addTagSet, hf, hit] at hp; simp only at hp; rw [hg] at hp; exact hp
      | panic => left; rw [Index.addTagSet, hf, hit] at hp; simp only at hp; rw [hg] at hp; exact hp
      | diverge => left; rw [Index.addTagSet, hf, hit] at hp; simp only at hp; rw [hg] at hp; exact hp

/-- A new collection is used. -/
theorem exec_new_coll {h : List Op} {ix : Index} (r : Run h ix) (op : Op) (ha : op.Allowed ix (dictOf h))
    (ho : op ≠ .optimize) (p : Nat × Nat) (c : Coll) (hp : gGet (op.exec ix).collectionIdx p = some c) :
    gGet ix.collectionIdx p = some c ∨ ∃ it ∈ (op.exec ix).items.items, it.variants = packV p := by
  have same : (op.exec ix).collectionIdx = ix.collectionIdx → gGet ix.collectionIdx p = some c ∨ ∃ it ∈ (op.exec ix).items.items, it.variants = packV p := fun e => by
    rw [e] at hp; exact .inl hp
  cases op with
  | addRunes rs => exact same (addLoop_colls rs 0 ix 0)
  | addString w =>
    refine same ?_
    simp only [Op.exec, Index.addString]
    split
    · rfl
    · exact addLoop_colls _ 0 ix 0
  | addToNode id rs => exact same (addLoop_colls rs id ix id)
  | fetchFromItem id rs => exact same (fetchFromItem_obs ix id rs).collectionIdx
  | fetchItemFromParent id rs => exact same (fetchItemFromParent_obs ix id rs).collectionIdx
  | fetchRunes rs => exact same (fetchFromItem_obs ix 0 rs).collectionIdx
  | fetchString w => exact same (fetchFromItem_obs ix 0 _).collectionIdx
  | tagID name parent => exact same rfl
  | addTagSet id names =>
    exact addTagSet_new_coll r id names p c hp
  | optimize => exact absurd rfl ho
  | reload =>
    refine same ?_
    rw [(reload_eq r.tag ha).2.2]
    exact (rebuildFold_other _ _).2.2.1

/-- A stored collection is that of some word at some moment since the last `Optimize`. -/
theorem Run.combined {h : List Op} {ix : Index} (r : Run h ix) : ∀ p c, gGet ix.collectionIdx p = some c →
    ∃ q t, h = q ++ t ∧ Op.optimize ∉ t ∧ ∃ k, ∀ i, i ∈ c ↔ ∃ names ∈ (dictOf q).attached k,
      TSId (dictOf h).tags ix.tagSets names i := by
  induction r with
  | nil => intro p c hg; simp [Index.new, gGet] at hg
  | @step h ix op r ha hf ih =>
    intro p c hg
    have r' : Run (h ++ [op]) (op.exec ix) := Run.step op r ha hf
    have used : (∃ it ∈ (op.exec ix).items.items, it.variants = packV p) → ∃ q t, h ++ [op] = q ++ t ∧ Op.optimize ∉ t ∧
        ∃ k, ∀ i, i ∈ c ↔ ∃ names ∈ (dictOf q).attached k, TSId (dictOf (h ++ [op])).tags (op.exec ix).tagSets names i := by
      rintro ⟨it, hit, hv⟩
      obtain ⟨k, _, _, hm⟩ := r'.user hg hit hv
      refine ⟨h ++ [op], [], by simp, by simp, k, fun i => ?_⟩
      rw [hm]
      constructor
      · rintro ⟨n, h1, h2⟩; exact ⟨n, mem_attached.2 h1, h2⟩
      · rintro ⟨n, h1, h2⟩; exact ⟨n, mem_attached.1 h1, h2⟩
    by_cases ho : op = .optimize
    · subst ho
      obtain ⟨_, _, _, h4, h5, _⟩ := optimize_spec r.trie r.tag r.caps
      exact used (h5 _ ((mem_knownID h4.collTables).2 ⟨p, ⟨c, hg⟩, rfl⟩))
    · rcases exec_new_coll r op ha ho p c hg with h1 | h1
      · obtain ⟨q, t, rfl, ht, k, hm⟩ := ih p c h1
        refine ⟨q, t ++ [op], by simp, ?_, k, fun i => ?_⟩
        · intro hx
          rcases List.mem_append.1 hx with hx | hx
          · exact ht hx
          · exact ho (List.mem_singleton.1 hx).symm
        · rw [hm]
          constructor
          · rintro ⟨n, h2, h3⟩
            exact ⟨n, h2, r.tsid_mono r' h3⟩
          · rintro ⟨n, h2, h3⟩
            refine ⟨n, h2, ?_⟩
            obtain ⟨_, _, j, hj⟩ := r.tag.readings k n ((dictOf_readings_prefix q t).subset (mem_attached.1 h2))
            rwa [h3.unique r'.tag.sets (r.tsid_mono r' hj)]
      · exact used h1

end Verif
