import Verif.Spec.OptimizeWhile
import Verif.Lemmas.OptimizeCost
import Verif.Lemmas.OptimizeLog

/-! # Helper lemmas: `Optimize` while other goroutines use the index -/

namespace Verif

open Index

/-! ## The same index with other numbers of combinations -/

/-- The number of slot `k` changed by `g k`. -/
def Items.paint (g : Nat → VariantID → VariantID) (its : Items) : Items :=
  { its with items := its.items.mapIdx fun k it => { it with variants := g k it.variants } }

def Index.paint (g : Nat → VariantID → VariantID) (c : VariantsIndex) (ix : Index) : Index :=
  { ix with collectionIdx := c, items := ix.items.paint g }

variable {g : Nat → VariantID → VariantID}

theorem paint_get (its : Items) (id : ID) :
    (its.paint g).get id = (its.get id).map fun it => { it with variants := g id.toNat it.variants } := by
  unfold Items.get Items.paint
  simp only [List.getElem?_mapIdx]
  split
  · rfl
  · split <;> rfl

theorem paint_wordFuel (n : Nat) (its : Items) (id : ID) : wordFuel n (its.paint g) id = wordFuel n its id := by
  induction n generalizing id with
  | zero => rfl
  | succ n ih =>
    unfold wordFuel
    rw [paint_get]
    split
    · rfl
    · cases its.get id with
      | none => rfl
      | some it => simp only [Option.map_some, ih]

theorem paint_word (c : VariantsIndex) (ix : Index) (id : ID) : (ix.paint g c).word id = ix.word id :=
  paint_wordFuel _ _ _

theorem paint_extend (h0 : ∀ k, g k 0 = 0) (its : Items) (n : Nat) :
    (its.extend n).paint g = (its.paint g).extend n := by
  unfold Items.extend Items.paint
  simp only [Items.mk.injEq, and_true]
  apply List.ext_getElem?
  intro k
  simp only [List.getElem?_mapIdx, List.getElem?_append, List.getElem?_replicate, List.length_mapIdx]
  by_cases hk : k < its.items.length
  · simp only [if_pos hk]
  · simp only [if_neg hk]
    split
    · simp [zeroItem, h0]
    · rfl

theorem paint_newChild (h0 : ∀ k, g k 0 = 0) (its : Items) (p : ID) (r : Rune) :
    (its.paint g).newChild p r = (its.newChild p r).map fun x => (x.1.paint g, x.2) := by
  have hset : ∀ (its1 : Items) (it : Item), it.variants = 0 →
      (⟨(its1.paint g).items.set its.nextID.toNat it, its.nextID + 1⟩ : Items) =
      (⟨its1.items.set its.nextID.toNat it, its.nextID + 1⟩ : Items).paint g := by
    intro its1 it hv
    unfold Items.paint
    simp only [Items.mk.injEq, and_true]
    apply List.ext_getElem?
    intro k
    simp only [List.getElem?_set, List.getElem?_mapIdx, List.length_mapIdx]
    split
    · rename_i hk
      subst hk
      split
      · simp [hv, h0]; rw [← hv]
      · rfl
    · rfl
  have hl : ∀ x : Items, (x.paint g).items.length = x.items.length := fun x => by simp [Items.paint]
  have hn : ∀ x : Items, (x.paint g).nextID = x.nextID := fun _ => rfl
  unfold Items.newChild
  simp only [hl, hn, ← paint_extend h0]
  split
  · rw [hl]
    split
    · simp only [Option.map_some]
      rw [hset _ _ rfl]
    · rfl
  · rw [hl]
    split
    · simp only [Option.map_some]
      rw [hset _ _ rfl]
    · rfl

theorem paint_fetchFromItem (c : VariantsIndex) (ix : Index) (p : ID) (rs : List Rune) :
    (ix.paint g c).fetchFromItem p rs = ((ix.fetchFromItem p rs).1.paint g c, (ix.fetchFromItem p rs).2) := by
  induction rs generalizing ix p with
  | nil => rfl
  | cons r rest ih =>
    unfold fetchFromItem
    have e : (ix.paint g c).getChildrenIDMap p = ((ix.getChildrenIDMap p).1.paint g c, (ix.getChildrenIDMap p).2) := rfl
    rw [e]
    simp only
    cases (ix.getChildrenIDMap p).2 r with
    | none => simp only [paint_word]
    | some next =>
      simp only
      split
      · rfl
      · exact ih _ _

theorem paint_fetchItemFromParent (c : VariantsIndex) (ix : Index) (p : ID) (rs : List Rune) :
    (ix.paint g c).fetchItemFromParent p rs =
      ((ix.fetchItemFromParent p rs).1.paint g c, (ix.fetchItemFromParent p rs).2) := by
  induction rs generalizing ix p with
  | nil => rfl
  | cons r rest ih =>
    unfold fetchItemFromParent
    have e : (ix.paint g c).getChildrenIDMap p = ((ix.getChildrenIDMap p).1.paint g c, (ix.getChildrenIDMap p).2) := rfl
    rw [e]
    simp only
    cases (ix.getChildrenIDMap p).2 r with
    | none => simp only [paint_word]
    | some next =>
      simp only
      split
      · rfl
      · exact ih _ _

theorem paint_addStep (h0 : ∀ k, g k 0 = 0) (c : VariantsIndex) (ix : Index) (p : ID) (r : Rune) :
    (ix.paint g c).addStep p r = (ix.addStep p r).map fun x => (x.1.paint g c, x.2) := by
  unfold addStep
  have e : (ix.paint g c).getChildrenIDMap p = ((ix.getChildrenIDMap p).1.paint g c, (ix.getChildrenIDMap p).2) := rfl
  rw [e]
  simp only
  cases (ix.getChildrenIDMap p).2 r with
  | some next => rfl
  | none =>
    simp only
    have e2 : ((ix.getChildrenIDMap p).1.paint g c).items = (ix.getChildrenIDMap p).1.items.paint g := rfl
    rw [e2, paint_newChild h0]
    cases (ix.getChildrenIDMap p).1.items.newChild p r with
    | none => rfl
    | some x => rfl

theorem paint_addLoop (h0 : ∀ k, g k 0 = 0) (c : VariantsIndex) (orig : ID) (ix : Index) (p : ID) (rs : List Rune) :
    (ix.paint g c).addLoop orig p rs = ((ix.addLoop orig p rs).1.paint g c, (ix.addLoop orig p rs).2) := by
  induction rs generalizing ix p with
  | nil => rfl
  | cons r rest ih =>
    unfold addLoop
    have e2 : (ix.paint g c).items = ix.items.paint g := rfl
    rw [e2, paint_get, Option.isNone_map, paint_addStep h0]
    split
    · rfl
    · cases ix.addStep p r with
      | none => rfl
      | some x =>
        simp only [Option.map_some]
        split
        · rfl
        · exact ih _ _

/-- A call that attaches no reading does the same, whatever the numbers. -/
theorem exec_paint (h0 : ∀ k, g k 0 = 0) (c : VariantsIndex) (ix : Index) (op : Op) (hq : op.Untagging) :
    op.exec (ix.paint g c) = (op.exec ix).paint g c := by
  have hadd : ∀ p rs, ((ix.paint g c).addToNode p rs).1 = ((ix.addToNode p rs).1).paint g c := by
    intro p rs
    unfold addToNode
    rw [paint_addLoop h0]
  cases op with
  | addRunes rs => exact hadd 0 rs
  | addString w =>
    simp only [Op.exec, addString, addRunes]
    split
    · rfl
    · exact hadd 0 _
  | addToNode id rs => exact hadd id rs
  | fetchFromItem id rs => simp only [Op.exec, paint_fetchFromItem]
  | fetchItemFromParent id rs => simp only [Op.exec, paint_fetchItemFromParent]
  | fetchRunes rs => simp only [Op.exec, fetchRunes, paint_fetchFromItem]
  | fetchString w => simp only [Op.exec, fetchString, fetchRunes, paint_fetchFromItem]
  | tagID name parent => rfl
  | addTagSet id names => exact hq.elim
  | optimize => exact hq.elim
  | reload => exact hq.elim

/-! ## What such a call leaves alone -/

/-- The first `n` nodes and the tables are as before; further slots carry no reading. -/
structure Kept (ix ix' : Index) (n : Nat) : Prop where
  tagSets : ix'.tagSets = ix.tagSets
  collectionIdx : ix'.collectionIdx = ix.collectionIdx
  items : ∀ k, k < n → ix'.items.items[k]? = ix.items.items[k]?
  slack : Slack ix n → Slack ix' n
  length : ix.items.items.length ≤ ix'.items.items.length

theorem newChild_length {its its' : Items} {p : ID} {r : Rune} {it : Item} (h : its.newChild p r = some (its', it)) :
    its.items.length ≤ its'.items.length := by
  unfold Items.newChild at h
  simp only at h
  split at h <;> split at h
  · obtain ⟨rfl, _⟩ := Prod.mk.inj (Option.some.inj h)
    simp [Items.extend]
  · cases h
  · obtain ⟨rfl, _⟩ := Prod.mk.inj (Option.some.inj h)
    simp
  · cases h

theorem addLoop_length (orig : ID) (ix : Index) (p : ID) (rs : List Rune) :
    ix.items.items.length ≤ (ix.addLoop orig p rs).1.items.items.length := by
  induction rs generalizing ix p with
  | nil => exact Nat.le_refl _
  | cons r rest ih =>
    unfold addLoop
    split
    · exact Nat.le_refl _
    · have hs : ∀ x, ix.addStep p r = some x → ix.items.items.length ≤ x.1.items.items.length := by
        intro x hx
        unfold addStep at hx
        have e : (ix.getChildrenIDMap p).1.items = ix.items := rfl
        generalize ix.getChildrenIDMap p = y at hx e
        obtain ⟨ix1, cm⟩ := y
        simp only at hx e
        split at hx
        · obtain rfl := Option.some.inj hx
          rw [e]
        · split at hx
          · cases hx
          · rename_i its it hn
            obtain rfl := Option.some.inj hx
            rw [← e]
            exact newChild_length hn
      cases hx : ix.addStep p r with
      | none => exact Nat.le_refl _
      | some x =>
        simp only
        split
        · exact hs x hx
        · exact Nat.le_trans (hs x hx) (ih _ _)

theorem Kept.of_grow {ix ix' : Index} {n : Nat} (h : Grow ix ix' n) (hl : ix.items.items.length ≤ ix'.items.items.length) :
    Kept ix ix' n := ⟨h.tagSets, h.collectionIdx, h.items, h.slack, hl⟩

theorem Kept.of_obs {ix ix' : Index} (h : Index.Obs ix ix') (n : Nat) : Kept ix ix' n :=
  .of_grow (.of_obs h n) (by rw [h.items])

theorem kept_addToNode {ix : Index} {d : Dict} (h : TrieOK ix d) (id : ID) (rs : List Rune)
    (hf : (d.insert id.toNat rs).nodes.length < 4294967296) : Kept ix (ix.addToNode id rs).1 d.nodes.length := by
  unfold Dict.insert at hf
  cases hw : d.nodes[id.toNat]? with
  | none =>
    rw [(h.addToNode_err id rs (.inl hw)).1]
    exact .of_obs (.refl _) _
  | some w =>
    rw [hw] at hf
    simp only at hf
    by_cases hrs : rs = []
    · rw [(h.addToNode_err id rs (.inr hrs)).1]
      exact .of_obs (.refl _) _
    · rw [if_neg hrs] at hf
      obtain ⟨c, _, _, _, h4, _⟩ := h.addLoop_spec id id w rs hw hrs hf
      exact .of_grow h4 (addLoop_length _ _ _ _)

theorem kept_exec {h : List Op} {ix : Index} (r : Run h ix) (op : Op) (hq : op.Untagging)
    (hf : (dictOf (h ++ [op])).nodes.length < 4294967296) : Kept ix (op.exec ix) (dictOf h).nodes.length := by
  rw [dictOf_append] at hf
  cases op with
  | addRunes rs => exact kept_addToNode r.trie 0 rs hf
  | addString w =>
    simp only [Op.exec, addString, addRunes]
    split
    · exact .of_obs (.refl _) _
    · exact kept_addToNode r.trie 0 _ hf
  | addToNode id rs => exact kept_addToNode r.trie id rs hf
  | fetchFromItem id rs => exact .of_obs (fetchFromItem_obs ix id rs) _
  | fetchItemFromParent id rs => exact .of_obs (fetchItemFromParent_obs ix id rs) _
  | fetchRunes rs => exact .of_obs (fetchFromItem_obs ix 0 rs) _
  | fetchString w => exact .of_obs (fetchFromItem_obs ix 0 _) _
  | tagID name parent => exact ⟨rfl, rfl, fun _ _ => rfl, id, Nat.le_refl _⟩
  | addTagSet id names => exact hq.elim
  | optimize => exact hq.elim
  | reload => exact hq.elim

/-! ## The assignments -/

/-- Some of the assignments of the fourth loop. -/
def applyW (ws : List (ID × VariantID)) (items : List Item) : List Item :=
  ws.foldl (fun l w => l.modify w.1.toNat fun it => { it with variants := w.2 }) items

theorem applyW_length (ws : List (ID × VariantID)) (items : List Item) : (applyW ws items).length = items.length := by
  unfold applyW
  induction ws generalizing items with
  | nil => rfl
  | cons w ws ih => rw [List.foldl_cons, ih, List.length_modify]

theorem applyW_append (ws ws' : List (ID × VariantID)) (items : List Item) :
    applyW (ws ++ ws') items = applyW ws' (applyW ws items) := by
  unfold applyW
  rw [List.foldl_append]

theorem replaceIn_applyW {v : VariantID} {ids : List ID} {items items' : List Item}
    (h : replaceIn v ids items = some items') :
    items' = applyW (ids.map fun id => (id, v)) items ∧ ∀ id ∈ ids, id.toNat < items.length := by
  induction ids generalizing items with
  | nil => exact ⟨(Option.some.inj h).symm, by simp⟩
  | cons id rest ih =>
    unfold replaceIn at h
    split at h
    · rename_i hlt
      obtain ⟨h1, h2⟩ := ih h
      refine ⟨h1, ?_⟩
      intro x hx
      rcases List.mem_cons.1 hx with rfl | hx
      · exact hlt
      · have := h2 x hx
        rwa [List.length_modify] at this
    · cases h

theorem replaceAll_applyW {used : VariantID → Option (List ID)} {acc : List (VariantID × VariantID)}
    {items items' : List Item} (h : replaceAll used acc items = some items') :
    items' = applyW (OState.writes used acc) items ∧ ∀ w ∈ OState.writes used acc, w.1.toNat < items.length := by
  induction acc generalizing items with
  | nil => exact ⟨(Option.some.inj h).symm, by simp [OState.writes]⟩
  | cons ab rest ih =>
    obtain ⟨a, b⟩ := ab
    unfold replaceAll at h
    cases hu : used a with
    | none => rw [hu] at h; cases h
    | some ids =>
      rw [hu] at h
      simp only at h
      cases hr : replaceIn b ids items with
      | none => rw [hr] at h; cases h
      | some its =>
        rw [hr] at h
        obtain ⟨e1, e2⟩ := replaceIn_applyW hr
        obtain ⟨h1, h2⟩ := ih h
        have hw : OState.writes used ((a, b) :: rest) = ids.map (fun id => (id, b)) ++ OState.writes used rest := by
          simp [OState.writes, hu]
        rw [hw]
        refine ⟨by rw [applyW_append, ← e1]; exact h1, ?_⟩
        intro w hw
        rcases List.mem_append.1 hw with hw | hw
        · obtain ⟨id, hid, rfl⟩ := List.mem_map.1 hw
          exact e2 id hid
        · have := h2 w hw
          rwa [e1, applyW_length] at this

/-- The number of slot `k` after the assignments. -/
def gOf (ws : List (ID × VariantID)) (k : Nat) (v : VariantID) : VariantID :=
  if v = 0 then 0 else ((ws.find? fun w => w.1.toNat = k).map (·.2)).getD v

theorem gOf_zero (ws : List (ID × VariantID)) (k : Nat) : gOf ws k 0 = 0 := if_pos rfl

theorem applyW_get {ws : List (ID × VariantID)} (hnd : (ws.map fun w => w.1.toNat).Nodup) (items : List Item) (k : Nat) :
    (applyW ws items)[k]? =
      items[k]?.map fun it => { it with variants := ((ws.find? fun w => w.1.toNat = k).map (·.2)).getD it.variants } := by
  induction ws generalizing items with
  | nil => simp [applyW]
  | cons w ws ih =>
    rw [List.map_cons, List.nodup_cons] at hnd
    have e : applyW (w :: ws) items = applyW ws (items.modify w.1.toNat fun it => { it with variants := w.2 }) := rfl
    rw [e, ih hnd.2, List.getElem?_modify]
    by_cases hk : w.1.toNat = k
    · have hn : ws.find? (fun w => decide (w.1.toNat = k)) = none := by
        rw [List.find?_eq_none]
        intro x hx hxk
        apply hnd.1
        rw [hk, List.mem_map]
        exact ⟨x, hx, by simpa using hxk⟩
      rw [hn]
      cases items[k]? <;> simp [hk]
    · cases items[k]? <;> simp [hk]

theorem applyW_paint {ws : List (ID × VariantID)} (hnd : (ws.map fun w => w.1.toNat).Nodup) {its : Items}
    (hold : ∀ w ∈ ws, ∃ it, its.items[w.1.toNat]? = some it ∧ it.variants ≠ 0) :
    ({ its with items := applyW ws its.items } : Items) = its.paint (gOf ws) := by
  unfold Items.paint
  simp only [Items.mk.injEq, and_true]
  apply List.ext_getElem?
  intro k
  rw [applyW_get hnd, List.getElem?_mapIdx]
  cases hk : its.items[k]? with
  | none => rfl
  | some it =>
    simp only [Option.map_some]
    congr 2
    unfold gOf
    split
    · rename_i hv
      have hn : ws.find? (fun w => decide (w.1.toNat = k)) = none := by
        rw [List.find?_eq_none]
        intro x hx hxk
        obtain ⟨it', h1, h2⟩ := hold x hx
        have hxk : x.1.toNat = k := by simpa using hxk
        rw [hxk, hk] at h1
        obtain rfl := Option.some.inj h1
        exact h2 hv
      rw [hn]
      simpa using hv
    · rfl

/-! ## The first loop -/

theorem addUse_zero {m : VariantID → Option (List ID)} {it : Item} (h : it.variants = 0) : OState.addUse m it = m := if_pos h

theorem fold_use_zero (l : List Item) (m : VariantID → Option (List ID)) (h : ∀ it ∈ l, it.variants = 0) :
    l.foldl OState.addUse m = m := by
  induction l with
  | nil => rfl
  | cons it l ih =>
    rw [List.foldl_cons, addUse_zero (h it (by simp))]
    exact ih fun x hx => h x (by simp [hx])

/-- Slots without readings do not matter. -/
theorem fold_use_congr (l l' : List Item) (m : VariantID → Option (List ID))
    (h : ∀ j : Nat, l[j]? = l'[j]? ∨
      ((∀ it : Item, l[j]? = some it → it.variants = 0) ∧ ∀ it : Item, l'[j]? = some it → it.variants = 0)) :
    l.foldl OState.addUse m = l'.foldl OState.addUse m := by
  induction l generalizing l' m with
  | nil =>
    refine (fold_use_zero l' m ?_).symm
    intro it hit
    obtain ⟨j, hj⟩ := List.getElem?_of_mem hit
    rcases h j with h | h
    · rw [hj] at h; simp at h
    · exact h.2 it hj
  | cons a l ih =>
    cases l' with
    | nil =>
      refine fold_use_zero _ m ?_
      intro it hit
      obtain ⟨j, hj⟩ := List.getElem?_of_mem hit
      rcases h j with h | h
      · rw [hj] at h; simp at h
      · exact h.1 it hj
    | cons b l' =>
      have h0 := h 0
      simp only [List.getElem?_cons_zero, Option.some.injEq, forall_eq'] at h0
      have e : OState.addUse m a = OState.addUse m b := by
        rcases h0 with rfl | ⟨h1, h2⟩
        · rfl
        · rw [addUse_zero h1, addUse_zero h2]
      rw [List.foldl_cons, List.foldl_cons, e]
      refine ih l' _ fun j => ?_
      have := h (j + 1)
      simpa only [List.getElem?_cons_succ] using this

theorem used_kept {ix ix' : Index} {n : Nat} (K : Kept ix ix' n) (hs : Slack ix n) :
    usedCollections ix'.items.items = usedCollections ix.items.items := by
  refine fold_use_congr _ _ _ fun j => ?_
  by_cases hj : j < n
  · exact .inl (K.items j hj)
  · exact .inr ⟨fun it => K.slack hs j it (by omega), fun it => hs j it (by omega)⟩

/-! ## What `Optimize` is going to do -/

/-- There is something to do: new tables and renumbering, and what comes out. -/
structure OPlan (ix : Index) (new : VariantsIndex) (acc : List (VariantID × VariantID)) : Prop where
  busy : (ix.collectionIdx.knownID.filter fun id => (usedCollections ix.items.items id).isNone).length ≠ 0
  build : optimizeBuild ix.collectionIdx (usedCollections ix.items.items) ix.collectionIdx.knownID [] [] = .ok (new, acc)
  opt : ix.optimize.1 = { ix with
    items := { ix.items with items := applyW (OState.writes (usedCollections ix.items.items) acc) ix.items.items },
    collectionIdx := new }
  nodup : ((OState.writes (usedCollections ix.items.items) acc).map fun w => w.1.toNat).Nodup
  old : ∀ w ∈ OState.writes (usedCollections ix.items.items) acc,
    ∃ it, ix.items.items[w.1.toNat]? = some it ∧ it.variants ≠ 0

theorem oplan_or_idle {h : List Op} {ix : Index} (r : Run h ix) :
    ((ix.collectionIdx.knownID.filter fun id => (usedCollections ix.items.items id).isNone).length = 0 ∧
      ix.optimize.1 = ix) ∨ ∃ new acc, OPlan ix new acc := by
  by_cases hu : (ix.collectionIdx.knownID.filter fun id => (usedCollections ix.items.items id).isNone).length = 0
  · refine .inl ⟨hu, ?_⟩
    unfold Index.optimize
    simp only
    rw [if_pos hu]
  · right
    obtain ⟨acc, _, _, hc, hb, hi, hfst, hk⟩ := optimizeT_busy r hu
    have hok := (optimize_spec r.trie r.tag r.caps).1
    generalize ix.optimize.1.collectionIdx = new at hb
    have hmem : ∀ a ids, usedCollections ix.items.items a = some ids → ∀ id ∈ ids,
        ∃ it, ix.items.items[id.toNat]? = some it ∧ it.variants = a ∧ a ≠ 0 := by
      intro a ids ha id hid
      have ha0 : a ≠ 0 := (used_isSome.1 (by rw [ha]; rfl)).1
      obtain ⟨it, hit, hv, rfl⟩ := (used_mem ha id).1 hid
      obtain ⟨k, hk⟩ := List.getElem?_of_mem hit
      obtain ⟨_, _, hid⟩ := item_id_of_variants r.trie r.tag hk (by rw [hv]; exact ha0)
      exact ⟨it, by rw [hid]; exact hk, hv, ha0⟩
    refine ⟨new, acc, hu, hb, ?_, ?_, ?_⟩
    · unfold Index.optimize at hok ⊢
      simp only at hok ⊢
      rw [if_neg hu, hb] at hok ⊢
      simp only at hok ⊢
      cases hr : replaceAll (usedCollections ix.items.items) acc ix.items.items with
      | none => rw [hr] at hok; cases hok
      | some its =>
        simp only
        rw [(replaceAll_applyW hr).1]
    · have hnd : (acc.map (·.1)).Nodup := by rw [hfst]; exact (run_nodup r).filter _
      have hus : ∀ ab ∈ acc, (usedCollections ix.items.items ab.1).isSome = true := by
        intro ab hab
        have : ab.1 ∈ acc.map (·.1) := List.mem_map.2 ⟨ab, hab, rfl⟩
        rw [hfst, List.mem_filter] at this
        exact this.2
      clear hfst hok hb hc hi hk
      induction acc with
      | nil => simp [OState.writes]
      | cons ab rest ih =>
        obtain ⟨a, b⟩ := ab
        obtain ⟨ids, hids⟩ := Option.isSome_iff_exists.1 (hus (a, b) (by simp))
        rw [List.map_cons, List.nodup_cons] at hnd
        have hw : OState.writes (usedCollections ix.items.items) ((a, b) :: rest) =
            ids.map (fun id => (id, b)) ++ OState.writes (usedCollections ix.items.items) rest := by
          simp only at hids
          simp [OState.writes, hids]
        rw [hw, List.map_append, List.map_map, List.nodup_append]
        refine ⟨?_, ih hnd.2 fun x hx => hus x (by simp [hx]), ?_⟩
        · refine (List.nodup_map_iff ?_).2 (used_nodup r.trie r.tag hids)
          intro x y hxy
          exact UInt32.toNat_inj.1 hxy
        · intro x hx y hy hxy
          subst hxy
          obtain ⟨id, hid, rfl⟩ := List.mem_map.1 hx
          obtain ⟨w, hw, hwk⟩ := List.mem_map.1 hy
          unfold OState.writes at hw
          obtain ⟨ab, hab, hw⟩ := List.mem_flatMap.1 hw
          obtain ⟨id', hid', rfl⟩ := List.mem_map.1 hw
          obtain ⟨ids', hids'⟩ := Option.isSome_iff_exists.1 (hus ab (by simp [hab]))
          rw [hids'] at hid'
          obtain ⟨it, e1, e2, _⟩ := hmem _ _ hids id hid
          obtain ⟨it', e1', e2', _⟩ := hmem _ _ hids' id' hid'
          simp only [Function.comp_apply] at hwk
          rw [hwk, e1] at e1'
          obtain rfl := Option.some.inj e1'
          apply hnd.1
          rw [List.mem_map]
          exact ⟨ab, hab, e2'.symm.trans e2⟩
    · intro w hw
      unfold OState.writes at hw
      obtain ⟨ab, hab, hw⟩ := List.mem_flatMap.1 hw
      obtain ⟨id, hid, rfl⟩ := List.mem_map.1 hw
      cases hu' : usedCollections ix.items.items ab.1 with
      | none => rw [hu'] at hid; simp at hid
      | some ids =>
        rw [hu'] at hid
        obtain ⟨it, e1, e2, e3⟩ := hmem _ _ hu' id hid
        exact ⟨it, e1, by rw [e2]; exact e3⟩

theorem OPlan.kept {h : List Op} {ix ix' : Index} {n : Nat} {new : VariantsIndex} {acc : List (VariantID × VariantID)}
    (P : OPlan ix new acc) (K : Kept ix ix' n) (hs : Slack ix n) (r : Run h ix') : OPlan ix' new acc := by
  have hu := used_kept K hs
  rcases oplan_or_idle r with ⟨h0, _⟩ | ⟨new', acc', P'⟩
  · rw [hu, K.collectionIdx] at h0
    exact absurd h0 P.busy
  · have hb := P'.build
    rw [hu, K.collectionIdx, P.build] at hb
    obtain ⟨rfl, rfl⟩ := Prod.mk.inj (Out.ok.inj hb)
    exact P'

/-! ## Where a running `Optimize` has got to -/

/-- `base` is the index as it would be if `Optimize` had not been called. -/
def OInv (base : Index) (s : OState) : Prop :=
  match s.pc with
  | .start => s.ix = base
  | .scan known n k used => s.ix = base ∧ known = base.collectionIdx.knownID ∧ k ≤ n ∧ n ≤ base.items.items.length ∧
      Slack base n ∧ used = (base.items.items.take k).foldl OState.addUse fun _ => none
  | .build used rest new acc => s.ix = base ∧ used = usedCollections base.items.items ∧
      (base.collectionIdx.knownID.filter fun id => (usedCollections base.items.items id).isNone).length ≠ 0 ∧
      optimizeBuild base.collectionIdx used rest new acc = optimizeBuild base.collectionIdx used base.collectionIdx.knownID [] []
  | .replace new todo => ∃ acc past, OPlan base new acc ∧
      OState.writes (usedCollections base.items.items) acc = past ++ todo ∧
      s.ix = { base with items := { base.items with items := applyW past base.items.items } }
  | .done => s.ix = base.optimize.1
  | .panicked => False

theorem scan_done {base : Index} {n : Nat} (hs : Slack base n) :
    (base.items.items.take n).foldl OState.addUse (fun _ => none) = usedCollections base.items.items := by
  refine fold_use_congr _ _ _ fun j => ?_
  by_cases hj : j < n
  · left
    rw [List.getElem?_take, if_pos hj]
  · right
    refine ⟨fun it h => ?_, fun it => hs j it (by omega)⟩
    rw [List.getElem?_take, if_neg hj] at h
    cases h

theorem oinv_opt {h : List Op} {base : Index} (r : Run h base) {s : OState} (I : OInv base s) : OInv base s.opt := by
  obtain ⟨ix, pc⟩ := s
  cases pc with
  | start =>
    have I : ix = base := I
    subst I
    refine ⟨rfl, rfl, Nat.zero_le _, Nat.le_refl _, ?_, by simp⟩
    intro k it hk hit
    rw [List.getElem?_eq_none hk] at hit
    cases hit
  | scan known n k used =>
    obtain ⟨e, rfl, hkn, hn, hs, hu⟩ := I
    simp only at e
    subst e
    unfold OState.opt
    simp only
    by_cases hk : k < n
    · rw [if_pos hk, List.getElem?_eq_getElem (by omega)]
      refine ⟨rfl, rfl, by omega, hn, hs, ?_⟩
      rw [hu, List.take_succ_eq_append_getElem (by omega), List.foldl_append]
      rfl
    · obtain rfl : k = n := by omega
      rw [scan_done hs] at hu
      subst hu
      rw [if_neg hk]
      split
      · rename_i h0
        rcases oplan_or_idle r with ⟨_, e⟩ | ⟨_, _, P⟩
        · exact e.symm
        · exact absurd h0 P.busy
      · rename_i h0
        exact ⟨rfl, rfl, h0, rfl⟩
  | build used rest new acc =>
    obtain ⟨e, rfl, hb, ho⟩ := I
    simp only at e
    subst e
    obtain ⟨new', acc', P⟩ : ∃ new acc, OPlan ix new acc := by
      rcases oplan_or_idle r with ⟨h0, _⟩ | h
      · exact absurd h0 hb
      · exact h
    cases rest with
    | nil =>
      rw [P.build] at ho
      obtain ⟨rfl, rfl⟩ := Prod.mk.inj (Out.ok.inj ho)
      exact ⟨acc, [], P, rfl, rfl⟩
    | cons id rest =>
      unfold OState.opt
      simp only
      have ho' := ho.trans P.build
      unfold optimizeBuild at ho'
      cases hu : usedCollections ix.items.items id with
      | none =>
        rw [hu] at ho'
        exact ⟨rfl, rfl, hb, ho'.trans P.build.symm⟩
      | some ids =>
        rw [hu] at ho'
        simp only at ho' ⊢
        cases hc : ix.collectionIdx.get id with
        | ok c =>
          rw [hc] at ho'
          simp only [Out.bind] at ho' ⊢
          cases hc' : (new.index c).1.get (new.index c).2 with
          | ok c' =>
            rw [hc'] at ho'
            simp only at ho' ⊢
            split
            · rename_i he
              rw [if_pos he] at ho'
              exact ⟨rfl, rfl, hb, ho'.trans P.build.symm⟩
            · rename_i he
              rw [if_neg he] at ho'
              cases ho'
          | err e => rw [hc'] at ho'; cases ho'
          | panic => rw [hc'] at ho'; cases ho'
          | diverge => rw [hc'] at ho'; cases ho'
        | err e => rw [hc] at ho'; cases ho'
        | panic => rw [hc] at ho'; cases ho'
        | diverge => rw [hc] at ho'; cases ho'
  | replace new todo =>
    obtain ⟨acc, past, P, hw, e⟩ := I
    simp only at e
    subst e
    cases todo with
    | nil =>
      rw [List.append_nil] at hw
      subst hw
      exact P.opt.symm
    | cons w todo =>
      obtain ⟨id, v⟩ := w
      unfold OState.opt
      simp only
      obtain ⟨it, hit, _⟩ := P.old (id, v) (by rw [hw]; simp)
      have hlt : id.toNat < base.items.items.length := by
        by_contra hge
        rw [List.getElem?_eq_none (by simpa using hge)] at hit
        cases hit
      rw [applyW_length, if_pos hlt]
      refine ⟨acc, past ++ [(id, v)], P, by rw [hw]; simp, ?_⟩
      simp only [applyW_append]
      rfl
  | done => exact I
  | panicked => exact I

theorem oinv_call {h : List Op} {base : Index} (r : Run h base) {op : Op} (r' : Run (h ++ [op]) (op.exec base))
    (hq : op.Untagging) {s : OState} (I : OInv base s) : OInv (op.exec base) (s.step (.call op)) := by
  have K := kept_exec r op hq r'.refines.2.nodes
  have hs := r.tag.slack
  have hu := used_kept K hs
  obtain ⟨ix, pc⟩ := s
  cases pc with
  | start =>
    have I : ix = base := I
    subst I
    rfl
  | scan known n k used =>
    obtain ⟨e, rfl, hkn, hn, hsl, he⟩ := I
    simp only at e
    subst e
    refine ⟨rfl, by rw [K.collectionIdx], hkn, Nat.le_trans hn K.length, ?_, ?_⟩
    · intro j it hj hit
      by_cases hjn : j < (dictOf h).nodes.length
      · rw [K.items j hjn] at hit
        exact hsl j it hj hit
      · exact K.slack hs j it (by omega) hit
    · rw [he]
      refine fold_use_congr _ _ _ fun j => ?_
      rw [List.getElem?_take, List.getElem?_take]
      by_cases hjk : j < k
      · rw [if_pos hjk, if_pos hjk]
        by_cases hjn : j < (dictOf h).nodes.length
        · exact .inl (K.items j hjn).symm
        · exact .inr ⟨fun it => hs j it (by omega), fun it => K.slack hs j it (by omega)⟩
      · rw [if_neg hjk, if_neg hjk]
        exact .inl rfl
  | build used rest new acc =>
    obtain ⟨e, rfl, hb, ho⟩ := I
    simp only at e
    subst e
    refine ⟨rfl, hu.symm, ?_, ?_⟩
    · rw [hu, K.collectionIdx]; exact hb
    · rw [K.collectionIdx]; exact ho
  | replace new todo =>
    obtain ⟨acc, past, P, hw, e⟩ := I
    simp only at e
    subst e
    have P' := P.kept K hs r'
    refine ⟨acc, past, P', by rw [hu]; exact hw, ?_⟩
    have hnd := P.nodup
    rw [hw, List.map_append] at hnd
    have hnd := (List.nodup_append.1 hnd).1
    have hw' : OState.writes (usedCollections (op.exec base).items.items) acc = past ++ todo := by rw [hu]; exact hw
    simp only [OState.step]
    rw [applyW_paint hnd fun w hw2 => P.old w (by rw [hw]; simp [hw2]),
      applyW_paint hnd fun w hw2 => P'.old w (by rw [hw']; simp [hw2])]
    have := exec_paint (gOf_zero past) base.collectionIdx base op hq
    unfold Index.paint at this
    rw [K.collectionIdx]
    exact this
  | done =>
    have I : ix = base.optimize.1 := I
    subst I
    show op.exec base.optimize.1 = (op.exec base).optimize.1
    rcases oplan_or_idle r with ⟨h0, e⟩ | ⟨new, acc, P⟩
    · rw [e]
      rcases oplan_or_idle r' with ⟨_, e'⟩ | ⟨_, _, P⟩
      · exact e'.symm
      · have := P.busy
        rw [hu, K.collectionIdx] at this
        exact absurd h0 this
    · have P' := P.kept K hs r'
      rw [P.opt, P'.opt, hu]
      have hold' := P'.old
      have hnd := P.nodup
      rw [hu] at hold'
      have e1 := applyW_paint hnd P.old
      have e2 := applyW_paint hnd hold'
      rw [e1, e2]
      exact exec_paint (gOf_zero _) new base op hq
  | panicked => exact I

theorem callsDuring_append (a b : List OEv) : callsDuring (a ++ b) = callsDuring a ++ callsDuring b := List.filterMap_append

/-- At every moment the index is what it would be without `Optimize`, except for the numbers. -/
theorem oinv_run {h : List Op} {ix : Index} (r : Run h ix) (evs : List OEv)
    (hq : ∀ op ∈ callsDuring evs, op.Untagging) {base : Index} (r' : Run (h ++ callsDuring evs) base) :
    OInv base ((⟨ix, .start⟩ : OState).run evs) := by
  induction evs using list_reverse_induction generalizing base with
  | nil =>
    rw [show callsDuring [] = [] from rfl, List.append_nil] at r'
    exact r.unique r'
  | snoc evs e ih =>
    have hrun : ∀ s : OState, s.run (evs ++ [e]) = (s.run evs).step e := fun s => by
      unfold OState.run; rw [List.foldl_append]; rfl
    rw [hrun]
    rw [callsDuring_append] at r' hq
    cases e with
    | opt =>
      rw [show callsDuring [.opt] = [] from rfl, List.append_nil] at r' hq
      exact oinv_opt r' (ih hq r')
    | call op =>
      rw [show callsDuring [.call op] = [op] from rfl] at r' hq
      rw [← List.append_assoc] at r'
      obtain ⟨b0, r0, _, _, rfl⟩ := r'.snoc_inv
      exact oinv_call r0 r' (hq op (by simp)) (ih (fun x hx => hq x (by simp [hx])) r0)

end Verif
