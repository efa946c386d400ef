import Verif.Lemmas.Tagging

/-! # Helper lemmas: `Optimize` -/

namespace Verif

@[elab_as_elim] theorem list_reverse_induction {α : Type} {motive : List α → Prop} (l : List α)
    (nil : motive []) (snoc : ∀ l a, motive l → motive (l ++ [a])) : motive l := by
  rw [← List.reverse_reverse l]
  induction l.reverse with
  | nil => exact nil
  | cons a t ih => rw [List.reverse_cons]; exact snoc _ _ ih

theorem usedCollections_eq (items : List Item) (v : VariantID) :
    Index.usedCollections items v =
      if v = 0 ∨ items.filter (fun it => it.variants = v) = [] then none
      else some ((items.filter fun it => it.variants = v).map (·.id)) := by
  unfold Index.usedCollections
  induction items using list_reverse_induction with
  | nil => simp
  | snoc items it ih =>
    rw [List.foldl_append, List.foldl_cons, List.foldl_nil, List.filter_append]
    by_cases h0 : it.variants = 0
    · rw [if_pos h0, ih]
      by_cases hv : v = 0
      · simp [hv]
      · have : ([it].filter fun it => decide (it.variants = v)) = [] := by
          simp only [h0, List.filter_cons, List.filter_nil]
          rw [if_neg]
          simpa using fun h : (0 : VariantID) = v => hv h.symm
        rw [this, List.append_nil]
    · rw [if_neg h0]
      by_cases hv : v = it.variants
      · subst hv
        rw [if_pos rfl, ih]
        have : ([it].filter fun x => decide (x.variants = it.variants)) = [it] := by simp
        rw [this]
        by_cases hf : items.filter (fun x => decide (x.variants = it.variants)) = []
        · rw [hf]; simp [h0]
        · rw [if_neg (by simp [h0, hf]), if_neg (by simp [h0])]
          simp
      · rw [if_neg hv, ih]
        have : ([it].filter fun x => decide (x.variants = v)) = [] := by
          simp only [List.filter_cons, List.filter_nil]
          rw [if_neg]
          simpa using fun h : it.variants = v => hv h.symm
        rw [this, List.append_nil]

theorem used_isSome {items : List Item} {v : VariantID} :
    (Index.usedCollections items v).isSome = true ↔ v ≠ 0 ∧ ∃ it ∈ items, it.variants = v := by
  rw [usedCollections_eq]
  split
  · rename_i h
    simp only [Option.isSome_none, Bool.false_eq_true, false_iff]
    rintro ⟨h0, it, hit, hv⟩
    rcases h with h | h
    · exact h0 h
    · have : it ∈ items.filter (fun it => decide (it.variants = v)) := by
        rw [List.mem_filter]; exact ⟨hit, by simpa using hv⟩
      rw [h] at this
      simp at this
  · rename_i h
    rw [not_or] at h
    simp only [Option.isSome_some, true_iff]
    refine ⟨h.1, ?_⟩
    obtain ⟨it, hit⟩ := List.exists_mem_of_ne_nil _ h.2
    rw [List.mem_filter] at hit
    exact ⟨it, hit.1, by simpa using hit.2⟩

theorem used_mem {items : List Item} {v : VariantID} {ids : List ID}
    (h : Index.usedCollections items v = some ids) (id : ID) :
    id ∈ ids ↔ ∃ it ∈ items, it.variants = v ∧ it.id = id := by
  rw [usedCollections_eq] at h
  split at h
  · cases h
  · obtain rfl := Option.some.inj h
    simp only [List.mem_map, List.mem_filter, decide_eq_true_eq, and_assoc]

/-! ## Rebuilding the table -/

/-- State of the rebuilding loop. -/
structure BuildInv (old new : VariantsIndex) (acc : List (VariantID × VariantID)) : Prop where
  inv : GInv new
  len : new.length ≤ old.length
  sub : ∀ p c, gGet new p = some c → ∃ q, gGet old q = some c
  pairs : ∀ a b, (a, b) ∈ acc → ∃ q p c, a = packV q ∧ gGet old q = some c ∧ b = packV p ∧
    gGet new p = some c
  full : ∀ p c, gGet new p = some c → ∃ a, (a, packV p) ∈ acc

theorem BuildInv.cols {old new : VariantsIndex} {acc} (h : BuildInv old new acc) (ho : GInv old)
    (i : Nat) : (new.getD i []).length ≤ (old.getD i []).length := by
  apply List.Subperm.length_le
  refine List.subperm_of_subset (h.inv i).1 ?_
  intro c hc
  obtain ⟨j, hj⟩ := List.getElem?_of_mem hc
  obtain ⟨q, hq⟩ := h.sub (i, j) c hj
  have h1 := (gGet_sorted h.inv (p := (i, j)) hj).2
  have h2 := (gGet_sorted ho hq).2
  have : q.1 = i := by simp only at h1; omega
  rw [← this]
  exact gGet_mem hq

theorem BuildInv.bounds {old new : VariantsIndex} {acc} (h : BuildInv old new acc) (ho : GInv old)
    (hl : old.length ≤ 65535) (ht : ∀ t ∈ old, t.length ≤ 65536) {p : Nat × Nat} {c : Coll}
    (hp : gGet new p = some c) : p.1 < 65535 ∧ p.2 < 65536 := by
  have h1 := gGet_col_lt hp
  have h2 := gGet_lt hp
  have h3 := h.cols ho p.1
  have h4 : (old.getD p.1 []).length ≤ 65536 := by
    by_cases hc : p.1 < old.length
    · exact ht _ (List.mem_of_getElem? (getD_of_lt old hc))
    · have hn : old[p.1]? = none := List.getElem?_eq_none (by omega)
      rw [List.getD_eq_getElem?_getD, hn]; simp
  have := h.len
  exact ⟨by omega, by omega⟩

theorem equalTo_self (c : Coll) : equalTo c c = true := (equalTo_iff c c).2 rfl

theorem optimizeBuild_spec {old : VariantsIndex} (ho : GInv old) (hl : old.length ≤ 65535)
    (ht : ∀ t ∈ old, t.length ≤ 65536) (used : VariantID → Option (List ID))
    (l : List VariantID) (hk : ∀ id ∈ l, ∃ q c, id = packV q ∧ gGet old q = some c)
    (new : VariantsIndex) (acc : List (VariantID × VariantID)) (hi : BuildInv old new acc) :
    ∃ new' acc', Index.optimizeBuild old used l new acc = .ok (new', acc') ∧ BuildInv old new' acc' ∧
      acc'.map (·.1) = acc.map (·.1) ++ l.filter fun id => (used id).isSome := by
  induction l generalizing new acc with
  | nil => exact ⟨new, acc, rfl, hi, by simp⟩
  | cons id rest ih =>
    unfold Index.optimizeBuild
    cases hu : used id with
    | none =>
      simp only
      obtain ⟨new', acc', h1, h2, h3⟩ := ih (fun x hx => hk x (by simp [hx])) new acc hi
      exact ⟨new', acc', h1, h2, by rw [h3]; simp [hu]⟩
    | some ids =>
      simp only
      obtain ⟨q, c, rfl, hq⟩ := hk id (by simp)
      have hqb := gGet_bounds hl ht hq
      obtain ⟨hcs, hcl⟩ := gGet_sorted ho hq
      have hne : c ≠ [] := by rintro rfl; simp at hcl
      rw [VariantsIndex.get_packV old hqb.1 hqb.2 hq]
      simp only [Out.bind_ok]
      rw [VariantsIndex.index_eq new hne (by omega)]
      simp only
      have hself := gGet_gIndex_self new c
      rw [sortAsc_of_sorted hcs] at hself
      have hi' : BuildInv old (gIndex new c).1 (acc ++ [(packV q, packV (gIndex new c).2)]) := by
        constructor
        · exact GInv_gIndex hi.inv hne
        · rw [gIndex_fst_length]
          have := gGet_col_lt hq
          have := hi.len
          omega
        · intro p x hp
          have hm := gGet_mem hp
          rw [gIndex_getD] at hm
          split at hm
          · rw [gTable_mem, sortAsc_of_sorted hcs] at hm
            rcases hm with hm | rfl
            · obtain ⟨j, hj⟩ := List.getElem?_of_mem hm
              exact hi.sub (p.1, j) x hj
            · exact ⟨q, hq⟩
          · obtain ⟨j, hj⟩ := List.getElem?_of_mem hm
            exact hi.sub (p.1, j) x hj
        · intro a b hab
          rcases List.mem_append.1 hab with hab | hab
          · obtain ⟨q', p', c', e1, e2, e3, e4⟩ := hi.pairs a b hab
            exact ⟨q', p', c', e1, e2, e3, gGet_gIndex_mono e4⟩
          · simp only [List.mem_singleton, Prod.mk.injEq] at hab
            obtain ⟨rfl, rfl⟩ := hab
            exact ⟨q, _, c, rfl, hq, rfl, hself⟩
        · intro p x hp
          have hm := gGet_mem hp
          rw [gIndex_getD] at hm
          have hx : x = c ∨ ∃ j, gGet new (p.1, j) = some x := by
            split at hm
            · rw [gTable_mem, sortAsc_of_sorted hcs] at hm
              rcases hm with hm | rfl
              · exact .inr (List.getElem?_of_mem hm)
              · exact .inl rfl
            · exact .inr (List.getElem?_of_mem hm)
          rcases hx with rfl | ⟨j, hj⟩
          · have := gGet_inj (GInv_gIndex hi.inv hne) hp hself
            rw [this]
            exact ⟨packV q, by simp⟩
          · have := gGet_inj (GInv_gIndex hi.inv hne) hp (gGet_gIndex_mono hj)
            rw [this]
            obtain ⟨a, ha⟩ := hi.full _ _ hj
            exact ⟨a, List.mem_append_left _ ha⟩
      have hb := hi'.bounds ho hl ht hself
      rw [VariantsIndex.get_packV _ hb.1 hb.2 hself]
      simp only [Out.bind_ok]
      rw [sortAsc_of_sorted hcs, if_pos (equalTo_self c)]
      obtain ⟨new', acc', h1, h2, h3⟩ := ih (fun x hx => hk x (by simp [hx])) _ _ hi'
      refine ⟨new', acc', h1, h2, ?_⟩
      rw [h3]
      simp [hu]

/-! ## Renumbering the items -/

theorem replaceIn_spec (v : VariantID) (ids : List ID) (items : List Item)
    (h : ∀ id ∈ ids, id.toNat < items.length) :
    ∃ items', Index.replaceIn v ids items = some items' ∧ items'.length = items.length ∧
      ∀ k : Nat, items'[k]? =
        if ∃ id ∈ ids, id.toNat = k then items[k]?.map (fun it => { it with variants := v })
        else items[k]? := by
  induction ids generalizing items with
  | nil => exact ⟨items, rfl, rfl, fun k => by simp⟩
  | cons id rest ih =>
    unfold Index.replaceIn
    rw [if_pos (h id (by simp))]
    obtain ⟨items', h1, h2, h3⟩ := ih (items.modify id.toNat fun it => { it with variants := v })
      (fun x hx => by rw [List.length_modify]; exact h x (by simp [hx]))
    refine ⟨items', h1, by rw [h2, List.length_modify], fun k => ?_⟩
    rw [h3, List.getElem?_modify]
    by_cases hk : id.toNat = k
    · have hex : ∃ x ∈ id :: rest, x.toNat = k := ⟨id, by simp, hk⟩
      rw [if_pos hex]
      split <;> cases items[k]? <;> simp
    · have : (∃ x ∈ id :: rest, x.toNat = k) ↔ ∃ x ∈ rest, x.toNat = k := by
        simp only [List.mem_cons]
        constructor
        · rintro ⟨x, rfl | hx, he⟩
          · exact absurd he hk
          · exact ⟨x, hx, he⟩
        · rintro ⟨x, hx, he⟩
          exact ⟨x, .inr hx, he⟩
      simp only [this]
      split <;> cases items[k]? <;> simp

/-- `K a k`: the item at `k` is among the users of collection `a`. -/
theorem replaceAll_spec (used : VariantID → Option (List ID)) (K : VariantID → Nat → Prop)
    (hK : ∀ a ids, used a = some ids → ∀ k, K a k ↔ ∃ id ∈ ids, id.toNat = k)
    (hdis : ∀ a b k, K a k → K b k → a = b)
    (repl : List (VariantID × VariantID)) (hnd : (repl.map (·.1)).Nodup)
    (hused : ∀ a ∈ repl.map (·.1), (used a).isSome = true) (items : List Item)
    (hlt : ∀ a ∈ repl.map (·.1), ∀ k, K a k → k < items.length) :
    ∃ items', Index.replaceAll used repl items = some items' ∧ items'.length = items.length ∧
      (∀ k : Nat, (∀ a ∈ repl.map (·.1), ¬ K a k) → items'[k]? = items[k]?) ∧
      (∀ a b, (a, b) ∈ repl → ∀ k : Nat, K a k →
        items'[k]? = items[k]?.map fun it => { it with variants := b }) := by
  induction repl generalizing items with
  | nil => exact ⟨items, rfl, rfl, fun _ _ => rfl, fun a b h => by simp at h⟩
  | cons ab rest ih =>
    obtain ⟨a, b⟩ := ab
    rw [List.map_cons, List.nodup_cons] at hnd
    obtain ⟨ids, hids⟩ := Option.isSome_iff_exists.1 (hused a (by simp))
    unfold Index.replaceAll
    rw [hids]
    simp only
    obtain ⟨items1, h1, h2, h3⟩ := replaceIn_spec b ids items (fun id hid =>
      hlt a (by simp) _ ((hK a ids hids _).2 ⟨id, hid, rfl⟩))
    rw [h1]
    simp only [Option.bind_some]
    obtain ⟨items', e1, e2, e3, e4⟩ := ih hnd.2 (fun x hx => hused x (by simp [hx])) items1
      (fun x hx k hk => by rw [h2]; exact hlt x (by simp [hx]) k hk)
    refine ⟨items', e1, by rw [e2, h2], ?_, ?_⟩
    · intro k hk
      rw [e3 k (fun x hx => hk x (by simp [hx])), h3, if_neg]
      rw [← hK a ids hids]
      exact hk a (by simp)
    · intro a' b' hab k hk
      rcases List.mem_cons.1 hab with hab' | hab'
      · obtain ⟨rfl, rfl⟩ : a' = a ∧ b' = b := by simpa using hab'
        rw [e3 k, h3, if_pos ((hK a' ids hids k).1 hk)]
        intro x hx hxk
        have := hdis _ _ _ hk hxk
        subst this
        exact hnd.1 hx
      · rw [e4 a' b' hab' k hk, h3, if_neg]
        rw [← hK a ids hids]
        intro hka
        have := hdis _ _ _ hk hka
        subst this
        exact hnd.1 (List.mem_map.2 ⟨(a', b'), hab', rfl⟩)

/-! ## The whole -/

theorem item_id_of_variants {ix : Index} {d : Dict} (ht : TrieOK ix d) (h : TagOK ix d) {k : Nat}
    {it : Item} (hk : ix.items.items[k]? = some it) (hv : it.variants ≠ 0) :
    0 < k ∧ k < d.nodes.length ∧ it.id.toNat = k := by
  by_cases hn : k < d.nodes.length
  · by_cases h0 : k = 0
    · subst h0
      rw [ht.item0] at hk
      obtain rfl := Option.some.inj hk
      exact absurd rfl hv
    · obtain ⟨it', w, e1, e2, _⟩ := ht.item k (by omega) hn
      rw [hk] at e1
      obtain rfl := Option.some.inj e1
      exact ⟨by omega, hn, e2⟩
  · exact absurd (h.slack k it (by omega) hk) hv

/-- `Optimize` in full: no panic; the dictionary represented stays the same; afterwards every stored
collection is in use. -/
theorem optimize_spec {ix : Index} {d : Dict} (ht : TrieOK ix d) (h : TagOK ix d) (hc : Caps ix) :
    ix.optimize.2 = .ok () ∧ TrieOK ix.optimize.1 d ∧ TagOK ix.optimize.1 d ∧
    Caps ix.optimize.1 ∧
    (∀ id ∈ ix.optimize.1.collectionIdx.knownID, ∃ it ∈ ix.optimize.1.items.items, it.variants = id) ∧
    ix.optimize.1.tagSets = ix.tagSets ∧
    (ix.optimize.1.collectionIdx.length ≤ ix.collectionIdx.length ∧
      ∀ i, (ix.optimize.1.collectionIdx.getD i []).length ≤ (ix.collectionIdx.getD i []).length) ∧
    (∀ (k : Nat) (it it' : Item), ix.items.items[k]? = some it → ix.optimize.1.items.items[k]? = some it' →
      ∃ c, CollOf ix.collectionIdx it.variants c ∧ CollOf ix.optimize.1.collectionIdx it'.variants c) := by
  unfold Index.optimize
  simp only
  have hcollOf : ∀ (k : Nat) (it : Item), ix.items.items[k]? = some it → ∃ c, CollOf ix.collectionIdx it.variants c := by
    intro k it hk
    by_cases hv : it.variants = 0
    · exact ⟨[], .inl ⟨hv, rfl⟩⟩
    · obtain ⟨_, hkn, _⟩ := item_id_of_variants ht h hk hv
      obtain ⟨c, hc1, _⟩ := h.vars k it hkn hk
      exact ⟨c, hc1⟩
  by_cases hun : (ix.collectionIdx.knownID.filter
      fun id => (Index.usedCollections ix.items.items id).isNone).length = 0
  · rw [if_pos hun]
    refine ⟨rfl, ht, h, hc, ?_, rfl, ⟨Nat.le_refl _, fun _ => Nat.le_refl _⟩, ?_⟩
    · intro id hid
      have hnil := List.length_eq_zero_iff.1 hun
      rw [List.filter_eq_nil_iff] at hnil
      have := hnil id hid
      have : (Index.usedCollections ix.items.items id).isSome = true := by
        cases hu : Index.usedCollections ix.items.items id with
        | none => rw [hu] at this; simp at this
        | some _ => rfl
      exact (used_isSome.1 this).2
    · intro k it it' h1 h2
      rw [h1] at h2
      obtain rfl := Option.some.inj h2
      obtain ⟨c, hc1⟩ := hcollOf k it h1
      exact ⟨c, hc1, hc1⟩
  · rw [if_neg hun]
    have hknown : ∀ id ∈ ix.collectionIdx.knownID,
        ∃ q c, id = packV q ∧ gGet ix.collectionIdx q = some c := by
      intro id hid
      obtain ⟨q, ⟨c, hq⟩, rfl⟩ := (mem_knownID hc.collTables).1 hid
      exact ⟨q, c, rfl, hq⟩
    have hcols : ∀ i, (ix.collectionIdx.getD i []).length ≤ 65536 := by
      intro i
      by_cases hi : i < ix.collectionIdx.length
      · exact hc.colls _ (List.mem_of_getElem? (getD_of_lt _ hi))
      · have hn : ix.collectionIdx[i]? = none := List.getElem?_eq_none (by omega)
        rw [List.getD_eq_getElem?_getD, hn]; simp
    obtain ⟨new, acc, hb, hinv, hfst⟩ := optimizeBuild_spec h.colls hc.collTables hc.colls
      (Index.usedCollections ix.items.items) ix.collectionIdx.knownID hknown [] []
      ⟨GInv_nil, by simp, fun p c hp => by simp [gGet] at hp, fun a b h => by simp at h,
        fun p c hp => by simp [gGet] at hp⟩
    rw [hb]
    simp only
    simp only [List.map_nil, List.nil_append] at hfst
    have hnd : (acc.map (·.1)).Nodup := by
      rw [hfst]; exact (nodup_knownID hc.collTables hcols).filter _
    have hacc : ∀ a ∈ acc.map (·.1), (Index.usedCollections ix.items.items a).isSome = true := by
      intro a ha
      rw [hfst] at ha
      exact (List.mem_filter.1 ha).2
    let K : VariantID → Nat → Prop := fun a k =>
      a ≠ 0 ∧ ∃ it, ix.items.items[k]? = some it ∧ it.variants = a
    have hK : ∀ a ids, Index.usedCollections ix.items.items a = some ids →
        ∀ k, K a k ↔ ∃ id ∈ ids, id.toNat = k := by
      intro a ids hu k
      have ha : a ≠ 0 := (used_isSome.1 (by rw [hu]; rfl)).1
      constructor
      · rintro ⟨_, it, hit, rfl⟩
        obtain ⟨_, _, hid⟩ := item_id_of_variants ht h hit ha
        exact ⟨it.id, (used_mem hu _).2 ⟨it, List.mem_of_getElem? hit, rfl, rfl⟩, hid⟩
      · rintro ⟨id, hid, rfl⟩
        obtain ⟨it, hm, rfl, rfl⟩ := (used_mem hu _).1 hid
        obtain ⟨j, hj⟩ := List.getElem?_of_mem hm
        obtain ⟨_, _, e⟩ := item_id_of_variants ht h hj ha
        rw [e]
        exact ⟨ha, it, hj, rfl⟩
    obtain ⟨items', hr, hlen, hkeep, hset⟩ := replaceAll_spec (Index.usedCollections ix.items.items) K hK
      (fun a b k h1 h2 => by
        obtain ⟨_, it, e1, rfl⟩ := h1
        obtain ⟨_, it', e2, rfl⟩ := h2
        rw [e1] at e2
        rw [Option.some.inj e2])
      acc hnd hacc ix.items.items (fun a _ k hk => by
        obtain ⟨_, it, e1, _⟩ := hk
        exact (List.getElem?_eq_some_iff.1 e1).1)
    rw [hr]
    simp only
    -- what happens to each item
    have hitem : ∀ (k : Nat) (it : Item), ix.items.items[k]? = some it → ∃ b, items'[k]? = some { it with variants := b } ∧
        ((it.variants = 0 ∧ b = 0) ∨ ((it.variants, b) ∈ acc)) := by
      intro k it hk
      by_cases hv : it.variants = 0
      · refine ⟨0, ?_, .inl ⟨hv, rfl⟩⟩
        rw [hkeep k, hk]
        · rw [← hv]
        · rintro a _ ⟨ha, it', e1, e2⟩
          rw [hk] at e1
          obtain rfl := Option.some.inj e1
          exact ha (e2 ▸ hv)
      · have hin : it.variants ∈ acc.map (·.1) := by
          rw [hfst, List.mem_filter]
          constructor
          · rw [mem_knownID hc.collTables]
            obtain ⟨_, hkn, _⟩ := item_id_of_variants ht h hk hv
            obtain ⟨c, hc1, _⟩ := h.vars k it hkn hk
            rcases hc1 with ⟨h0, _⟩ | ⟨p, hp, e⟩
            · exact absurd h0 hv
            · exact ⟨p, ⟨c, hp⟩, e⟩
          · exact used_isSome.2 ⟨hv, it, List.mem_of_getElem? hk, rfl⟩
        obtain ⟨⟨a, b⟩, hab, ha⟩ := List.mem_map.1 hin
        simp only at ha
        subst ha
        refine ⟨b, ?_, .inr hab⟩
        rw [hset _ b hab k ⟨hv, it, hk, rfl⟩, hk]
        rfl
    have hback : ∀ (k : Nat) (it' : Item), items'[k]? = some it' → ∃ it, ix.items.items[k]? = some it := by
      intro k it' hk
      have := (List.getElem?_eq_some_iff.1 hk).1
      exact ⟨_, List.getElem?_eq_getElem (by omega)⟩
    have hcaps : Caps { ix with items := { ix.items with items := items' }, collectionIdx := new } := by
      refine ⟨hc.setTables, hc.sets, ?_, ?_⟩
      · have := hinv.len
        have := hc.collTables
        simp only
        omega
      · intro t ht'
        obtain ⟨i, hi, rfl⟩ := List.getElem_of_mem ht'
        have h1 := hinv.cols h.colls i
        have h2 := hcols i
        rw [List.getD_eq_getElem?_getD, List.getElem?_eq_getElem hi] at h1
        simp only [Option.getD_some] at h1
        simp only
        omega
    -- collections are kept
    have hsame : ∀ a b, (a, b) ∈ acc → ∀ c, CollOf ix.collectionIdx a c → CollOf new b c := by
      intro a b hab c hcc
      obtain ⟨q, p, c', rfl, hq, rfl, hp⟩ := hinv.pairs a b hab
      have : c = c' := hcc.unique hc (.inr ⟨q, hq, rfl⟩)
      subst this
      exact .inr ⟨p, hp, rfl⟩
    refine ⟨trivial, ?_, ?_, hcaps, ?_, trivial, ⟨hinv.len, hinv.cols h.colls⟩, ?_⟩
    · constructor
      · exact ht.root
      · exact ht.nodup
      · exact ht.next
      · simp only; rw [hlen]; exact ht.cap
      · simp only
        obtain ⟨b, hb1, hb2⟩ := hitem 0 _ ht.item0
        rw [hb1]
        rcases hb2 with ⟨_, rfl⟩ | hab
        · rfl
        · obtain ⟨q, p, c', e, hq, _, _⟩ := hinv.pairs _ _ hab
          exact absurd e.symm (packV_ne_zero (hc.coll hq).1)
      · intro k hk0 hk
        obtain ⟨it, w, e1, e2⟩ := ht.item k hk0 hk
        obtain ⟨b, hb1, _⟩ := hitem k it e1
        exact ⟨_, w, hb1, e2⟩
      · exact ht.child
      · exact ht.nul
    · constructor
      · exact h.tags
      · exact h.names
      · exact h.sets
      · exact h.setIds
      · exact hinv.inv
      · intro p c hp
        obtain ⟨q, hq⟩ := hinv.sub p c hp
        exact h.collNodup q c hq
      · intro k it' hk hk'
        simp only at hk'
        obtain ⟨it, hit⟩ := hback k it' hk'
        obtain ⟨c, hc1, hc2⟩ := h.vars k it hk hit
        obtain ⟨b, hb1, hb2⟩ := hitem k it hit
        rw [hk'] at hb1
        obtain rfl := Option.some.inj hb1
        refine ⟨c, ?_, hc2⟩
        simp only
        rcases hb2 with ⟨h0, rfl⟩ | hab
        · have := (hc1.zero_iff hc h.colls).1 h0
          exact .inl ⟨rfl, this⟩
        · exact hsame _ _ hab c hc1
      · intro k it' hk hk'
        simp only at hk'
        obtain ⟨it, hit⟩ := hback k it' hk'
        have hv := h.slack k it hk hit
        obtain ⟨b, hb1, hb2⟩ := hitem k it hit
        rw [hk'] at hb1
        obtain rfl := Option.some.inj hb1
        simp only
        rcases hb2 with ⟨_, rfl⟩ | hab
        · rfl
        · obtain ⟨q, p, c', e, hq, _, _⟩ := hinv.pairs _ _ hab
          rw [hv] at e
          exact absurd e.symm (packV_ne_zero (hc.coll hq).1)
      · exact h.readings
      · exact h.count
    · intro id hid
      obtain ⟨p, ⟨c, hp⟩, rfl⟩ := (mem_knownID (by have := hinv.len; have := hc.collTables; omega)).1 hid
      obtain ⟨a, ha⟩ := hinv.full p c hp
      obtain ⟨ha0, it, hit, rfl⟩ := used_isSome.1 (hacc a (List.mem_map.2 ⟨_, ha, rfl⟩))
      obtain ⟨k, hk⟩ := List.getElem?_of_mem hit
      refine ⟨{ it with variants := packV p }, ?_, rfl⟩
      have := hset _ _ ha k ⟨ha0, it, hk, rfl⟩
      rw [hk] at this
      exact List.mem_of_getElem? this
    · intro k it it' hit hit'
      obtain ⟨c, hc1⟩ := hcollOf k it hit
      obtain ⟨b, hb1, hb2⟩ := hitem k it hit
      rw [hit'] at hb1
      obtain rfl := Option.some.inj hb1
      refine ⟨c, hc1, ?_⟩
      simp only
      rcases hb2 with ⟨h0, rfl⟩ | hab
      · exact .inl ⟨rfl, (hc1.zero_iff hc h.colls).1 h0⟩
      · exact hsame _ _ hab c hc1

/-- When every stored collection is in use, `Optimize` does nothing at all. -/
theorem optimize_idle {ix : Index} (hz : ∀ id ∈ ix.collectionIdx.knownID, id ≠ 0)
    (h : ∀ id ∈ ix.collectionIdx.knownID, ∃ it ∈ ix.items.items, it.variants = id) :
    ix.optimize = (ix, .ok ()) := by
  unfold Index.optimize
  simp only
  rw [if_pos]
  rw [List.length_eq_zero_iff, List.filter_eq_nil_iff]
  intro id hid hn
  have : (Index.usedCollections ix.items.items id).isSome = true :=
    used_isSome.2 ⟨hz id hid, h id hid⟩
  cases hu : Index.usedCollections ix.items.items id with
  | none => rw [hu] at this; cases this
  | some _ => rw [hu] at hn; cases hn

end Verif
