import Verif.Model.Cost
import Verif.Lemmas.Room

/-! # Helper lemmas: counting steps -/

namespace Verif

/-! ## The counted functions are the functions -/

theorem wordFuelT_fst (n : Nat) (its : Items) (id : ID) : (wordFuelT n its id).1 = Index.wordFuel n its id := by
  induction n generalizing id with
  | zero => rfl
  | succ n ih =>
    unfold wordFuelT Index.wordFuel
    split
    · rfl
    · cases its.get id with
      | none => rfl
      | some it =>
        simp only
        split
        · simp only [ih]
        · rfl

theorem wordT_fst (ix : Index) (id : ID) : (ix.wordT id).1 = ix.word id := wordFuelT_fst _ _ _

theorem fetchFromItemT_fst (ix : Index) (p : ID) (rs : List Rune) :
    (ix.fetchFromItemT p rs).1 = ix.fetchFromItem p rs := by
  induction rs generalizing ix p with
  | nil => rfl
  | cons r rest ih =>
    unfold Index.fetchFromItemT Index.fetchFromItem
    generalize ix.getChildrenIDMap p = x
    obtain ⟨ix1, cm⟩ := x
    simp only
    cases cm r with
    | none => simp only [wordT_fst]
    | some c =>
      simp only
      split
      · rfl
      · exact ih _ _

theorem addLoopT_fst (orig : ID) (ix : Index) (p : ID) (rs : List Rune) :
    (Index.addLoopT orig ix p rs).1 = Index.addLoop orig ix p rs := by
  induction rs generalizing ix p with
  | nil => rfl
  | cons r rest ih =>
    unfold Index.addLoopT Index.addLoop
    split
    · rfl
    · cases ix.addStep p r with
      | none => rfl
      | some x =>
        obtain ⟨ix1, c⟩ := x
        simp only
        split
        · rfl
        · exact ih _ _

theorem tagsFindT_fst (name : Str) (i : Nat) (tags : List Tag) : (tagsFindT name i tags).1 =
    (tags.findIdx? fun t => t.name = name).map fun j => UInt8.ofNat (i + j) := by
  induction tags generalizing i with
  | nil => rfl
  | cons t tags ih =>
    unfold tagsFindT
    by_cases h : t.name = name
    · simp [h, List.findIdx?_cons]
    · simp only [h, if_false, ih, List.findIdx?_cons, decide_false, Bool.false_eq_true, Option.map_map]
      congr 1
      funext j
      simp only [Function.comp]
      congr 1
      omega

theorem tagsFindT_zero (name : Str) (tags : List Tag) : (tagsFindT name 0 tags).1 = tagsFind tags name := by
  rw [tagsFindT_fst]
  unfold tagsFind
  congr 1
  funext j
  rw [Nat.zero_add]

theorem findAllT_fst (tags : List Tag) (names : List Str) : (findAllT tags names).1 = Index.findAll tags names := by
  induction names with
  | nil => rfl
  | cons n rest ih =>
    unfold findAllT Index.findAll
    rw [← tagsFindT_zero, ← ih]
    generalize tagsFindT n 0 tags = x
    obtain ⟨o, k⟩ := x
    cases o <;> rfl

section
variable {α : Type} [DecidableEq α]

theorem equalLoopT_fst (a b : List α) : (equalLoopT a b).1 = equalTo.go a b := by
  induction a generalizing b with
  | nil => cases b <;> rfl
  | cons x a ih =>
    cases b with
    | nil => rfl
    | cons y b =>
      unfold equalLoopT equalTo.go
      split
      · rfl
      · exact ih b

theorem equalToT_fst (a b : List α) : (equalToT a b).1 = equalTo a b := by
  unfold equalToT equalTo
  split
  · rfl
  · exact equalLoopT_fst a b

theorem findSetT_fst (item : List α) (i : Nat) (table : List (List α)) :
    (findSetT item i table).1 = (findSet table item).map (i + ·) := by
  induction table generalizing i with
  | nil => rfl
  | cons s table ih =>
    have e := equalToT_fst s item
    unfold findSetT
    unfold findSet at ih ⊢
    generalize equalToT s item = x at e
    obtain ⟨b, k⟩ := x
    simp only at e
    rw [List.findIdx?_cons, ← e]
    cases b with
    | true => simp
    | false =>
      simp only [ih, Bool.false_eq_true, if_false, Option.map_map]
      congr 1
      funext j
      simp only [Function.comp]
      omega

theorem findSetT_zero (item : List α) (table : List (List α)) : (findSetT item 0 table).1 = findSet table item := by
  rw [findSetT_fst]
  simp

end

theorem TagSetTable.indexT_fst (t : TagSetTable) (item : TagSet) : (TagSetTable.indexT t item).1 = TagSetTable.index t item := by
  unfold TagSetTable.indexT TagSetTable.index
  split
  · rfl
  · simp only [TagSetTable.find]
    rw [← findSetT_zero]
    generalize findSetT (sortAsc item) 0 t = x
    obtain ⟨o, k⟩ := x
    cases o <;> rfl

theorem TagSetIndex.indexT_fst (ix : TagSetIndex) (item : TagSet) : (TagSetIndex.indexT ix item).1 = TagSetIndex.index ix item := by
  unfold TagSetIndex.indexT TagSetIndex.index
  split
  · rfl
  · simp only
    rw [← TagSetTable.indexT_fst]
    generalize TagSetTable.indexT _ _ = x
    obtain ⟨o, k⟩ := x
    cases o <;> rfl

theorem VariantsTable.indexT_fst (t : VariantsTable) (item : Coll) : (VariantsTable.indexT t item).1 = VariantsTable.index t item := by
  unfold VariantsTable.indexT VariantsTable.index
  split
  · rfl
  · simp only [VariantsTable.find]
    rw [← findSetT_zero]
    generalize findSetT (sortAsc item) 0 t = x
    obtain ⟨o, k⟩ := x
    cases o <;> rfl

theorem VariantsIndex.indexT_fst (ix : VariantsIndex) (item : Coll) :
    (VariantsIndex.indexT ix item).1 = VariantsIndex.index ix item := by
  unfold VariantsIndex.indexT VariantsIndex.index
  split
  · rfl
  · simp only
    rw [← VariantsTable.indexT_fst]

theorem hasT_fst (id : TagSetID) (c : Coll) : (hasT id c).1 = Coll.has c id := by
  induction c with
  | nil => rfl
  | cons x c ih =>
    unfold Coll.has at ih ⊢
    unfold hasT
    by_cases h : (x == id) = true
    · rw [if_pos h, List.any_cons, h]; rfl
    · rw [if_neg h, List.any_cons, Bool.eq_false_iff.2 h]
      exact ih

theorem Coll.addT_fst (c : Coll) (id : TagSetID) : (Coll.addT c id).1 = Coll.add c id := by
  unfold Coll.addT Coll.add
  rw [← hasT_fst]
  generalize hasT id c = x
  obtain ⟨b, k⟩ := x
  cases b <;> rfl

theorem addTagSetT_fst (ix : Index) (id : ID) (names : List Str) :
    (ix.addTagSetT id names).1 = ix.addTagSet id names := by
  unfold Index.addTagSetT Index.addTagSet
  rw [← findAllT_fst]
  generalize findAllT ix.tags names = x
  obtain ⟨o, k⟩ := x
  cases o with
  | error n => rfl
  | ok s =>
    simp only
    cases ix.items.get id with
    | none => rfl
    | some it =>
      simp only
      cases ix.collectionIdx.get it.variants with
      | ok c => simp only [TagSetIndex.indexT_fst, Coll.addT_fst, VariantsIndex.indexT_fst]
      | _ => rfl

theorem tagSetsLoopT_fst (ix : Index) (c : Coll) : (ix.tagSetsLoopT c).1 = ix.tagSetsLoop c := by
  induction c with
  | nil => rfl
  | cons id c ih =>
    unfold Index.tagSetsLoopT Index.tagSetsLoop
    cases ix.tagSets.get id with
    | none => rfl
    | some s => simp only [ih]

theorem tagSetsOfT_fst (ix : Index) (id : ID) : (ix.tagSetsOfT id).1 = ix.tagSetsOf id := by
  unfold Index.tagSetsOfT Index.tagSetsOf
  cases ix.items.get id with
  | none => rfl
  | some it =>
    simp only
    cases ix.collectionIdx.get it.variants with
    | ok c => simp only [tagSetsLoopT_fst]; rfl
    | _ => rfl

/-! ## Looking up -/

theorem TrieOK.wordFuelT_snd {ix : Index} {d : Dict} (h : TrieOK ix d) (n : Nat) (id : ID) (w : List Rune)
    (hw : d.nodes[id.toNat]? = some w) (hn : id.toNat < n) : (wordFuelT n ix.items id).2 = max 1 w.length := by
  induction n generalizing id w with
  | zero => omega
  | succ n ih =>
    unfold wordFuelT
    by_cases h0 : id = 0
    · subst h0
      have : w = [] := by
        have := h.root
        rw [show (0 : ID).toNat = 0 from rfl] at hw
        rw [hw] at this; exact Option.some.inj this
      subst this
      rfl
    · rw [if_neg h0]
      have h1 : 0 < id.toNat := Nat.pos_of_ne_zero fun h' => h0 (TrieOK.toNat_eq_zero.1 h')
      obtain ⟨it, w', hg, _, _, hlt, hp, hk⟩ := h.items_get h1 (lt_next hw)
      have hww : w = w' ++ [it.letter] := by rw [hk] at hw; exact (Option.some.inj hw).symm
      rw [hg]
      simp only
      by_cases hpz : it.parent = 0
      · rw [if_neg (by simpa using hpz)]
        have : w' = [] := by
          have hr := h.root
          rw [hpz, show (0 : ID).toNat = 0 from rfl] at hp
          rw [hp] at hr; exact Option.some.inj hr
        subst this
        rw [hww]
        rfl
      · rw [if_pos hpz]
        simp only
        rw [ih it.parent w' hp (by omega), hww, List.length_append, List.length_singleton]
        have : w' ≠ [] := by
          rintro rfl
          exact hpz (TrieOK.toNat_eq_zero.1 (h.idx_unique hp h.root))
        have := List.length_pos_iff.2 this
        omega

theorem TrieOK.wordT_snd {ix : Index} {d : Dict} (h : TrieOK ix d) {id : ID} {w : List Rune}
    (hw : d.nodes[id.toNat]? = some w) : (ix.wordT id).2 = max 1 w.length := by
  have := lt_next hw
  exact h.wordFuelT_snd _ _ _ hw (by rw [h.next]; omega)

theorem wordT_obs {ix ix' : Index} (h : Index.Obs ix ix') (id : ID) : ix'.wordT id = ix.wordT id := by
  unfold Index.wordT; rw [h.items]

theorem TrieOK.fetchT_spec {ix : Index} {d : Dict} (h : TrieOK ix d) (p : ID) (w rs : List Rune)
    (hp : d.nodes[p.toNat]? = some w) (hrs : rs ≠ []) :
    (∃ c, (ix.fetchFromItem p rs).2 = .ok c ∧ (ix.fetchFromItemT p rs).2 = rs.length) ∨
    (∃ pre r post, rs = pre ++ r :: post ∧
      (ix.fetchFromItem p rs).2 = .err (.notFound (encodeRunes (d.join w pre)) r) ∧
      (ix.fetchFromItemT p rs).2 = pre.length + 1 + max 1 (d.join w pre).length) := by
  induction rs generalizing ix p w with
  | nil => exact absurd rfl hrs
  | cons r rest ih =>
    have ho := getChildrenIDMap_obs ix p
    have hs := getChildrenIDMap_snd ix p
    unfold Index.fetchFromItemT Index.fetchFromItem
    generalize ix.getChildrenIDMap p = x at *
    obtain ⟨ix1, cm⟩ := x
    simp only at ho hs ⊢
    subst hs
    have h1 := h.obs ho
    cases hc : ix.getChildrenMap p r with
    | none =>
      right
      refine ⟨[], r, rest, rfl, ?_, ?_⟩
      · simp only [word_obs ho, h.word_eq hp, Dict.join_nil_right]
        rfl
      · simp only [wordT_obs ho, h.wordT_snd hp, Dict.join_nil_right, List.length_nil]
        omega
    | some c =>
      have hc' := (h.child_some hp r c).1 hc
      simp only
      split
      · rename_i he
        subst he
        left
        exact ⟨c, by rw [h1.get_ok hc'], rfl⟩
      · rename_i he
        rcases ih h1 c _ hc' he with ⟨k, e1, e2⟩ | ⟨pre, r', post, e1, e2, e3⟩
        · exact .inl ⟨k, e1, by simp only [e2, List.length_cons]⟩
        · rw [d.join_step] at e2 e3
          refine .inr ⟨r :: pre, r', post, by rw [e1]; rfl, e2, ?_⟩
          simp only [e3, List.length_cons]
          omega

/-- From a node that does not exist. -/
theorem TrieOK.fetchT_unknown {ix : Index} {d : Dict} (h : TrieOK ix d) (p : ID) (rs : List Rune)
    (hp : d.nodes[p.toNat]? = none) (hrs : rs ≠ []) : (ix.fetchFromItemT p rs).2 = 2 := by
  cases rs with
  | nil => exact absurd rfl hrs
  | cons r rest =>
    have hs := getChildrenIDMap_snd ix p
    have ho := getChildrenIDMap_obs ix p
    unfold Index.fetchFromItemT
    generalize ix.getChildrenIDMap p = x at *
    obtain ⟨ix1, cm⟩ := x
    simp only at ho hs ⊢
    subst hs
    have h0 : p ≠ 0 := by rintro rfl; rw [show (0 : ID).toNat = 0 from rfl, h.root] at hp; cases hp
    have hn : ix.getChildrenMap p r = none := by
      cases hc : ix.getChildrenMap p r with
      | none => rfl
      | some c =>
        rcases (h.child p r c).1 hc with ⟨w, hw, _⟩ | ⟨_, e, _⟩
        · rw [hp] at hw; cases hw
        · exact absurd e h0
    rw [hn]
    simp only [wordT_obs ho]
    unfold Index.wordT wordFuelT
    have hg : ix.items.get p = none := h.items_get_none (by
      have := List.getElem?_eq_none_iff.1 hp
      omega)
    rw [if_neg h0, hg]

theorem join_length_le (d : Dict) (w rs : List Rune) : (d.join w rs).length ≤ w.length + rs.length := by
  unfold Dict.join
  split
  · have := (List.dropWhile_suffix (l := rs) (· == 0)).length_le
    omega
  · simp

/-! ## Adding -/

theorem addLoopT_le (orig : ID) (ix : Index) (p : ID) (rs : List Rune) :
    (Index.addLoopT orig ix p rs).2 ≤ rs.length ∧
    (∀ c, (Index.addLoopT orig ix p rs).1.2 = .ok c → (Index.addLoopT orig ix p rs).2 = rs.length) := by
  induction rs generalizing ix p with
  | nil => exact ⟨Nat.le_refl _, fun c h => rfl⟩
  | cons r rest ih =>
    unfold Index.addLoopT
    split
    · exact ⟨by simp, fun c h => by cases h⟩
    · cases ix.addStep p r with
      | none => exact ⟨by simp, fun c h => by cases h⟩
      | some x =>
        obtain ⟨ix1, c⟩ := x
        simp only
        split
        · rename_i he
          subst he
          exact ⟨by simp, fun c h => rfl⟩
        · obtain ⟨h1, h2⟩ := ih ix1 c
          refine ⟨by simp only [List.length_cons]; omega, fun c' h => ?_⟩
          simp only at h
          simp only [h2 c' h, List.length_cons]

/-! ## Tagging -/

theorem tagsFindT_le (name : Str) (i : Nat) (tags : List Tag) : (tagsFindT name i tags).2 ≤ tags.length := by
  induction tags generalizing i with
  | nil => exact Nat.le_refl _
  | cons t tags ih =>
    unfold tagsFindT
    split
    · simp
    · simp only [List.length_cons]
      have := ih (i + 1)
      omega

theorem findAllT_le (tags : List Tag) (names : List Str) :
    (findAllT tags names).2 ≤ names.length * (tags.length + 1) := by
  induction names with
  | nil => exact Nat.zero_le _
  | cons n rest ih =>
    have h := tagsFindT_le n 0 tags
    unfold findAllT
    rw [List.length_cons, Nat.succ_mul]
    generalize tagsFindT n 0 tags = x at h
    obtain ⟨o, k⟩ := x
    cases o <;> simp only at h ⊢ <;> omega

/-- After an unknown name no further ones are looked up. -/
theorem findAllT_unknown (tags : List Tag) (pre : List Str) (n : Str) (post : List Str) (hn : tagsFind tags n = none) :
    (∃ m, (findAllT tags (pre ++ n :: post)).1 = .error m) ∧
    (findAllT tags (pre ++ n :: post)).2 ≤ (pre.length + 1) * (tags.length + 1) := by
  induction pre with
  | nil =>
    have h := tagsFindT_le n 0 tags
    have e := tagsFindT_zero n tags
    rw [hn] at e
    rw [List.nil_append]
    unfold findAllT
    generalize tagsFindT n 0 tags = x at h e
    obtain ⟨o, k⟩ := x
    simp only at e
    subst e
    simp only at h ⊢
    exact ⟨⟨n, rfl⟩, by simp; omega⟩
  | cons a pre ih =>
    have h := tagsFindT_le a 0 tags
    rw [List.cons_append]
    unfold findAllT
    rw [List.length_cons, Nat.succ_mul]
    generalize tagsFindT a 0 tags = x at h
    obtain ⟨o, k⟩ := x
    obtain ⟨⟨m, hm⟩, hk⟩ := ih
    cases o with
    | none => simp only at h ⊢; exact ⟨⟨a, rfl⟩, by omega⟩
    | some v =>
      simp only at h ⊢
      rw [hm]
      exact ⟨⟨m, rfl⟩, by omega⟩

section
variable {α : Type} [DecidableEq α]

theorem equalToT_le (a b : List α) : (equalToT a b).2 ≤ b.length := by
  have hl : ∀ a b : List α, (equalLoopT a b).2 ≤ b.length := by
    intro a
    induction a with
    | nil => intro b; cases b <;> simp [equalLoopT]
    | cons x a ih =>
      intro b
      cases b with
      | nil => simp [equalLoopT]
      | cons y b =>
        unfold equalLoopT
        split
        · simp
        · simp only [List.length_cons]
          have := ih b
          omega
  unfold equalToT
  split
  · simp
  · exact hl a b

theorem findSetT_le (item : List α) (i : Nat) (table : List (List α)) :
    (findSetT item i table).2 ≤ table.length * (item.length + 1) := by
  induction table generalizing i with
  | nil => exact Nat.zero_le _
  | cons s table ih =>
    have h := equalToT_le s item
    have := ih (i + 1)
    unfold findSetT
    rw [List.length_cons, Nat.succ_mul]
    generalize equalToT s item = x at h
    obtain ⟨b, k⟩ := x
    cases b <;> simp only at h ⊢ <;> omega

/-- A set that is not stored is compared with every stored one. -/
theorem findSetT_ge (item : List α) (i : Nat) (table : List (List α)) (h : item ∉ table) :
    table.length ≤ (findSetT item i table).2 := by
  induction table generalizing i with
  | nil => exact Nat.zero_le _
  | cons s table ih =>
    rw [List.mem_cons, not_or] at h
    have e := equalToT_fst s item
    have := ih (i + 1) h.2
    unfold findSetT
    generalize equalToT s item = x at e
    obtain ⟨b, k⟩ := x
    cases b with
    | true =>
      simp only at e
      exact absurd ((equalTo_iff _ _).1 e.symm).symm h.1
    | false =>
      simp only [List.length_cons]
      omega

end

theorem hasT_le (id : TagSetID) (c : Coll) : (hasT id c).2 ≤ c.length := by
  induction c with
  | nil => exact Nat.le_refl _
  | cons x c ih =>
    unfold hasT
    split
    · simp
    · simp only [List.length_cons]
      omega

theorem Coll.addT_le (c : Coll) (id : TagSetID) : (Coll.addT c id).2 ≤ 2 * c.length + 1 := by
  have := hasT_le id c
  unfold Coll.addT
  generalize hasT id c = x at this
  obtain ⟨b, k⟩ := x
  cases b <;> simp only at this ⊢ <;> omega

theorem extendTables_getD {β : Type} (c : List (List β)) (col j : Nat) :
    (extendTables c col).getD j [] = c.getD j [] := by
  unfold extendTables
  split
  · rw [List.getD_eq_getElem?_getD, List.getD_eq_getElem?_getD, List.getElem?_append]
    split
    · rfl
    · rename_i hj
      rw [List.getElem?_eq_none (by omega : c.length ≤ j), List.getElem?_replicate]
      split <;> rfl
  · rfl

theorem getD_length_le {β : Type} {c : List (List β)} {n : Nat} (h : ∀ t ∈ c, t.length ≤ n) (j : Nat) :
    (c.getD j []).length ≤ n := by
  rw [List.getD_eq_getElem?_getD]
  cases hj : c[j]? with
  | none => simp
  | some t => exact h t (List.mem_of_getElem? hj)

theorem TagSetIndex.indexT_le (ix : TagSetIndex) (item : TagSet) {n : Nat} (h : ∀ t ∈ ix, t.length ≤ n) :
    (TagSetIndex.indexT ix item).2 ≤ item.length + n * (item.length + 1) := by
  have hc := getD_length_le h (item.length - 1)
  have hf := findSetT_le (sortAsc item) 0 (ix.getD (item.length - 1) [])
  rw [length_sortAsc] at hf
  have hf' := hf.trans (Nat.mul_le_mul_right _ hc)
  unfold TagSetIndex.indexT
  split
  · simp
  · rename_i h0
    simp only [extendTables_getD]
    unfold TagSetTable.indexT
    rw [if_neg h0]
    simp only
    generalize findSetT (α := UInt8) _ _ _ = x at hf'
    obtain ⟨o, k⟩ := x
    cases o <;> simp only at hf' ⊢ <;> omega

theorem TagSetIndex.indexT_ge (ix : TagSetIndex) (item : TagSet) (h0 : item ≠ [])
    (h : sortAsc item ∉ ix.getD (item.length - 1) []) :
    (ix.getD (item.length - 1) []).length ≤ (TagSetIndex.indexT ix item).2 := by
  have hf := findSetT_ge (sortAsc item) 0 _ h
  have h0 : item.length ≠ 0 := fun e => h0 (List.length_eq_zero_iff.1 e)
  unfold TagSetIndex.indexT
  rw [if_neg h0]
  simp only [extendTables_getD]
  unfold TagSetTable.indexT
  rw [if_neg h0]
  simp only
  generalize findSetT (α := UInt8) _ _ _ = x at hf
  obtain ⟨o, k⟩ := x
  cases o <;> simp only at hf ⊢ <;> omega

theorem VariantsIndex.indexT_le (ix : VariantsIndex) (item : Coll) {n : Nat} (h : ∀ t ∈ ix, t.length ≤ n) :
    (VariantsIndex.indexT ix item).2 ≤ item.length + n * (item.length + 1) := by
  unfold VariantsIndex.indexT
  split
  · simp
  · rename_i h0
    simp only [extendTables_getD, length_sortAsc]
    have hn : (UInt16.ofNat (item.length - 1)).toNat ≤ item.length - 1 := by
      rw [UInt16.toNat_ofNat']; exact Nat.mod_le _ _
    generalize (UInt16.ofNat (item.length - 1)).toNat = col at hn
    have hc := getD_length_le h col
    have hf := findSetT_le (sortAsc (sortAsc item)) 0 (ix.getD col [])
    rw [length_sortAsc, length_sortAsc] at hf
    have hf' := hf.trans (Nat.mul_le_mul_right _ hc)
    unfold VariantsTable.indexT
    rw [if_neg (by rw [length_sortAsc]; exact h0)]
    simp only
    generalize findSetT (α := UInt32) _ _ _ = x at hf'
    obtain ⟨o, k⟩ := x
    cases o <;> simp only at hf' ⊢ <;> omega

/-! ## Asking for readings -/

theorem tagSetsLoopT_le (ix : Index) (c : Coll) :
    (ix.tagSetsLoopT c).2 ≤ ((ix.tagSetsLoop c).map fun s => 1 + s.length).sum := by
  induction c with
  | nil => exact Nat.le_refl _
  | cons id c ih =>
    unfold Index.tagSetsLoopT Index.tagSetsLoop
    cases ix.tagSets.get id with
    | none => simp [List.replicate_succ]
    | some s =>
      simp only [List.map_cons, List.sum_cons, List.length_map]
      omega

end Verif
