import Verif.Lemmas.Layout

/-! # Helper lemmas: loading a file laid out by somebody else -/

namespace Verif

/-- The item of a record. -/
def itemOf (r : NodeRecord) (k : Nat) : Item where
  parent := UInt32.ofNat r.parent
  id := UInt32.ofNat k
  letter := r.letter
  variants := match r.readings with
    | none => 0
    | some (n, i) => combine16 (UInt16.ofNat n) (UInt16.ofNat i)

/-- The index a file stands for, without the maps of children. -/
def FileContents.index (c : FileContents) : Index :=
  { Index.new with
    tags := c.tags.map fun t => { parent := nameIn t.1, name := nameIn t.2 }
    tagSets := c.sets.map fun t => t.map fun s => s.map UInt8.ofNat
    collectionIdx := c.combos.map fun t => t.map fun s => s.map fun e => combine16 (UInt16.ofNat (e.1 - 1)) (UInt16.ofNat e.2)
    items := { items := zeroItem :: (c.nodes.zipIdx 1).map fun e => itemOf e.1 e.2,
               nextID := UInt32.ofNat (c.nodes.length + 1) } }

theorem combine16_ne_zero {n i : Nat} (h1 : 1 ≤ n) (h2 : n < 65536) :
    combine16 (UInt16.ofNat n) (UInt16.ofNat i) ≠ 0 := by
  intro h0
  have := congrArg UInt32.toNat h0
  rw [toNat_combine16, toNat_ofNat16 h2] at this
  have h00 : (0 : UInt32).toNat = 0 := rfl
  omega

theorem recordOf_itemOf {r : NodeRecord} {k : Nat} (hp : r.parent < 4294967296)
    (hr : ∀ n i, r.readings = some (n, i) → 1 ≤ n ∧ n < 65536 ∧ i < 65536) : recordOf (itemOf r k) = r := by
  obtain ⟨p, l, x⟩ := r
  unfold recordOf itemOf
  simp only at hp hr ⊢
  rw [toNat_ofNat32 hp]
  congr 1
  cases x with
  | none => simp
  | some e =>
    obtain ⟨n, i⟩ := e
    obtain ⟨h1, h2, h3⟩ := hr n i rfl
    simp only
    rw [if_neg (combine16_ne_zero h1 h2), upper16_combine16, lower16_combine16, toNat_ofNat16 h2, toNat_ofNat16 h3]

theorem fourBytes_nameIn {b : Str} (h4 : b.length = 4) (hd : b ≠ str "----") :
    FileContents.fourBytes (FileContents.nameIn b) = b := by
  unfold FileContents.nameIn FileContents.fourBytes
  by_cases hs : b = str "    "
  · rw [if_pos hs, if_pos (.inr rfl), hs]
  · rw [if_neg hs, if_neg]
    rintro (rfl | h)
    · cases h4
    · exact hd h

theorem storedName_nameIn {b : Str} (h4 : b.length = 4) :
    storedName (FileContents.nameIn b) = FileContents.nameIn b := by
  have hsp : str "    " = [0x20, 0x20, 0x20, 0x20] := by decide
  unfold FileContents.nameIn storedName
  by_cases hs : b = str "    "
  · rw [if_pos hs, if_neg (by decide)]
  · rw [if_neg hs, if_neg]
    rintro (rfl | h)
    · cases h4
    · exact hs (by rw [h, hsp])

theorem nameIn_length {b : Str} (h4 : b.length = 4) : (FileContents.nameIn b).length = 4 := by
  unfold FileContents.nameIn
  split
  · decide
  · exact h4

variable {c : FileContents}

theorem FileContents.Valid.contents (hv : c.Valid) : contentsOf c.index = c := by
  have e1 : (contentsOf c.index).tags = c.tags := by
    simp only [contentsOf, FileContents.index, List.map_map]
    conv => rhs; rw [← List.map_id c.tags]
    refine List.map_congr_left fun t ht => ?_
    obtain ⟨a, b, x, y⟩ := hv.names t ht
    simp only [Function.comp, fourBytes_nameIn a x, fourBytes_nameIn b y]
    rfl
  have e2 : (contentsOf c.index).sets = c.sets := by
    simp only [contentsOf, FileContents.index, List.map_map]
    conv => rhs; rw [← List.map_id c.sets]
    refine List.map_congr_left fun t ht => ?_
    simp only [Function.comp, List.map_map, id_eq]
    conv => rhs; rw [← List.map_id t]
    refine List.map_congr_left fun s hs => ?_
    simp only [Function.comp, List.map_map, id_eq]
    conv => rhs; rw [← List.map_id s]
    refine List.map_congr_left fun x hx => ?_
    exact toNat_ofNat8 ((hv.sets t ht s hs).2 x hx)
  have e3 : (contentsOf c.index).combos = c.combos := by
    simp only [contentsOf, FileContents.index, List.map_map]
    conv => rhs; rw [← List.map_id c.combos]
    refine List.map_congr_left fun t ht => ?_
    simp only [Function.comp, List.map_map, id_eq]
    conv => rhs; rw [← List.map_id t]
    refine List.map_congr_left fun s hs => ?_
    simp only [Function.comp, List.map_map, id_eq]
    conv => rhs; rw [← List.map_id s]
    refine List.map_congr_left fun e he => ?_
    obtain ⟨h1, h2, h3⟩ := (hv.combos t ht s hs).2 e he
    simp only [Function.comp, upper16_combine16, lower16_combine16, toNat_ofNat16 h3,
      toNat_ofNat16 (show e.1 - 1 < 65536 by omega), Nat.sub_add_cancel h1]
    rfl
  have e4 : (contentsOf c.index).nodes = c.nodes := by
    simp only [contentsOf, FileContents.index]
    rw [toNat_ofNat32 hv.nodes, List.take_succ_cons, List.drop_succ_cons, List.drop_zero,
      List.take_of_length_le (by simp), List.map_map]
    have : (c.nodes.zipIdx 1).map (recordOf ∘ fun e => itemOf e.1 e.2) = (c.nodes.zipIdx 1).map (·.1) := by
      refine List.map_congr_left fun e he => ?_
      have hm := hv.node e.1 (List.fst_mem_of_mem_zipIdx he)
      exact recordOf_itemOf hm.1 hm.2
    rw [this]
    simp
  obtain ⟨a, b, x, y⟩ := c
  show FileContents.mk _ _ _ _ = _
  simp only at e1 e2 e3 e4
  congr 1

theorem FileContents.Valid.limits (hv : c.Valid) : c.index.InLimits where
  tags := by simp only [FileContents.index, List.length_map]; exact hv.tags
  setTables := by simp only [FileContents.index, List.length_map]; exact hv.setTables
  sets := by
    simp only [FileContents.index, List.mem_map]
    rintro _ ⟨t, ht, rfl⟩
    rw [List.length_map]; exact hv.setTable t ht
  setLen := by
    simp only [FileContents.index, List.mem_map]
    rintro _ ⟨t, ht, rfl⟩ s hs
    obtain ⟨s, hs', rfl⟩ := List.mem_map.1 hs
    rw [List.length_map]; exact (hv.sets t ht s hs').1
  collTables := by simp only [FileContents.index, List.length_map]; exact hv.comboTables
  colls := by
    simp only [FileContents.index, List.mem_map]
    rintro _ ⟨t, ht, rfl⟩
    rw [List.length_map]; exact hv.comboTable t ht
  collLen := by
    simp only [FileContents.index, List.mem_map]
    rintro _ ⟨t, ht, rfl⟩ s hs
    obtain ⟨s, hs', rfl⟩ := List.mem_map.1 hs
    rw [List.length_map]; exact (hv.combos t ht s hs').1
  items := by
    simp only [FileContents.index]
    rw [toNat_ofNat32 hv.nodes]
    simp

theorem FileContents.Valid.load (hv : c.Valid) (rest : Str) :
    Index.new.load (c.bytes ++ rest) = .ok (Index.loaded Index.new c.index, rest) := by
  have hn : c.index.NamesOK := by
    intro t ht
    simp only [FileContents.index, List.mem_map] at ht
    obtain ⟨x, hx, rfl⟩ := ht
    have := hv.names x hx
    exact ⟨.inr (nameIn_length this.1), .inr (nameIn_length this.2.1)⟩
  have hb : c.index.save.bytes = c.bytes := by
    rw [Verif.save_bytes hn, hv.contents]
    · simp only [FileContents.index]; rw [toNat_ofNat32 hv.nodes]; omega
    · exact hv.limits.items
    · rfl
    · intro k it hk hit
      simp only [FileContents.index] at hk hit
      rw [toNat_ofNat32 hv.nodes] at hk
      cases k with
      | zero => obtain rfl := Option.some.inj hit; rfl
      | succ k =>
        rw [List.getElem?_cons_succ, List.getElem?_map, List.getElem?_zipIdx] at hit
        have hkl : k < c.nodes.length := by omega
        rw [List.getElem?_eq_getElem hkl] at hit
        simp only [Option.map_some, Option.some.injEq] at hit
        subst hit
        simp only [itemOf]
        rw [toNat_ofNat32 (by have := hv.nodes; omega)]
        omega
  rw [← hb]
  exact RT_load Index.new hv.limits hn rest

theorem loaded_parts (ix : Index) :
    (Index.loaded Index.new ix).tags = ix.tags.map storedTag ∧ (Index.loaded Index.new ix).tagSets = ix.tagSets ∧
    (Index.loaded Index.new ix).collectionIdx = ix.collectionIdx ∧ (Index.loaded Index.new ix).items = ix.items.trim := by
  let start : Index := { Index.new with
    tags := ix.tags.map storedTag, tagSets := ix.tagSets, collectionIdx := ix.collectionIdx,
    items := ix.items.trim }
  obtain ⟨f1, f2, f3, f4, _⟩ := rebuildFold_other ix.items.trim.items.zipIdx (start.getChildrenIDMap 0).1
  exact ⟨f1, f2, f3, f4⟩

theorem FileContents.Valid.tags_eq (hv : c.Valid) :
    (Index.loaded Index.new c.index).tags = c.tags.map fun t => { parent := nameIn t.1, name := nameIn t.2 } := by
  rw [(loaded_parts _).1]
  simp only [FileContents.index, List.map_map]
  refine List.map_congr_left fun t ht => ?_
  have := hv.names t ht
  simp only [Function.comp, storedTag, storedName_nameIn this.1, storedName_nameIn this.2.1]

theorem FileContents.Valid.items_eq (hv : c.Valid) :
    (Index.loaded Index.new c.index).items = c.index.items := by
  rw [(loaded_parts _).2.2.2]
  unfold Items.trim
  have : c.index.items.items.take c.index.items.nextID.toNat = c.index.items.items := by
    apply List.take_of_length_le
    simp only [FileContents.index]
    rw [toNat_ofNat32 hv.nodes]
    simp
  rw [this]

theorem FileContents.Valid.item (hv : c.Valid) {k : Nat} {r : NodeRecord} (hk : c.nodes[k]? = some r) :
    c.index.items.items[k + 1]? = some (itemOf r (k + 1)) ∧ (UInt32.ofNat (k + 1)).toNat = k + 1 ∧
      k + 1 < c.index.items.nextID.toNat := by
  have hlt := (List.getElem?_eq_some_iff.1 hk).1
  refine ⟨?_, toNat_ofNat32 (by have := hv.nodes; omega), ?_⟩
  · simp only [FileContents.index]
    rw [List.getElem?_cons_succ, List.getElem?_map, List.getElem?_zipIdx, hk]
    simp only [Option.map_some, Nat.add_comm]
  · simp only [FileContents.index]
    rw [toNat_ofNat32 hv.nodes]
    omega

/-- The tree of the loaded index. -/
theorem FileContents.Valid.trie (hv : c.Valid) {words : List (List Rune)} (hs : c.SpellsWords words)
    (hnd : words.Nodup) :
    TrieOK (Index.loaded Index.new c.index)
      { nodes := words, words := [], tags := [], readings := [], nul := !(words.contains [0]) } := by
  classical
  let cm : ID → Option IdMap := fun p => some fun l =>
    if h : ∃ x : ID, ∃ w, words[p.toNat]? = some w ∧ words[x.toNat]? = some (w ++ [l]) then some h.choose else none
  let ix0 : Index := { c.index with childrenMap := cm }
  have huniq : ∀ (i j : Nat) w, words[i]? = some w → words[j]? = some w → i = j := by
    intro i j w hi hj
    obtain ⟨hi', hi⟩ := List.getElem?_eq_some_iff.1 hi
    obtain ⟨hj', hj⟩ := List.getElem?_eq_some_iff.1 hj
    exact (List.Nodup.getElem_inj_iff hnd).1 (hi.trans hj.symm)
  have ht : TrieOK ix0 { nodes := words, words := [], tags := [], readings := [], nul := false } := by
    constructor
    · exact hs.root
    · exact hnd
    · show (UInt32.ofNat (c.nodes.length + 1)).toNat = words.length
      rw [toNat_ofNat32 hv.nodes, hs.length]
    · show words.length ≤ _
      rw [hs.length]
      simp [ix0, FileContents.index]
    · rfl
    · intro k h0 hk
      obtain ⟨j, rfl⟩ := Nat.exists_eq_succ_of_ne_zero (show k ≠ 0 by omega)
      have hj : j < c.nodes.length := by have := hs.length; simp only at hk; omega
      have hr := List.getElem?_eq_getElem hj
      obtain ⟨hp, w, hw, hw'⟩ := hs.node j _ hr
      obtain ⟨i1, i2, _⟩ := hv.item hr
      have hpn := (hv.node _ (List.getElem_mem hj)).1
      refine ⟨_, w, i1, i2, ?_, ?_, hw'⟩
      · simp only [itemOf]
        rw [toNat_ofNat32 hpn]
        omega
      · simp only [itemOf]
        rw [toNat_ofNat32 hpn]
        exact hw
    · intro p l x
      have hg : ix0.getChildrenMap p l =
          if h : ∃ x : ID, ∃ w, words[p.toNat]? = some w ∧ words[x.toNat]? = some (w ++ [l]) then some h.choose
          else none := rfl
      rw [hg]
      constructor
      · intro hx
        split at hx
        · rename_i he
          obtain rfl := Option.some.inj hx
          exact .inl he.choose_spec
        · cases hx
      · rintro (⟨w, hw, hx⟩ | ⟨hf, _⟩)
        · have he : ∃ x : ID, ∃ w, words[p.toNat]? = some w ∧ words[x.toNat]? = some (w ++ [l]) := ⟨x, w, hw, hx⟩
          rw [dif_pos he]
          obtain ⟨w', hw', hx'⟩ := he.choose_spec
          rw [hw] at hw'
          obtain rfl := Option.some.inj hw'
          rw [UInt32.toNat_inj.1 (huniq _ _ _ hx' hx)]
        · cases hf
    · intro hf; cases hf
  exact reload_trie ht

theorem mapM_inv {α β : Type} (f : α → Option β) : ∀ (l : List α) (r : List β), l.mapM f = some r →
    l.map f = r.map some := by
  intro l
  induction l with
  | nil => intro r h; rw [List.mapM_nil] at h; obtain rfl := Option.some.inj h; rfl
  | cons a l ih =>
    intro r h
    rw [List.mapM_cons] at h
    cases ha : f a with
    | none => rw [ha] at h; cases h
    | some b =>
      rw [ha] at h
      cases hl : l.mapM f with
      | none => rw [hl] at h; cases h
      | some bs =>
        rw [hl] at h
        obtain rfl := Option.some.inj h
        rw [List.map_cons, ha, ih bs hl]
        rfl

/-- The readings of a node of the loaded index. -/
theorem FileContents.Valid.readings (hv : c.Valid) {k : Nat} (h0 : 0 < k) {L : List (List Nat)} {T : List (List Tag)}
    (hL : c.readingsOf k = some L) (hT : FileContents.Resolve (Index.loaded Index.new c.index).tags L T) :
    (Index.loaded Index.new c.index).tagSetsOf (UInt32.ofNat k) = .ok T := by
  obtain ⟨j, rfl⟩ := Nat.exists_eq_succ_of_ne_zero (show k ≠ 0 by omega)
  unfold FileContents.readingsOf at hL
  simp only [Nat.succ_eq_add_one, Nat.add_sub_cancel] at hL ⊢
  split at hL
  · cases hL
  rename_i r hr
  obtain ⟨i1, i2, i3⟩ := hv.item hr
  have hget : (Index.loaded Index.new c.index).items.get (UInt32.ofNat (j + 1)) = some (itemOf r (j + 1)) := by
    rw [hv.items_eq]
    unfold Items.get
    rw [i2, if_neg (by omega), if_neg (by omega), i1]
  unfold Index.tagSetsOf
  rw [hget]
  simp only
  have hrn := (hv.node r (List.mem_of_getElem? hr)).2
  have hpart := loaded_parts c.index
  -- readings of a combination
  have hloop : ∀ (combo : List (Nat × Nat)) (L : List (List Nat)) (T : List (List Tag)),
      (∀ e ∈ combo, 1 ≤ e.1 ∧ e.1 ≤ 65536 ∧ e.2 < 65536) → combo.mapM c.setAt = some L →
      FileContents.Resolve (Index.loaded Index.new c.index).tags L T →
      (Index.loaded Index.new c.index).tagSetsLoop
        (combo.map fun e => combine16 (UInt16.ofNat (e.1 - 1)) (UInt16.ofNat e.2)) = T := by
    intro combo
    induction combo with
    | nil =>
      intro L T _ hL hT
      rw [List.mapM_nil] at hL
      obtain rfl := Option.some.inj hL
      unfold FileContents.Resolve at hT
      rw [List.mapM_nil] at hT
      obtain rfl := Option.some.inj hT
      rfl
    | cons e combo ih =>
      intro L T hb hL hT
      have hL' := mapM_inv _ _ _ hL
      cases L with
      | nil => cases hL'
      | cons s L =>
        simp only [List.map_cons, List.cons.injEq] at hL'
        have hT' := mapM_inv _ _ _ hT
        cases T with
        | nil => cases hT'
        | cons t T =>
          simp only [List.map_cons, List.cons.injEq] at hT'
          obtain ⟨b1, b2, b3⟩ := hb e (by simp)
          have hset : (Index.loaded Index.new c.index).tagSets.get
              (combine16 (UInt16.ofNat (e.1 - 1)) (UInt16.ofNat e.2)) = some (s.map UInt8.ofNat) := by
            rw [hpart.2.1, TagSetIndex.get_eq]
            have hu := unpackTS_packTS (p := (e.1 - 1, e.2)) (by simp only; omega) b3
            unfold packTS at hu
            rw [hu]
            have h1 := hL'.1
            unfold FileContents.setAt at h1
            unfold gGet
            simp only [FileContents.index]
            rw [List.getD_eq_getElem?_getD, List.getElem?_map]
            rw [List.getD_eq_getElem?_getD] at h1
            cases hc : c.sets[e.1 - 1]? with
            | none => rw [hc] at h1; cases h1
            | some t =>
              rw [hc] at h1
              simp only [Option.map_some, Option.getD_some] at h1 ⊢
              rw [List.getElem?_map, h1]
              rfl
          have hs256 : ∀ x ∈ s, x < 256 := by
            have h1 := hL'.1
            unfold FileContents.setAt at h1
            rw [List.getD_eq_getElem?_getD] at h1
            cases hc : c.sets[e.1 - 1]? with
            | none => rw [hc] at h1; cases h1
            | some t =>
              rw [hc] at h1
              exact (hv.sets t (List.mem_of_getElem? hc) s (List.mem_of_getElem? h1)).2
          rw [List.map_cons, Index.tagSetsLoop, hset]
          simp only
          congr 1
          · have h1 := mapM_inv _ _ _ hT'.1
            have : s.map (fun x => some ((tagsGet (Index.loaded Index.new c.index).tags (UInt8.ofNat x)).getD Index.zeroTag)) =
                t.map some := by
              rw [← h1]
              refine List.map_congr_left fun x hx => ?_
              rw [tagsGet_eq, toNat_ofNat8 (hs256 x hx)]
              have hm : (Index.loaded Index.new c.index).tags[x]? ∈ t.map some := by
                rw [← h1]; exact List.mem_map.2 ⟨x, hx, rfl⟩
              obtain ⟨y, _, hy⟩ := List.mem_map.1 hm
              rw [← hy]; rfl
            rw [List.map_map]
            have h2 : (s.map ((fun t => (tagsGet (Index.loaded Index.new c.index).tags t).getD Index.zeroTag) ∘ UInt8.ofNat)).map
                some = t.map some := by
              rw [List.map_map]; exact this
            exact List.map_injective_iff.2 (Option.some_injective _) h2
          · refine ih L T (fun x hx => hb x (by simp [hx])) ?_ ?_
            · have := mapM_some c.setAt (fun e => (c.setAt e).getD []) combo (fun x hx => by
                have hm : c.setAt x ∈ L.map some := by rw [← hL'.2]; exact List.mem_map.2 ⟨x, hx, rfl⟩
                obtain ⟨y, _, hy⟩ := List.mem_map.1 hm
                rw [← hy]; rfl)
              rw [this]
              congr 1
              have h2 : (combo.map fun e => (c.setAt e).getD []).map some = L.map some := by
                rw [← hL'.2, List.map_map]
                refine List.map_congr_left fun x hx => ?_
                have hm : c.setAt x ∈ L.map some := by rw [← hL'.2]; exact List.mem_map.2 ⟨x, hx, rfl⟩
                obtain ⟨y, _, hy⟩ := List.mem_map.1 hm
                simp only [Function.comp, ← hy, Option.getD_some]
              exact List.map_injective_iff.2 (Option.some_injective _) h2
            · unfold FileContents.Resolve at hT ⊢
              rw [List.mapM_cons, hT'.1] at hT
              cases hx : L.mapM (fun s => s.mapM fun t => (Index.loaded Index.new c.index).tags[t]?) with
              | none => rw [hx] at hT; cases hT
              | some y =>
                rw [hx] at hT
                have := Option.some.inj hT
                rw [(List.cons.inj this).2]
  split at hL
  · rename_i hnone
    obtain rfl := Option.some.inj hL
    have : (itemOf r (j + 1)).variants = 0 := by simp only [itemOf, hnone]
    rw [this]
    unfold FileContents.Resolve at hT
    rw [List.mapM_nil] at hT
    obtain rfl := Option.some.inj hT
    rfl
  · rename_i n i hsome
    obtain ⟨b1, b2, b3⟩ := hrn n i hsome
    have hvar : (itemOf r (j + 1)).variants = packV (n - 1, i) := by
      simp only [itemOf, hsome, packV, Nat.sub_add_cancel b1]
    cases hc : c.combos[n - 1]? with
    | none =>
      rw [List.getD_eq_getElem?_getD, hc] at hL
      cases hL
    | some t =>
      rw [List.getD_eq_getElem?_getD, hc] at hL
      simp only [Option.getD_some] at hL
      cases hci : t[i]? with
      | none => rw [hci] at hL; cases hL
      | some combo =>
        rw [hci, Option.bind_some] at hL
        have hg : gGet (Index.loaded Index.new c.index).collectionIdx (n - 1, i) =
            some (combo.map fun e => combine16 (UInt16.ofNat (e.1 - 1)) (UInt16.ofNat e.2)) := by
          rw [hpart.2.2.1]
          unfold gGet
          simp only [FileContents.index]
          rw [List.getD_eq_getElem?_getD, List.getElem?_map, hc]
          simp only [Option.map_some, Option.getD_some]
          rw [List.getElem?_map, hci]
          rfl
        rw [hvar, VariantsIndex.get_packV _ (by simp only; omega) b3 hg]
        simp only [Out.bind]
        rw [hloop combo L T (hv.combos t (List.mem_of_getElem? hc) combo (List.mem_of_getElem? hci)).2 hL hT]

end Verif
