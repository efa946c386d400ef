import Verif.Spec.SaveWhile
import Verif.Lemmas.Parallel
import Verif.Props.Reload

/-! # Helper lemmas for `Props/SaveWhile.lean` -/

namespace Verif

/-! ## Collections only grow -/

theorem addLoop_colls (rs : List Rune) (o : ID) (ix : Index) (p : ID) :
    (ix.addLoop o p rs).1.collectionIdx = ix.collectionIdx := by
  have step : ∀ (ix : Index) p r ix' c, ix.addStep p r = some (ix', c) → ix'.collectionIdx = ix.collectionIdx := by
    intro ix p r ix' c e
    unfold Index.addStep at e
    simp only at e
    split at e
    · obtain ⟨rfl, _⟩ := Prod.mk.inj (Option.some.inj e); rfl
    · split at e
      · cases e
      · obtain ⟨rfl, _⟩ := Prod.mk.inj (Option.some.inj e); rfl
  induction rs generalizing ix p with
  | nil => rfl
  | cons a rest ih =>
    unfold Index.addLoop
    split
    · rfl
    · split
      · rfl
      · rename_i ix1 next he
        have h1 := step _ _ _ _ _ he
        split
        · exact h1
        · exact (ih ix1 next).trans h1

theorem exec_colls_mono {ix : Index} {d : Dict} (r : Refines ix d) (hc : Caps ix) (op : Op)
    (ho : op ≠ .optimize) (hl : op ≠ .reload) (p : Nat × Nat) (s : Coll)
    (h : gGet ix.collectionIdx p = some s) : gGet (op.exec ix).collectionIdx p = some s := by
  have same : (op.exec ix).collectionIdx = ix.collectionIdx → gGet (op.exec ix).collectionIdx p = some s :=
    fun e => by rw [e]; exact h
  cases op with
  | addRunes rs => exact same (addLoop_colls rs 0 ix 0)
  | addString w =>
    apply same
    simp only [Op.exec, Index.addString]
    split
    · rfl
    · exact addLoop_colls _ 0 ix 0
  | addToNode id rs => exact same (addLoop_colls rs id ix id)
  | fetchFromItem id rs => exact same (fetchFromItem_obs ix id rs).collectionIdx
  | fetchItemFromParent id rs => exact same (fetchItemFromParent_obs ix id rs).collectionIdx
  | fetchRunes rs => exact same (fetchFromItem_obs ix 0 rs).collectionIdx
  | fetchString w => exact same (fetchFromItem_obs ix 0 _).collectionIdx
  | tagID name parent => exact same rfl
  | addTagSet id names =>
    by_cases hn : names.all d.hasTag = true ∧ 0 < id.toNat ∧ id.toNat < d.nodes.length
    · obtain ⟨ids, hids⟩ := all_hasTag_iff.1 hn.1
      obtain ⟨it, w, hg, hit, _⟩ := r.trie.items_get hn.2.1 hn.2.2
      obtain ⟨coll, hcoll, _⟩ := r.tag.vars id.toNat it hn.2.2 hit
      have hlen : coll.length ≤ 65535 := by
        rcases hcoll with ⟨_, rfl⟩ | ⟨q, hq, _⟩
        · simp
        · have := gGet_col_eq r.tag.colls hq
          have := (hc.coll hq).1
          omega
      have hadd : ∀ i, Coll.add coll i ≠ [] ∧ (Coll.add coll i).length ≤ 65536 := by
        intro i
        unfold Coll.add
        split
        · rename_i hh
          refine ⟨?_, by omega⟩
          rintro rfl
          simp [Coll.has] at hh
        · refine ⟨?_, ?_⟩
          · intro he
            have := congrArg List.length he
            simp [length_sortAsc] at this
          · rw [length_sortAsc, List.length_append, List.length_singleton]; omega
      simp only [Op.exec, Index.addTagSet]
      rw [r.tag.tags, hids]
      simp only
      rw [hg]
      simp only
      rw [hcoll.get hc]
      simp only
      rw [VariantsIndex.index_eq _ (hadd _).1 (hadd _).2]
      exact gGet_gIndex_mono h
    · apply same
      simp only [Op.exec]
      rw [r.tag.addTagSet_err r.trie id names hn]
  | optimize => exact absurd rfl ho
  | reload => exact absurd rfl hl

theorem Run.colls_mono {h h' : List Op} {ix ix' : Index} (r : Run h ix) (r' : Run (h ++ h') ix') (ho : OnlyAdds h')
    (p : Nat × Nat) (s : Coll) (hp : gGet ix.collectionIdx p = some s) : gGet ix'.collectionIdx p = some s := by
  induction h' using list_reverse_induction generalizing ix' with
  | nil =>
    rw [List.append_nil] at r'
    rw [r.unique r'] at hp
    exact hp
  | snoc l op ih =>
    rw [← List.append_assoc] at r'
    obtain ⟨ix1, r1, ha, _, rfl⟩ := r'.snoc_inv
    refine exec_colls_mono r1.refines.1 r1.caps op ?_ ?_ p s
      (ih r1 ⟨fun hm => ho.1 (List.mem_append_left _ hm), fun hm => ho.2 (List.mem_append_left _ hm)⟩)
    · rintro rfl; exact ho.1 (by simp)
    · rintro rfl; exact ho.2 (by simp)

/-! ## The moments -/

theorem take_split {α : Type} (l : List α) {i j : Nat} (h : i ≤ j) :
    l.take j = l.take i ++ (l.take j).drop i := by
  conv => lhs; rw [← List.take_append_drop i (l.take j)]
  rw [List.take_take, Nat.min_eq_left h]

theorem OnlyAdds.sub {l l' : List Op} (h : OnlyAdds l) (hs : ∀ x ∈ l', x ∈ l) : OnlyAdds l' :=
  ⟨fun hm => h.1 (hs _ hm), fun hm => h.2 (hs _ hm)⟩

/-- Everything known about two moments of a run that only adds. -/
structure Later (h during : List Op) (i j : Nat) : Prop where
  ri : Run (h ++ during.take i) (momentsOf h during i)
  rj : Run (h ++ during.take j) (momentsOf h during j)
  nodes : (dictOf (h ++ during.take i)).nodes <+: (dictOf (h ++ during.take j)).nodes
  tags : (dictOf (h ++ during.take i)).tags <+: (dictOf (h ++ during.take j)).tags
  sets : ∀ p s, gGet (momentsOf h during i).tagSets p = some s → gGet (momentsOf h during j).tagSets p = some s
  colls : ∀ p s, gGet (momentsOf h during i).collectionIdx p = some s →
    gGet (momentsOf h during j).collectionIdx p = some s

theorem moment_run {h during : List Op} {ix : Index} (r : Run (h ++ during) ix) (i : Nat) :
    Run (h ++ during.take i) (momentsOf h during i) := by
  have e : h ++ during = (h ++ during.take i) ++ during.drop i := by
    rw [List.append_assoc, List.take_append_drop]
  rw [e] at r
  obtain ⟨jx, s⟩ := r.before
  have := s.eq
  subst this
  exact s

theorem moment_later {h during : List Op} {ix : Index} (r : Run (h ++ during) ix) (ho : OnlyAdds during) {i j : Nat}
    (hij : i ≤ j) : Later h during i j := by
  have ri := moment_run r i
  have rj := moment_run r j
  have e : h ++ during.take j = (h ++ during.take i) ++ (during.take j).drop i := by
    rw [List.append_assoc, ← take_split during hij]
  have ho' : OnlyAdds ((during.take j).drop i) :=
    ho.sub fun x hx => List.mem_of_mem_take (List.mem_of_mem_drop hx)
  have rj' := rj
  rw [e] at rj'
  refine ⟨ri, rj, ?_, ?_, ?_, ?_⟩
  · rw [e]; exact dictOf_nodes_prefix _ _
  · rw [e]; exact dictOf_tags_prefix _ _ ho'.2
  · exact ri.tagSets_mono rj'
  · exact ri.colls_mono rj' ho'

/-! ## The tables of the file -/

section
variable {α : Type}

/-- A table put together from several moments. -/
def piecedOf (n : Nat) (tab : Nat → List (List (List α))) : List (List (List α)) :=
  (List.range n).map fun k => (tab k).getD k []

theorem gGet_piecedOf (n : Nat) (tab : Nat → List (List (List α))) (p : Nat × Nat) :
    gGet (piecedOf n tab) p = if p.1 < n then gGet (tab p.1) p else none := by
  unfold gGet piecedOf
  by_cases h : p.1 < n
  · rw [if_pos h]
    congr 1
    rw [List.getD_eq_getElem?_getD, List.getElem?_map, List.getElem?_range h]
    rfl
  · rw [if_neg h]
    rw [List.getD_eq_getElem?_getD, List.getElem?_map,
      show (List.range n)[p.1]? = none from List.getElem?_eq_none (by simpa using h)]
    rfl

theorem mem_piecedOf {n : Nat} {tab : Nat → List (List (List α))} {t : List (List α)} (h : t ∈ piecedOf n tab) :
    t = [] ∨ ∃ k, t ∈ tab k := by
  obtain ⟨k, _, rfl⟩ := List.mem_map.1 h
  by_cases hk : k < (tab k).length
  · right
    refine ⟨k, ?_⟩
    rw [List.getD_eq_getElem?_getD, List.getElem?_eq_getElem hk]
    exact List.getElem_mem hk
  · left
    rw [List.getD_eq_getElem?_getD, List.getElem?_eq_none (by omega)]
    rfl
end

theorem seen_sets (m : Moments) (mom : Nat → Index) :
    (m.seen mom).tagSets = piecedOf (mom m.sets).tagSets.length fun k => (mom (m.set k)).tagSets := rfl

theorem seen_colls (m : Moments) (mom : Nat → Index) :
    (m.seen mom).collectionIdx =
      piecedOf (mom m.colls).collectionIdx.length fun k => (mom (m.coll k)).collectionIdx := rfl

theorem seen_item (m : Moments) (mom : Nat → Index) {k : Nat} (hk : k < (mom m.items).items.items.length) :
    (m.seen mom).items.items[k]? = some ((mom (m.item k)).items.items.getD k zeroItem) := by
  simp only [Moments.seen]
  rw [List.getElem?_map, List.getElem?_range hk]
  rfl

variable {h during : List Op} {m : Moments}

/-- The file has what was there when the tags were read … -/
theorem seen_sets_low {ix : Index} (r : Run (h ++ during) ix) (ho : OnlyAdds during) (hm : m.Ordered)
    (p : Nat × Nat) (s : TagSet) (hp : gGet (momentsOf h during m.tags).tagSets p = some s) :
    gGet (m.seen (momentsOf h during)).tagSets p = some s := by
  rw [seen_sets, gGet_piecedOf]
  have h1 := (moment_later r ho hm.sets).sets p s hp
  rw [if_pos (gGet_col_lt h1)]
  exact (moment_later r ho (hm.set p.1).1).sets p s h1

theorem seen_colls_low {ix : Index} (r : Run (h ++ during) ix) (ho : OnlyAdds during) (hm : m.Ordered)
    (p : Nat × Nat) (s : Coll) (hp : gGet (momentsOf h during m.tags).collectionIdx p = some s) :
    gGet (m.seen (momentsOf h during)).collectionIdx p = some s := by
  rw [seen_colls, gGet_piecedOf]
  have h0 : m.tags ≤ m.colls := by have := hm.set 0; have := hm.sets; omega
  have h1 := (moment_later r ho h0).colls p s hp
  rw [if_pos (gGet_col_lt h1)]
  exact (moment_later r ho (hm.coll p.1).1).colls p s h1

/-- … and nothing that is not there when an item is read. -/
theorem seen_sets_high {ix : Index} (r : Run (h ++ during) ix) (ho : OnlyAdds during) (hm : m.Ordered) (k : Nat)
    (p : Nat × Nat) (s : TagSet) (hp : gGet (m.seen (momentsOf h during)).tagSets p = some s) :
    gGet (momentsOf h during (m.item k)).tagSets p = some s := by
  rw [seen_sets, gGet_piecedOf] at hp
  split at hp
  · have h1 := hm.set p.1
    have h2 := hm.coll 0
    have h3 := hm.item k
    exact (moment_later r ho (by omega)).sets p s hp
  · cases hp

theorem seen_colls_high {ix : Index} (r : Run (h ++ during) ix) (ho : OnlyAdds during) (hm : m.Ordered) (k : Nat)
    (p : Nat × Nat) (s : Coll) (hp : gGet (m.seen (momentsOf h during)).collectionIdx p = some s) :
    gGet (momentsOf h during (m.item k)).collectionIdx p = some s := by
  rw [seen_colls, gGet_piecedOf] at hp
  split at hp
  · have h2 := hm.coll p.1
    have h3 := hm.item k
    exact (moment_later r ho (by omega)).colls p s hp
  · cases hp

/-! ## The nodes of the file -/

theorem seen_trie {ix : Index} (r : Run (h ++ during) ix) (ho : OnlyAdds during) (hm : m.Ordered) :
    TrieOK (m.seen (momentsOf h during)) (dictOf (h ++ during.take m.items)) := by
  have t := (moment_run r m.items).trie
  constructor
  · exact t.root
  · exact t.nodup
  · exact t.next
  · simp only [Moments.seen, List.length_map, List.length_range]; exact t.cap
  · have hpos := t.cap
    have := t.length_pos
    rw [seen_item m _ (by omega), List.getD_eq_getElem?_getD, (moment_run r (m.item 0)).trie.item0]
    rfl
  · intro k h0 hk
    have l := moment_later r ho (hm.item k)
    have hk' : k < (dictOf (h ++ during.take (m.item k))).nodes.length :=
      Nat.lt_of_lt_of_le hk l.nodes.length_le
    obtain ⟨it, w, e1, e2, e3, e4, e5⟩ := l.rj.trie.item k h0 hk'
    have hcap := t.cap
    have back : ∀ i x, i ≤ k → (dictOf (h ++ during.take (m.item k))).nodes[i]? = some x →
        (dictOf (h ++ during.take m.items)).nodes[i]? = some x := by
      intro i x hi hx
      have hlt : i < (dictOf (h ++ during.take m.items)).nodes.length := by omega
      have := prefix_getElem? l.nodes (List.getElem?_eq_getElem hlt)
      rw [hx] at this
      rw [List.getElem?_eq_getElem hlt, ← this]
    refine ⟨it, w, ?_, e2, e3, back _ _ (by omega) e4, back _ _ (Nat.le_refl _) e5⟩
    rw [seen_item m _ (by omega), List.getD_eq_getElem?_getD, e1]
    rfl
  · exact t.child
  · exact t.nul

theorem seen_limits {mom : Nat → Index} (hl : ∀ i, (mom i).InLimits) : (m.seen mom).InLimits := by
  constructor
  · exact (hl m.tags).tags
  · simpa [Moments.seen] using (hl m.sets).setTables
  · intro t ht
    rcases mem_piecedOf ht with rfl | ⟨k, hk⟩
    · simp
    · exact (hl _).sets t hk
  · intro t ht s hs
    rcases mem_piecedOf ht with rfl | ⟨k, hk⟩
    · cases hs
    · exact (hl _).setLen t hk s hs
  · simpa [Moments.seen] using (hl m.colls).collTables
  · intro t ht
    rcases mem_piecedOf ht with rfl | ⟨k, hk⟩
    · simp
    · exact (hl _).colls t hk
  · intro t ht s hs
    rcases mem_piecedOf ht with rfl | ⟨k, hk⟩
    · cases hs
    · exact (hl _).collLen t hk s hs
  · simpa [Moments.seen] using (hl m.items).items

theorem sameWords_of {ix ix' : Index} {d d' : Dict} (r : TrieOK ix d) (r' : TrieOK ix' d') (hn : d'.nodes = d.nodes) :
    SameWords ix ix' := by
  have hj : ∀ (id : ID) (rs w : List Rune), (id ≠ 0 ∨ rs.head? ≠ some 0) →
      d.nodes[id.toNat]? = some w → d'.join w rs = d.join w rs := by
    intro id rs w hz hw
    by_cases hw0 : w = []
    · subst hw0
      have : id = 0 := TrieOK.toNat_eq_zero.1 (r.idx_unique hw r.root)
      rcases hz with hz | hz
      · exact absurd this hz
      · rw [Dict.join_root (.inr hz), Dict.join_root (.inr hz)]
    · rw [Dict.join_of_ne hw0, Dict.join_of_ne hw0]
  have hfetch : ∀ id rs, id ≠ 0 ∨ rs.head? ≠ some 0 →
      (ix'.fetchFromItem id rs).2 = (ix.fetchFromItem id rs).2 :=
    fun id rs hz => fetch_same r r' hn id rs fun w hw => hj id rs w hz hw
  constructor
  · exact hfetch
  · intro id rs hz
    rw [fetchItemFromParent_same r, fetchItemFromParent_same r']
    exact hfetch id rs hz
  · intro id
    unfold Index.get
    rw [r.next, r'.next, hn]
  · intro id
    cases hw : d.nodes[id.toNat]? with
    | none => rw [r.word_none hw, r'.word_none (by rw [hn]; exact hw)]
    | some w => rw [r.word_eq hw, r'.word_eq (by rw [hn]; exact hw)]
  · intro id c hz
    cases hw : d.nodes[id.toNat]? with
    | none => rw [r.children_none hw, r'.children_none (by rw [hn]; exact hw)]
    | some w =>
      have e : d'.join w [c] = d.join w [c] := hj id [c] w (hz.imp_right (by simp)) hw
      cases hcc : ix.getChildrenMap id c with
      | some x =>
        have := (r.child_some hw c x).1 hcc
        exact (r'.child_some (by rw [hn]; exact hw) c x).2 (by rw [hn, e]; exact this)
      | none =>
        have := (r.child_none hw c).1 hcc
        exact (r'.child_none (by rw [hn]; exact hw) c).2 (by rw [hn, e]; exact this)
  · rw [r.nodesCount, r'.nodesCount, hn]

/-! ## What is loaded -/

/-- The loaded index, in terms of what was seen. -/
structure LoadedFrom (s L : Index) : Prop where
  tags : L.tags = s.tags
  sets : L.tagSets = s.tagSets
  colls : L.collectionIdx = s.collectionIdx
  get : ∀ id, L.items.get id = s.items.get id

theorem loadedFrom {s : Index} (hs : s.tags.map storedTag = s.tags) : LoadedFrom s (Index.loaded Index.new s) := by
  have t := rebuildFold_other s.items.trim.items.zipIdx
    ((withSections Index.new (s.tags.map storedTag) s.tagSets s.collectionIdx s.items.trim).getChildrenIDMap 0).1
  refine ⟨t.1.trans hs, t.2.1, t.2.2.1, ?_⟩
  intro id
  have e : (Index.loaded Index.new s).items = s.items.trim := t.2.2.2.1
  rw [e]
  unfold Items.get Items.trim
  simp only
  split
  · rfl
  · split
    · rfl
    · rw [List.getElem?_take, if_pos (by omega)]

theorem saved_load {ix : Index} (r : Run (h ++ during) ix) (ho : OnlyAdds during) (hm : m.Ordered)
    (hl : ∀ i, (momentsOf h during i).InLimits) (ht : PlainTags (momentsOf h during m.tags).tags) :
    (m.save (momentsOf h during)).err = none ∧
    Index.new.load (m.save (momentsOf h during)).bytes = .ok (Index.loaded Index.new (m.seen (momentsOf h during)), []) ∧
    SameWords (momentsOf h during m.items) (Index.loaded Index.new (m.seen (momentsOf h during))) ∧
    LoadedFrom (m.seen (momentsOf h during)) (Index.loaded Index.new (m.seen (momentsOf h during))) := by
  have hn : (m.seen (momentsOf h during)).NamesOK := by
    intro t htm
    have := ht t htm
    exact ⟨.inr this.2.2.1, .inr this.1⟩
  refine ⟨(save_err _).2 hn, ?_, ?_, loadedFrom ht.stored⟩
  · have := RT_load Index.new (seen_limits (m := m) hl) hn []
    rwa [List.append_nil] at this
  · exact sameWords_of (moment_run r m.items).trie (reload_trie (seen_trie r ho hm)) rfl

/-! ## The readings -/

theorem seen_get {ix : Index} (r : Run (h ++ during) ix) (ho : OnlyAdds during) (hm : m.Ordered) (id : ID)
    (h0 : 0 < id.toNat) (h1 : id.toNat < (dictOf (h ++ during.take m.items)).nodes.length) :
    ∃ it, (momentsOf h during (m.item id.toNat)).items.get id = some it ∧
      (momentsOf h during (m.item id.toNat)).items.items[id.toNat]? = some it ∧
      (m.seen (momentsOf h during)).items.get id = some it := by
  have l := moment_later r ho (hm.item id.toNat)
  obtain ⟨it, w, e1, e2, _⟩ := l.rj.trie.items_get h0 (Nat.lt_of_lt_of_le h1 l.nodes.length_le)
  refine ⟨it, e1, e2, ?_⟩
  have hs := (seen_trie r ho hm)
  obtain ⟨it', w', g1, g2, _⟩ := hs.items_get h0 h1
  rw [g1]
  have hcap := (moment_run r m.items).trie.cap
  rw [seen_item m _ (by omega), List.getD_eq_getElem?_getD, e2] at g2
  rw [← g2]; rfl

theorem collGet_cases (c : VariantsIndex) (v : VariantID) :
    c.get v = .panic ∨ ∃ x, c.get v = .ok x := by
  unfold VariantsIndex.get VariantsTable.get
  repeat' split
  all_goals simp

/-- What a word shows in the loaded file: a panic, or the readings it had when its item was read, with parts missing. -/
theorem loaded_sound {ix L : Index} (r : Run (h ++ during) ix) (ho : OnlyAdds during) (hm : m.Ordered)
    (hL : LoadedFrom (m.seen (momentsOf h during)) L) (id : ID) :
    L.tagSetsOf id = .panic ∨ ∃ R R', (momentsOf h during (m.item id.toNat)).tagSetsOf id = .ok R ∧
      L.tagSetsOf id = .ok R' ∧ List.Forall₂ Blanked R' R := by
  by_cases hid : 0 < id.toNat ∧ id.toNat < (dictOf (h ++ during.take m.items)).nodes.length
  swap
  · left
    unfold Index.tagSetsOf
    rw [hL.get, (seen_trie r ho hm).items_get_none hid]
  obtain ⟨it, e1, e2, e3⟩ := seen_get r ho hm id hid.1 hid.2
  set T := m.item id.toNat with hT
  have l := moment_later r ho (hm.item id.toNat)
  have rT := l.rj
  obtain ⟨c, hc, hmem⟩ := rT.tag.vars id.toNat it (Nat.lt_of_lt_of_le hid.2 l.nodes.length_le) e2
  have eR : (momentsOf h during T).tagSetsOf id = .ok ((momentsOf h during T).tagSetsLoop c) := by
    unfold Index.tagSetsOf
    rw [e1]
    simp only
    rw [hc.get rT.caps]
    rfl
  have eL : L.tagSetsOf id = ((m.seen (momentsOf h during)).collectionIdx.get it.variants).bind
      fun coll => .ok (L.tagSetsLoop coll) := by
    unfold Index.tagSetsOf
    rw [hL.get, e3, hL.colls]
  rcases collGet_cases (m.seen (momentsOf h during)).collectionIdx it.variants with hp | ⟨x, hx⟩
  · left; rw [eL, hp]; rfl
  · right
    have hxc : x = c := by
      have h1 := hc.get rT.caps
      rw [VariantsIndex.get_eq_ok_iff] at hx h1
      rcases hx with ⟨a, rfl⟩ | ⟨a, b⟩ <;> rcases h1 with ⟨a', rfl⟩ | ⟨a', b'⟩
      · rfl
      · omega
      · omega
      · have := seen_colls_high r ho hm id.toNat _ _ b
        rw [← hT, b'] at this
        exact (Option.some.inj this).symm
    subst hxc
    refine ⟨_, _, eR, by rw [eL, hx]; rfl, ?_⟩
    have hset : ∀ i s, L.tagSets.get i = some s → (momentsOf h during T).tagSets.get i = some s := by
      intro i s hs
      rw [hL.sets, TagSetIndex.get_eq] at hs
      rw [TagSetIndex.get_eq]
      exact seen_sets_high r ho hm id.toNat _ _ hs
    have htag : ∀ t, (tagsGet L.tags t).getD Index.zeroTag = (tagsGet (momentsOf h during T).tags t).getD Index.zeroTag ∨
        (tagsGet L.tags t).getD Index.zeroTag = Index.zeroTag := by
      intro t
      rw [tagsGet_eq, tagsGet_eq, hL.tags]
      have hT0 : m.tags ≤ T := by
        have := hm.sets; have := hm.set 0; have := hm.coll 0; have := hm.item id.toNat; omega
      have lt := moment_later r ho hT0
      have hpre := lt.tags
      rw [← lt.ri.tag.tags, ← lt.rj.tag.tags] at hpre
      cases hg : (momentsOf h during m.tags).tags[t.toNat]? with
      | none => right; show (Option.getD ((momentsOf h during m.tags).tags[t.toNat]?) _) = _; rw [hg]; rfl
      | some y =>
        left
        rw [prefix_getElem? hpre hg]
        show (Option.getD ((momentsOf h during m.tags).tags[t.toNat]?) _) = _
        rw [hg]
    clear eR eL e3 hx hc hmem
    induction x with
    | nil => exact .nil
    | cons i rest ih =>
      unfold Index.tagSetsLoop
      cases hi : L.tagSets.get i with
      | none =>
        simp only
        have hlen : ∀ (jx : Index) (c : Coll), (jx.tagSetsLoop c).length = c.length := by
          intro jx c
          induction c with
          | nil => rfl
          | cons a b ihb => unfold Index.tagSetsLoop; split <;> simp [ihb]
        have hblank : ∀ (n : Nat) (R : List (List Tag)), R.length = n →
            List.Forall₂ Blanked (List.replicate n []) R := by
          intro n
          induction n with
          | zero => intro R hR; rw [List.length_eq_zero_iff.1 hR]; exact .nil
          | succ n ihn =>
            intro R hR
            cases R with
            | nil => simp at hR
            | cons a b => exact .cons (.inl rfl) (ihn b (by simpa using hR))
        apply hblank
        have := hlen (momentsOf h during T) (i :: rest)
        unfold Index.tagSetsLoop at this
        simpa using this
      | some s =>
        rw [hset i s hi]
        simp only
        refine .cons (.inr ?_) ih
        rw [List.forall₂_map_left_iff, List.forall₂_map_right_iff]
        exact List.forall₂_same.2 fun t _ => htag t

/-- A word nobody tagged between the reading of the tags and the reading of its item shows its readings. -/
theorem loaded_kept {ix L : Index} (r : Run (h ++ during) ix) (ho : OnlyAdds during) (hm : m.Ordered)
    (hL : LoadedFrom (m.seen (momentsOf h during)) L) (id : ID)
    (h0 : 0 < id.toNat) (h1 : id.toNat < (dictOf (h ++ during.take m.items)).nodes.length)
    (hq : ∀ names, Op.addTagSet id names ∉ (during.take (m.item id.toNat)).drop m.tags)
    (hne : [] ∉ (dictOf (h ++ during.take m.tags)).attached id.toNat) :
    L.tagSetsOf id = (momentsOf h during (m.item id.toNat)).tagSetsOf id := by
  obtain ⟨it, e1, e2, e3⟩ := seen_get r ho hm id h0 h1
  set T := m.item id.toNat with hT
  have l := moment_later r ho (hm.item id.toNat)
  have rT := l.rj
  have hT0 : m.tags ≤ T := by
    have := hm.sets; have := hm.set 0; have := hm.coll 0; have := hm.item id.toNat; omega
  have lt := moment_later r ho hT0
  have hTn : id.toNat < (dictOf (h ++ during.take T)).nodes.length := Nat.lt_of_lt_of_le h1 l.nodes.length_le
  have hatt : (dictOf (h ++ during.take T)).attached id.toNat = (dictOf (h ++ during.take m.tags)).attached id.toNat := by
    have := attached_untouched (h ++ during.take m.tags) ((during.take T).drop m.tags) id hq
    rwa [List.append_assoc, ← take_split during hT0] at this
  obtain ⟨c, hc, hmem⟩ := rT.tag.vars id.toNat it hTn e2
  have eL : L.tagSetsOf id = ((m.seen (momentsOf h during)).collectionIdx.get it.variants).bind
      fun coll => .ok (L.tagSetsLoop coll) := by
    unfold Index.tagSetsOf
    rw [hL.get, e3, hL.colls]
  have eT : (momentsOf h during T).tagSetsOf id = .ok ((momentsOf h during T).tagSetsLoop c) := by
    unfold Index.tagSetsOf
    rw [e1]
    simp only
    rw [hc.get rT.caps]
    rfl
  by_cases hold : id.toNat < (dictOf (h ++ during.take m.tags)).nodes.length
  swap
  · -- a new word without readings
    have hc0 : c = [] := by
      cases c with
      | nil => rfl
      | cons a b =>
        obtain ⟨names, hn, _⟩ := (hmem a).1 (by simp)
        rw [← mem_attached, hatt, mem_attached] at hn
        exact absurd (lt.ri.tag.readings _ _ hn).2.1 hold
    subst hc0
    have hv := (hc.zero_iff rT.caps rT.tag.colls).2 rfl
    rw [eL, eT, hv]
    rfl
  · obtain ⟨it0, _, _, hit0, _⟩ := lt.ri.trie.items_get h0 hold
    obtain ⟨c0, hc0, hmem0⟩ := lt.ri.tag.vars id.toNat it0 hold hit0
    have mono : ∀ names i, TSId (dictOf (h ++ during.take m.tags)).tags (momentsOf h during m.tags).tagSets names i →
        TSId (dictOf (h ++ during.take T)).tags (momentsOf h during T).tagSets names i := by
      rintro names i ⟨ids, g1, g2⟩
      have g1' : Index.findAll (dictOf (h ++ during.take T)).tags names = .ok ids := by
        obtain ⟨e, he⟩ := lt.tags
        rw [← he]
        clear he g2
        induction e using list_reverse_induction with
        | nil => rw [List.append_nil]; exact g1
        | snoc e t ih => rw [← List.append_assoc]; exact findAll_append t ih
      refine ⟨ids, g1', ?_⟩
      rcases g2 with g2 | ⟨g0, p, hp, rfl⟩
      · exact .inl g2
      · exact .inr ⟨g0, p, lt.sets p _ hp, rfl⟩
    have nodupOf : ∀ {jx : Index} {d : Dict} {v : VariantID} {x : Coll}, TagOK jx d → CollOf jx.collectionIdx v x →
        x.Nodup := by
      rintro jx d v x ok (⟨_, rfl⟩ | ⟨p, hp, _⟩)
      · exact List.nodup_nil
      · exact ok.collNodup p x hp
    have hcc : c = c0 := eq_of_sorted_nodup (hc.sorted rT.tag.colls) (hc0.sorted lt.ri.tag.colls) (nodupOf rT.tag hc)
        (nodupOf lt.ri.tag hc0) fun i => by
      rw [hmem, hmem0]
      constructor
      · rintro ⟨names, hna, hts⟩
        rw [← mem_attached, hatt, mem_attached] at hna
        refine ⟨names, hna, ?_⟩
        obtain ⟨_, _, j, hj⟩ := lt.ri.tag.readings _ names hna
        rwa [TSId.unique rT.tag.sets hts (mono names j hj)]
      · rintro ⟨names, hna, hts⟩
        refine ⟨names, ?_, mono names i hts⟩
        rw [← mem_attached, hatt, mem_attached]
        exact hna
    subst hcc
    have hget : (m.seen (momentsOf h during)).collectionIdx.get it.variants = .ok c := by
      rcases hc0 with ⟨g0, rfl⟩ | ⟨p, hp, g⟩
      · rw [(hc.zero_iff rT.caps rT.tag.colls).2 rfl]; rfl
      · rcases hc with ⟨_, rfl⟩ | ⟨q, hq', g'⟩
        · have := (gGet_sorted lt.ri.tag.colls hp).2
          simp at this
        · have hpq := gGet_inj rT.tag.colls (lt.colls p _ hp) hq'
          subst hpq
          rw [g']
          exact VariantsIndex.get_packV _ (lt.ri.caps.coll hp).1 (lt.ri.caps.coll hp).2 (seen_colls_low r ho hm p _ hp)
    rw [eL, eT, hget]
    show Out.ok _ = Out.ok _
    congr 1
    have hg : ∀ i ∈ c, ∃ s, L.tagSets.get i = some s ∧ (momentsOf h during T).tagSets.get i = some s ∧
        ∀ t ∈ s, t.toNat < (dictOf (h ++ during.take m.tags)).tags.length := by
      intro i hi
      obtain ⟨names, hna, hts⟩ := (hmem0 i).1 hi
      rw [← mem_attached] at hna
      have hnn : names ≠ [] := by rintro rfl; exact hne hna
      obtain ⟨ids, p, g1, g2, rfl, g4⟩ := hts.get lt.ri.caps hnn
      refine ⟨sortAsc ids, ?_, ?_, ?_⟩
      · rw [hL.sets, TagSetIndex.get_eq, unpackTS_packTS (lt.ri.caps.set g2).1 (lt.ri.caps.set g2).2]
        exact seen_sets_low r ho hm _ _ g2
      · rw [TagSetIndex.get_eq, unpackTS_packTS (lt.ri.caps.set g2).1 (lt.ri.caps.set g2).2]
        exact lt.sets _ _ g2
      · intro t htm
        exact findAll_lt lt.ri.tag.names lt.ri.refines.2.tags g1 t (mem_sortAsc.1 htm)
    rw [tagSetsLoop_map, tagSetsLoop_map]
    · apply List.map_congr_left
      intro i hi
      obtain ⟨s, a1, a2, a3⟩ := hg i hi
      unfold entryOf
      rw [a1, a2]
      simp only [Option.getD_some]
      apply List.map_congr_left
      intro t htm
      unfold tagOf
      rw [tagsGet_eq, tagsGet_eq, hL.tags, rT.tag.tags]
      have hlt := a3 t htm
      rw [prefix_getElem? lt.tags (List.getElem?_eq_getElem hlt), ← List.getElem?_eq_getElem hlt, ← lt.ri.tag.tags]
      rfl
    · intro i hi; obtain ⟨s, _, a2, _⟩ := hg i hi; rw [a2]; rfl
    · intro i hi; obtain ⟨s, a1, _⟩ := hg i hi; rw [a1]; rfl

end Verif
