import Verif.Lemmas.SaveWhile
import Verif.Lemmas.OptimizeWhen
import Verif.Lemmas.Parallel
import Verif.Spec.SaveWhile

/-! # Helper lemmas: what exactly a file saved among other goroutines shows -/

namespace Verif

theorem parts_packV {p : Nat × Nat} (h1 : p.1 < 65535) (h2 : p.2 < 65536) :
    (upper16 (packV p)).toNat = p.1 + 1 ∧ (lower16 (packV p)).toNat = p.2 := by
  unfold packV
  rw [upper16_combine16, lower16_combine16, toNat_ofNat16 (by omega), toNat_ofNat16 h2]
  exact ⟨rfl, rfl⟩

/-- No reading without tags was attached. -/
theorem no_empty {l : List Op} (hne : ∀ i, Op.addTagSet i [] ∉ l) : ∀ k names, names ∈ (dictOf l).attached k → names ≠ [] := by
  induction l using list_reverse_induction with
  | nil => intro k names hk; rw [mem_attached] at hk; cases hk
  | snoc l op ih =>
    intro k names hk
    have ih := ih fun i hm => hne i (List.mem_append_left _ hm)
    rw [mem_attached, dictOf_append] at hk
    rcases Op.spec_readings (dictOf l) op with e | ⟨i, ns, rfl, e⟩
    · rw [e, ← mem_attached] at hk
      exact ih k names hk
    · rw [e] at hk
      rcases List.mem_append.1 hk with hk | hk
      · rw [← mem_attached] at hk
        exact ih k names hk
      · obtain ⟨rfl, rfl⟩ := Prod.mk.inj (List.mem_singleton.1 hk)
        rintro rfl
        exact hne i (by simp)

theorem Run.same_id_perm {h : List Op} {ix : Index} (r : Run h ix) {a b : List Str} (ha : a ≠ []) (hb : b ≠ []) {i : TagSetID}
    (h1 : TSId (dictOf h).tags ix.tagSets a i) (h2 : TSId (dictOf h).tags ix.tagSets b i) : a.Perm b := by
  have := (r.same_id h1 h2).1 rfl
  unfold Dict.kept at this
  rwa [if_neg ha, if_neg hb] at this

section
variable {h during : List Op}

/-- The combination of a word is in the tables of an earlier moment exactly if it was combined by then. -/
theorem combined_iff {ix : Index} (r : Run (h ++ during) ix) (ho : OnlyAdds during) {i j : Nat} (hij : i ≤ j)
    (hne : ∀ k, Op.addTagSet k [] ∉ h ++ during) {k : Nat} {p : Nat × Nat} {c : Coll}
    (hp : gGet (momentsOf h during j).collectionIdx p = some c)
    (hm : ∀ x, x ∈ c ↔ ∃ n, (k, n) ∈ (dictOf (h ++ during.take j)).readings ∧
      TSId (dictOf (h ++ during.take j)).tags (momentsOf h during j).tagSets n x) :
    gGet (momentsOf h during i).collectionIdx p = some c ↔
      CombinedBy (h ++ during.take i) ((dictOf (h ++ during.take j)).attached k) := by
  have l := moment_later r ho hij
  have rj := l.rj
  have e : h ++ during.take j = (h ++ during.take i) ++ (during.take j).drop i := by
    rw [List.append_assoc, ← take_split during hij]
  have hsubj : ∀ n, Op.addTagSet n [] ∉ h ++ during.take j := fun n hx => by
    rcases List.mem_append.1 hx with hx | hx
    · exact hne n (List.mem_append_left _ hx)
    · exact hne n (List.mem_append_right _ (List.mem_of_mem_take hx))
  have hj0 := no_empty hsubj
  have mono : ∀ n x, TSId (dictOf (h ++ during.take i)).tags (momentsOf h during i).tagSets n x →
      TSId (dictOf (h ++ during.take j)).tags (momentsOf h during j).tagSets n x := by
    intro n x hx
    have rj' := rj
    rw [e] at rj'
    have := l.ri.tsid_mono rj' hx
    rwa [← e] at this
  constructor
  · intro hg
    obtain ⟨q, t, eq, ht, k', hm'⟩ := l.ri.combined p c hg
    refine ⟨q, t, eq, ht, k', ?_⟩
    have pre : ∀ n ∈ (dictOf q).attached k', (k', n) ∈ (dictOf (h ++ during.take i)).readings := by
      intro n hn
      rw [eq]
      exact (dictOf_readings_prefix q t).subset (mem_attached.1 hn)
    have hq0 : ∀ n ∈ (dictOf q).attached k', n ≠ [] := by
      intro n hn
      refine hj0 k' n (mem_attached.2 ?_)
      rw [e]
      exact (dictOf_readings_prefix _ _).subset (pre n hn)
    constructor
    · intro a ha
      obtain ⟨_, _, x, hx⟩ := l.ri.tag.readings k' a (pre a ha)
      obtain ⟨b, hb, hx'⟩ := (hm x).1 ((hm' x).2 ⟨a, ha, hx⟩)
      have hb' := mem_attached.2 hb
      exact ⟨b, hb', rj.same_id_perm (hq0 a ha) (hj0 k b hb') (mono a x hx) hx'⟩
    · intro b hb
      obtain ⟨_, _, x, hx⟩ := rj.tag.readings k b (mem_attached.1 hb)
      obtain ⟨a, ha, hx'⟩ := (hm' x).1 ((hm x).2 ⟨b, mem_attached.1 hb, hx⟩)
      exact ⟨a, ha, rj.same_id_perm (hq0 a ha) (hj0 k b hb) (mono a x hx') hx⟩
  · rintro ⟨q, t, eq, ht, k', hs⟩
    have ri := l.ri
    have ri' := ri
    rw [eq] at ri'
    obtain ⟨qx, rq⟩ := ri'.before
    have monoq : ∀ n x, TSId (dictOf q).tags qx.tagSets n x →
        TSId (dictOf (h ++ during.take i)).tags (momentsOf h during i).tagSets n x := by
      intro n x hx
      have := rq.tsid_mono ri' hx
      rwa [← eq] at this
    obtain ⟨x0, hx0⟩ : ∃ x, x ∈ c := by
      have := (gGet_sorted rj.tag.colls hp).2
      cases c with
      | nil => simp at this
      | cons a _ => exact ⟨a, by simp⟩
    obtain ⟨b0, hb0, _⟩ := (hm x0).1 hx0
    obtain ⟨a0, ha0, _⟩ := hs.2 b0 (mem_attached.2 hb0)
    obtain ⟨hk0, hk1, _⟩ := rq.tag.readings k' a0 (mem_attached.1 ha0)
    have hcap := rq.trie.cap
    have hlt : k' < qx.items.items.length := by omega
    obtain ⟨c', hc', hmq⟩ := rq.tag.vars k' _ hk1 (List.getElem?_eq_getElem hlt)
    have hcne : c' ≠ [] := by
      obtain ⟨_, _, x, hx⟩ := rq.tag.readings k' a0 (mem_attached.1 ha0)
      exact List.ne_nil_of_mem ((hmq x).2 ⟨a0, mem_attached.1 ha0, hx⟩)
    rcases hc' with ⟨_, h0⟩ | ⟨p', hp', _⟩
    · exact absurd h0 hcne
    · have g1 : gGet (momentsOf h during i).collectionIdx p' = some c' := rq.keeps_colls ri' ht p' c' hp'
      have g2 := l.colls p' c' g1
      have hlen : (dictOf (h ++ during.take j)).tags.length ≤ 256 := rj.refines.2.tags
      have hcc : c' = c := eq_of_sorted_nodup (gGet_sorted rj.tag.colls g2).1 (gGet_sorted rj.tag.colls hp).1
          (rj.tag.collNodup _ _ g2) (rj.tag.collNodup _ _ hp) fun x => by
        rw [hmq, hm]
        constructor
        · rintro ⟨a, ha, hx⟩
          obtain ⟨b, hb, hab⟩ := hs.1 a (mem_attached.2 ha)
          exact ⟨b, mem_attached.1 hb, (mono a x (monoq a x hx)).perm rj.tag.names hlen hab⟩
        · rintro ⟨b, hb, hx⟩
          obtain ⟨a, ha, hab⟩ := hs.2 b (mem_attached.2 hb)
          refine ⟨a, mem_attached.1 ha, ?_⟩
          obtain ⟨_, _, y, hy⟩ := rq.tag.readings k' a (mem_attached.1 ha)
          rwa [((hx.perm rj.tag.names hlen hab.symm)).unique rj.tag.sets (mono a y (monoq a y hy))]
      subst hcc
      rw [← gGet_inj rj.tag.colls g2 hp]
      exact g1

/-- A reading is in the tables of an earlier moment exactly if it was attached by then. -/
theorem attached_iff {ix : Index} (r : Run (h ++ during) ix) (ho : OnlyAdds during) {i j : Nat} (hij : i ≤ j)
    {names : List Str} (hnn : names ≠ []) {p : Nat × Nat} {ids : TagSet}
    (hf : Index.findAll (dictOf (h ++ during.take j)).tags names = .ok ids)
    (hp : gGet (momentsOf h during j).tagSets p = some (sortAsc ids)) :
    gGet (momentsOf h during i).tagSets p = some (sortAsc ids) ↔ AttachedBy (h ++ during.take i) names := by
  have l := moment_later r ho hij
  have rj := l.rj
  have e : h ++ during.take j = (h ++ during.take i) ++ (during.take j).drop i := by
    rw [List.append_assoc, ← take_split during hij]
  have hlen : (dictOf (h ++ during.take j)).tags.length ≤ 256 := rj.refines.2.tags
  have hfm : ∀ n x, Index.findAll (dictOf (h ++ during.take i)).tags n = .ok x →
      Index.findAll (dictOf (h ++ during.take j)).tags n = .ok x := by
    intro n x hx
    rw [findAll_ok] at hx ⊢
    rw [e]
    have rj' := rj
    rw [e] at rj'
    exact hx.imp fun a b hab => rj'.find_mono _ _ hab
  constructor
  · intro hg
    obtain ⟨⟨k, n⟩, hn, ids', h1, h2⟩ := l.ri.stored.1 p _ hg
    exact ⟨k, n, mem_attached.2 hn, (findAll_perm rj.tag.names hlen (hfm n ids' h1) hf).1 (sortAsc_eq_iff_perm.1 h2.symm)⟩
  · rintro ⟨k, n, hn, hperm⟩
    obtain ⟨_, _, x, ids', h1, h2⟩ := l.ri.tag.readings k n (mem_attached.1 hn)
    have hs : sortAsc ids' = sortAsc ids :=
      sortAsc_eq_iff_perm.2 ((findAll_perm rj.tag.names hlen (hfm n ids' h1) hf).2 hperm)
    rcases h2 with ⟨h2, _⟩ | ⟨_, p', hp', _⟩
    · subst h2
      have hn0 : n = [] := by
        rw [findAll_ok] at h1
        cases h1
        rfl
      exact absurd (List.nil_perm.1 (hn0 ▸ hperm)) hnn
    · rw [hs] at hp'
      rw [← gGet_inj rj.tag.sets (l.sets _ _ hp') hp]
      exact hp'

/-- A tag of a reading is in the registry of an earlier moment exactly if its name is. -/
theorem tag_iff {ix : Index} (r : Run (h ++ during) ix) (ho : OnlyAdds during) {i j : Nat} (hij : i ≤ j)
    {names : List Str} {ids : TagSet} (hf : Index.findAll (dictOf (h ++ during.take j)).tags names = .ok ids) :
    (∀ t ∈ ids, t.toNat < (dictOf (h ++ during.take i)).tags.length) ↔
      ∀ x ∈ names, ∃ y ∈ (dictOf (h ++ during.take i)).tags, y.name = x := by
  have l := moment_later r ho hij
  have hlen : (dictOf (h ++ during.take j)).tags.length ≤ 256 := l.rj.refines.2.tags
  have one : ∀ x t, tagsFind (dictOf (h ++ during.take j)).tags x = some t →
      (t.toNat < (dictOf (h ++ during.take i)).tags.length ↔ ∃ y ∈ (dictOf (h ++ during.take i)).tags, y.name = x) := by
    intro x t ht
    obtain ⟨y, hy, hyn⟩ := (tagsFind_some l.rj.tag.names hlen).1 ht
    constructor
    · intro hlt
      have := prefix_getElem? l.tags (List.getElem?_eq_getElem hlt)
      rw [this] at hy
      exact ⟨y, Option.some.inj hy ▸ List.getElem_mem hlt, hyn⟩
    · rintro ⟨z, hz, hzn⟩
      obtain ⟨a, ha⟩ := List.getElem?_of_mem hz
      have ha' := prefix_getElem? l.tags ha
      have : a = t.toNat := by
        refine nodup_getElem?_inj l.rj.tag.names (x := x) ?_ ?_
        · rw [List.getElem?_map, ha']; exact congrArg some hzn
        · rw [List.getElem?_map, hy]; exact congrArg some hyn
      rw [← this]
      exact (List.getElem?_eq_some_iff.1 ha).1
  rw [findAll_ok] at hf
  induction hf with
  | nil => simp
  | cons h1 _ ih =>
    simp only [List.mem_cons, forall_eq_or_imp]
    exact and_congr (one _ _ h1) ih

theorem loop_eq_iff {L K : Index} {c : Coll}
    (hset : ∀ i ∈ c, ∃ s, s ≠ [] ∧ K.tagSets.get i = some s ∧ (L.tagSets.get i = none ∨ L.tagSets.get i = some s)) :
    L.tagSetsLoop c = K.tagSetsLoop c ↔ ∀ i ∈ c, ∃ s, K.tagSets.get i = some s ∧ L.tagSets.get i = some s ∧
      ∀ t ∈ s, (tagsGet L.tags t).getD Index.zeroTag = (tagsGet K.tags t).getD Index.zeroTag := by
  induction c with
  | nil => simp [Index.tagSetsLoop]
  | cons i c ih =>
    have ih := ih fun j hj => hset j (by simp [hj])
    obtain ⟨s, h0, hK, hL⟩ := hset i (by simp)
    unfold Index.tagSetsLoop
    rw [hK]
    rcases hL with hL | hL
    · rw [hL]
      constructor
      · intro he
        simp only [List.replicate_succ] at he
        have := (List.cons.inj he).1
        exact absurd (List.map_eq_nil_iff.1 this.symm) h0
      · intro ha
        obtain ⟨_, _, h2, _⟩ := ha i (by simp)
        rw [hL] at h2; cases h2
    · rw [hL]
      simp only [List.mem_cons, forall_eq_or_imp, List.cons.injEq, List.map_inj_left]
      rw [ih, hK, hL]
      refine and_congr_left fun _ => ?_
      constructor
      · intro ht; exact ⟨s, rfl, rfl, ht⟩
      · rintro ⟨s', h1, _, ht⟩
        obtain rfl := Option.some.inj h1
        exact ht

variable {m : Moments}

theorem seen_colls_one (hg : m.OneGo) (mom : Nat → Index) (p : Nat × Nat) :
    gGet (m.seen mom).collectionIdx p = gGet (mom m.colls).collectionIdx p := by
  rw [seen_colls, gGet_piecedOf, (hg p.1).2]
  split
  · rfl
  · rename_i hlt
    cases hx : gGet (mom m.colls).collectionIdx p with
    | none => rfl
    | some s => exact absurd (gGet_col_lt hx) hlt

theorem seen_sets_one (hg : m.OneGo) (mom : Nat → Index) (p : Nat × Nat) :
    gGet (m.seen mom).tagSets p = gGet (mom m.sets).tagSets p := by
  rw [seen_sets, gGet_piecedOf, (hg p.1).1]
  split
  · rfl
  · rename_i hlt
    cases hx : gGet (mom m.sets).tagSets p with
    | none => rfl
    | some s => exact absurd (gGet_col_lt hx) hlt

/-- What a word shows, exactly. -/
theorem loaded_exact {ix L : Index} (r : Run (h ++ during) ix) (ho : OnlyAdds during) (hm : m.Ordered) (hg : m.OneGo)
    (hL : LoadedFrom (m.seen (momentsOf h during)) L) (hne : ∀ k, Op.addTagSet k [] ∉ h ++ during) (id : ID)
    (h0 : 0 < id.toNat) (h1 : id.toNat < (dictOf (h ++ during.take m.items)).nodes.length)
    {T : Nat} (hT : m.item id.toNat = T) {A : List (List Str)}
    (hA : (dictOf (h ++ during.take T)).attached id.toNat = A) :
    (L.tagSetsOf id = .panic ↔ A ≠ [] ∧ ¬ CombinedBy (h ++ during.take m.colls) A) ∧
    (L.tagSetsOf id = (momentsOf h during T).tagSetsOf id ↔ A = [] ∨ (CombinedBy (h ++ during.take m.colls) A ∧
      ∀ names ∈ A, AttachedBy (h ++ during.take m.sets) names ∧
        ∀ x ∈ names, ∃ y ∈ (dictOf (h ++ during.take m.tags)).tags, y.name = x)) := by
  obtain ⟨it, e1, e2, e3⟩ := seen_get r ho hm id h0 h1
  rw [hT] at e1 e2
  have l := moment_later r ho (hm.item id.toNat)
  rw [hT] at l
  have rT := l.rj
  have o1 := hm.sets
  have o2 := hm.set 0
  have o3 := hm.coll 0
  have o4 := hm.item id.toNat
  rw [hT] at o4
  have hnT : ∀ k names, names ∈ (dictOf (h ++ during.take T)).attached k → names ≠ [] := no_empty fun n hx => by
    rcases List.mem_append.1 hx with hx | hx
    · exact hne n (List.mem_append_left _ hx)
    · exact hne n (List.mem_append_right _ (List.mem_of_mem_take hx))
  obtain ⟨c, hc, hmem⟩ := rT.tag.vars id.toNat it (Nat.lt_of_lt_of_le h1 l.nodes.length_le) e2
  have eT : (momentsOf h during T).tagSetsOf id = .ok ((momentsOf h during T).tagSetsLoop c) := by
    unfold Index.tagSetsOf
    rw [e1]
    simp only
    rw [hc.get rT.caps]
    rfl
  have eL : L.tagSetsOf id = ((m.seen (momentsOf h during)).collectionIdx.get it.variants).bind
      fun coll => .ok (L.tagSetsLoop coll) := by
    unfold Index.tagSetsOf
    rw [hL.get, e3, hL.colls]
  have hcA : c = [] ↔ A = [] := by
    constructor
    · rintro rfl
      rw [← hA]
      cases hx : (dictOf (h ++ during.take T)).attached id.toNat with
      | nil => rfl
      | cons n rest =>
        have hn : n ∈ (dictOf (h ++ during.take T)).attached id.toNat := by rw [hx]; simp
        obtain ⟨_, _, i, hi⟩ := rT.tag.readings _ _ (mem_attached.1 hn)
        exact absurd ((hmem i).2 ⟨n, mem_attached.1 hn, hi⟩) (by simp)
    · rintro rfl
      cases c with
      | nil => rfl
      | cons i rest =>
        obtain ⟨n, hn, _⟩ := (hmem i).1 (by simp)
        rw [← mem_attached, hA] at hn
        cases hn
  rcases hc with ⟨hv, hc0⟩ | ⟨p, hp, hv⟩
  · have hA0 := hcA.1 hc0
    subst hA0 hc0
    have : L.tagSetsOf id = .ok [] := by rw [eL, hv]; rfl
    rw [this, eT]
    simp [Index.tagSetsLoop]
  · have hcne : c ≠ [] := by
      rintro rfl
      have := (gGet_sorted rT.tag.colls hp).2
      simp at this
    have hAne : A ≠ [] := fun hx => hcne (hcA.2 hx)
    have hcomb := combined_iff r ho (show m.colls ≤ T by omega) hne hp hmem
    rw [hA] at hcomb
    have hb := rT.caps.coll hp
    by_cases hC : CombinedBy (h ++ during.take m.colls) A
    swap
    · have hnone : gGet (m.seen (momentsOf h during)).collectionIdx p = none := by
        rw [seen_colls_one hg]
        cases hx : gGet (momentsOf h during m.colls).collectionIdx p with
        | none => rfl
        | some c' =>
          have := (moment_later r ho (show m.colls ≤ T by omega)).colls p c' hx
          rw [hp] at this
          obtain rfl := Option.some.inj this
          exact absurd (hcomb.1 hx) hC
      have hpan : L.tagSetsOf id = .panic := by
        rw [eL, hv]
        rcases collGet_cases (m.seen (momentsOf h during)).collectionIdx (packV p) with h2 | ⟨x, h2⟩
        · rw [h2]; rfl
        · rw [VariantsIndex.get_eq_ok_iff] at h2
          have hu := parts_packV hb.1 hb.2
          rcases h2 with ⟨a, _⟩ | ⟨_, a⟩
          · have := hu.1; omega
          · rw [hu.1, hu.2, Nat.add_sub_cancel, hnone] at a; cases a
      rw [hpan, eT]
      exact ⟨⟨fun _ => ⟨hAne, hC⟩, fun _ => rfl⟩, ⟨fun h => (by cases h), fun h => by
        rcases h with h | h
        · exact absurd h hAne
        · exact absurd h.1 hC⟩⟩
    · have hget : (m.seen (momentsOf h during)).collectionIdx.get it.variants = .ok c := by
        rw [hv]
        exact VariantsIndex.get_packV _ hb.1 hb.2 (by rw [seen_colls_one hg]; exact hcomb.2 hC)
      have hok : L.tagSetsOf id = .ok (L.tagSetsLoop c) := by rw [eL, hget]; rfl
      rw [hok, eT]
      refine ⟨⟨fun h => (by cases h), fun h => absurd hC h.2⟩, ?_⟩
      rw [Out.ok.injEq]
      -- one reading
      have lts := moment_later r ho (show m.sets ≤ T by omega)
      have ltt := moment_later r ho (show m.tags ≤ T by omega)
      have hread : ∀ i ∈ c, ∃ names ∈ A, ∃ ids q, Index.findAll (dictOf (h ++ during.take T)).tags names = .ok ids ∧
          names ≠ [] ∧ gGet (momentsOf h during T).tagSets q = some (sortAsc ids) ∧ i = packTS q ∧
          (momentsOf h during T).tagSets.get i = some (sortAsc ids) := by
        intro i hi
        obtain ⟨names, hn, hts⟩ := (hmem i).1 hi
        have hn' := mem_attached.2 hn
        have hnn := hnT _ _ hn'
        obtain ⟨ids, q, g1, g2, g3, g4⟩ := hts.get rT.caps hnn
        exact ⟨names, by rw [← hA]; exact hn', ids, q, g1, hnn, g2, g3, g4⟩
      have hLget : ∀ q s, gGet (momentsOf h during T).tagSets q = some s →
          L.tagSets.get (packTS q) = gGet (momentsOf h during m.sets).tagSets q := by
        intro q s hq
        have hb := rT.caps.set hq
        rw [hL.sets, TagSetIndex.get_eq, unpackTS_packTS hb.1 hb.2, seen_sets_one hg]
      have hLcases : ∀ q s, gGet (momentsOf h during T).tagSets q = some s →
          L.tagSets.get (packTS q) = none ∨ L.tagSets.get (packTS q) = some s := by
        intro q s hq
        rw [hLget q s hq]
        cases hx : gGet (momentsOf h during m.sets).tagSets q with
        | none => exact .inl rfl
        | some s' => right; rw [← hq]; exact (lts.sets q s' hx).symm
      have htag : ∀ t : UInt8, t.toNat < (dictOf (h ++ during.take T)).tags.length →
          ((tagsGet L.tags t).getD Index.zeroTag = (tagsGet (momentsOf h during T).tags t).getD Index.zeroTag ↔
            t.toNat < (dictOf (h ++ during.take m.tags)).tags.length) := by
        intro t htlt
        have eLt : L.tags = (dictOf (h ++ during.take m.tags)).tags := hL.tags.trans ltt.ri.tag.tags
        rw [tagsGet_eq, tagsGet_eq, rT.tag.tags, eLt]
        constructor
        · intro he
          by_contra hcon
          rw [List.getElem?_eq_none (by omega), List.getElem?_eq_getElem htlt] at he
          refine dictOf_parents _ _ (List.getElem_mem htlt) ?_
          have := congrArg Tag.parent he
          exact this.symm
        · intro hlt
          rw [prefix_getElem? ltt.tags (List.getElem?_eq_getElem hlt), List.getElem?_eq_getElem hlt]
      rw [loop_eq_iff]
      · constructor
        · intro hall
          refine .inr ⟨hC, fun names hn => ?_⟩
          rw [← hA] at hn
          have hnn := hnT _ _ hn
          obtain ⟨_, _, i, hi⟩ := rT.tag.readings _ _ (mem_attached.1 hn)
          obtain ⟨s, a1, a2, a3⟩ := hall i ((hmem i).2 ⟨names, mem_attached.1 hn, hi⟩)
          obtain ⟨ids, q, g1, g2, rfl, g4⟩ := hi.get rT.caps hnn
          rw [g4] at a1
          obtain rfl := Option.some.inj a1
          rw [hLget q _ g2] at a2
          refine ⟨(attached_iff r ho (show m.sets ≤ T by omega) hnn g1 g2).1 a2, ?_⟩
          refine (tag_iff r ho (show m.tags ≤ T by omega) g1).1 fun t ht => ?_
          exact (htag t (findAll_lt rT.tag.names rT.refines.2.tags g1 t ht)).1 (a3 t (mem_sortAsc.2 ht))
        · rintro (hx | ⟨_, hall⟩)
          · exact absurd hx hAne
          · intro i hi
            obtain ⟨names, hn, ids, q, g1, hnn, g2, rfl, g4⟩ := hread i hi
            obtain ⟨b1, b2⟩ := hall names hn
            refine ⟨sortAsc ids, g4, ?_, ?_⟩
            · rw [hLget q _ g2]
              exact (attached_iff r ho (show m.sets ≤ T by omega) hnn g1 g2).2 b1
            · intro t ht
              have ht := mem_sortAsc.1 ht
              exact (htag t (findAll_lt rT.tag.names rT.refines.2.tags g1 t ht)).2
                ((tag_iff r ho (show m.tags ≤ T by omega) g1).2 b2 t ht)
      · intro i hi
        obtain ⟨names, hn, ids, q, g1, hnn, g2, rfl, g4⟩ := hread i hi
        refine ⟨sortAsc ids, ?_, g4, hLcases q _ g2⟩
        intro hs
        have hl : (sortAsc ids).length = 0 := by rw [hs]; rfl
        rw [length_sortAsc] at hl
        have := (gGet_sorted rT.tag.sets g2).2
        rw [length_sortAsc] at this
        omega

end

end Verif
