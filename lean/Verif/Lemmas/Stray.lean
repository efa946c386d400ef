import Verif.Lemmas.Races
import Verif.Spec.Memory

/-! # Which nodes have a map of children -/

namespace Verif

theorem ensureChildren_new {m : ID → Option IdMap} {p k : ID} (h : (Index.ensureChildren m p k).isSome = true) :
    (m k).isSome = true ∨ k = p := by
  unfold Index.ensureChildren at h
  cases hp : m p with
  | some _ => rw [hp] at h; exact .inl h
  | none =>
    rw [hp] at h
    simp only at h
    split at h
    · rename_i e; exact .inr e
    · exact .inl h

theorem Asked.snoc {h : List Op} {id : ID} {op : Op} (a : Asked h id) (ho : op ≠ .reload) : Asked (h ++ [op]) id := by
  obtain ⟨q, op', t, rfl, ht, hr⟩ := a
  refine ⟨q, op', t ++ [op], by simp, ?_, hr⟩
  simp only [List.mem_append, List.mem_singleton]
  rintro (h | h)
  · exact ht h
  · exact ho h.symm

theorem Asked.last {h : List Op} {id : ID} {op : Op} {rs : List Rune} (hrs : rs ≠ [])
    (ho : op = .fetchFromItem id rs ∨ op = .fetchItemFromParent id rs) : Asked (h ++ [op]) id :=
  ⟨h, op, [], rfl, by simp, rs, hrs, ho⟩

/-- Maps for nodes of the dictionary and for the ids in `A` only. -/
def MapsIn (A : ID → Prop) (ix : Index) (n : Nat) : Prop := ∀ k, (ix.childrenMap k).isSome = true → k.toNat < n ∨ A k

variable {A : ID → Prop}

theorem MapsIn.ensure {ix : Index} {n : Nat} (h : MapsIn A ix n) {p : ID} (hp : p.toNat < n ∨ A p) :
    MapsIn A (ix.getChildrenIDMap p).1 n := by
  intro k hk
  rcases ensureChildren_new hk with hk | rfl
  · exact h k hk
  · exact hp

theorem MapsIn.fetch {d : Dict} (rs : List Rune) : ∀ {ix : Index}, TrieOK ix d → MapsIn A ix d.nodes.length → ∀ {p : ID},
    p.toNat < d.nodes.length ∨ A p → MapsIn A (ix.fetchFromItem p rs).1 d.nodes.length ∧
      MapsIn A (ix.fetchItemFromParent p rs).1 d.nodes.length := by
  induction rs with
  | nil => exact fun _ h _ _ => ⟨h, h⟩
  | cons r rest ih =>
    intro ix ht h p hp
    have h1 := h.ensure hp
    have ht1 : TrieOK (ix.getChildrenIDMap p).1 d :=
      ht.congr (getChildrenIDMap_obs ix p).items (getChildrenIDMap_obs ix p).children rfl rfl
    have hs := getChildrenIDMap_snd ix p
    unfold Index.fetchFromItem Index.fetchItemFromParent
    generalize ix.getChildrenIDMap p = x at h1 ht1 hs ⊢
    obtain ⟨ix1, cm⟩ := x
    simp only at h1 ht1 hs ⊢
    subst hs
    cases hc : ix.getChildrenMap p r with
    | none => exact ⟨h1, h1⟩
    | some c =>
      simp only
      have hcl : c.toNat < d.nodes.length := by
        rcases (ht.child p r c).1 hc with ⟨w, _, hcn⟩ | ⟨_, _, _, e0⟩
        · exact (List.getElem?_eq_some_iff.1 hcn).1
        · rw [e0]; exact ht.length_pos
      split
      · exact ⟨h1, h1⟩
      · exact ih ht1 h1 (.inl hcl)

theorem MapsIn.mono {ix : Index} {n m : Nat} (h : MapsIn A ix n) (hm : n ≤ m) : MapsIn A ix m := fun k hk => (h k hk).imp_left fun h => by omega

theorem MapsIn.addStep {ix ix' : Index} {n : Nat} (h : MapsIn A ix n) {p c : ID} {r : Rune} (hp : p.toNat < n)
    (he : ix.addStep p r = some (ix', c)) : MapsIn A ix' n := by
  have h1 := h.ensure (.inl hp)
  unfold Index.addStep at he
  generalize ix.getChildrenIDMap p = x at h1 he
  obtain ⟨ix1, cm⟩ := x
  simp only at h1 he
  cases hc : cm r with
  | some c' =>
    rw [hc] at he
    obtain ⟨rfl, _⟩ := Prod.mk.inj (Option.some.inj he)
    exact h1
  | none =>
    rw [hc] at he
    simp only at he
    cases hn : ix1.items.newChild p r with
    | none => rw [hn] at he; cases he
    | some y =>
      rw [hn] at he
      obtain ⟨rfl, _⟩ := Prod.mk.inj (Option.some.inj he)
      intro k hk
      refine h1 k ?_
      rw [← setChild_some ix1.childrenMap p r y.2.id k]
      exact hk

theorem MapsIn.addLoop {orig : ID} (rs : List Rune) : ∀ {ix : Index} {d : Dict}, TrieOK ix d → MapsIn A ix d.nodes.length →
    ∀ {p : ID} {w : List Rune}, d.nodes[p.toNat]? = some w → rs ≠ [] →
    (addAll d.nodes (prefixes (d.join w rs))).length < 4294967296 →
    MapsIn A (ix.addLoop orig p rs).1 (addAll d.nodes (prefixes (d.join w rs))).length := by
  induction rs with
  | nil => exact fun _ _ _ _ _ h => absurd rfl h
  | cons r rest ih =>
    intro ix d h hm p w hp hrs hcap
    have hlast : ¬ (p ≠ 0 ∧ (ix.items.get p).isNone = true) := by
      rintro ⟨h0, hn⟩
      have h1 : 0 < p.toNat := Nat.pos_of_ne_zero fun h' => h0 (TrieOK.toNat_eq_zero.1 h')
      obtain ⟨it, w', hg, _⟩ := h.items_get h1 (TrieOK.lt_next hp)
      rw [hg] at hn
      cases hn
    have hpre : d.join w [r] <+: d.join w (r :: rest) := by
      rw [← d.join_step w r rest]; exact TrieOK.join_prefix d _ _
    have hstep : addAll (addNew d.nodes (d.join w [r])) (prefixes (d.join w (r :: rest)))
        = addAll d.nodes (prefixes (d.join w (r :: rest))) := by
      rcases d.join_single w r with ⟨hj, _⟩ | ⟨_, _, _, hj⟩
      · rw [hj] at hpre ⊢
        exact addAll_addNew (h.prefixes_mem hp) hpre
      · rw [hj, addNew_of_mem h.root_mem]
    have hle := (addAll_prefix (addNew d.nodes (d.join w [r])) (prefixes (d.join w (r :: rest)))).length_le
    rw [hstep] at hle
    obtain ⟨ix1, c, hs, h1, hc, hg, hobs⟩ := h.addStep_spec hp r (by omega)
    have hm1 := hm.addStep (List.getElem?_eq_some_iff.1 hp).1 hs
    have hle0 := (addNew_prefix d.nodes (d.join w [r])).length_le
    unfold Index.addLoop
    rw [if_neg hlast, hs]
    simp only
    by_cases hrest : rest = []
    · rw [if_pos hrest]
      exact hm1.mono (by omega)
    · rw [if_neg hrest]
      have hj : Dict.join { d with nodes := addNew d.nodes (d.join w [r]) } (d.join w [r]) rest
          = d.join w (r :: rest) := d.join_step w r rest
      have := ih h1 (hm1.mono hle0) hc hrest (by rw [hj]; simp only; rw [hstep]; exact hcap)
      rw [hj] at this
      simp only at this
      rw [hstep] at this
      exact this

theorem MapsIn.addToNode {ix : Index} {d : Dict} (h : TrieOK ix d) (hm : MapsIn A ix d.nodes.length) (id : ID) (rs : List Rune)
    (hf : (d.insert id.toNat rs).nodes.length < 4294967296) :
    MapsIn A (ix.addToNode id rs).1 (d.insert id.toNat rs).nodes.length := by
  unfold Dict.insert at hf ⊢
  cases hw : d.nodes[id.toNat]? with
  | none =>
    rw [(h.addToNode_err id rs (.inl hw)).1]
    exact hm
  | some w =>
    rw [hw] at hf
    simp only at hf ⊢
    by_cases hrs : rs = []
    · rw [if_pos hrs, (h.addToNode_err id rs (.inr hrs)).1]
      exact hm
    · rw [if_neg hrs] at hf ⊢
      exact hm.addLoop rs h hw hrs hf

theorem MapsIn.rebuild (n : Nat) (es : List (Item × Nat)) : ∀ (ix : Index), MapsIn A ix n →
    (∀ e ∈ es, e.1.parent.toNat < n ∧ (UInt32.ofNat e.2).toNat < n) → MapsIn A (es.foldl Index.rebuildStep ix) n := by
  induction es with
  | nil => exact fun _ h _ => h
  | cons e es ih =>
    intro ix h he
    rw [List.foldl_cons]
    refine ih _ ?_ fun e' he' => he e' (List.mem_cons_of_mem _ he')
    obtain ⟨h1, h2⟩ := he e List.mem_cons_self
    intro k hk
    unfold Index.rebuildStep at hk
    simp only [setChild_some] at hk
    exact ((h.ensure (.inl h1)).ensure (.inl h2)) k hk

theorem Run.mapsIn {h : List Op} {ix : Index} (r : Run h ix) : MapsIn (Asked h) ix (dictOf h).nodes.length := by
  induction r with
  | nil => intro k hk; cases hk
  | @step h ix op r ha hf ih =>
    have ht := r.trie
    have key : op ≠ .reload → MapsIn (Asked (h ++ [op])) ix (dictOf h).nodes.length :=
      fun ho k hk => (ih k hk).imp_right fun a => a.snoc ho
    have ho := hf.nodes
    rw [dictOf_append] at ho ⊢
    cases op with
    | addRunes rs =>
      have hm := key (by simp)
      exact hm.addToNode ht 0 rs ho
    | addString w =>
      have hm := key (by simp)
     
      simp only [Op.exec, Index.addString]
      split
      · rename_i hw
        have := List.length_eq_zero_iff.1 hw
        subst this
        simp only [Op.spec]
        rw [decodeRunes_nil, Dict.insert_nil]
        exact hm
      · exact hm.addToNode ht 0 _ ho
    | addToNode id rs =>
      have hm := key (by simp)
      exact hm.addToNode ht id rs ho
    | fetchFromItem id rs =>
      by_cases hrs : rs = []
      · subst hrs; exact key (by simp)
      · exact ((key (by simp)).fetch rs ht (p := id) (.inr (Asked.last hrs (.inl rfl)))).1
    | fetchItemFromParent id rs =>
      by_cases hrs : rs = []
      · subst hrs; exact key (by simp)
      · exact ((key (by simp)).fetch rs ht (p := id) (.inr (Asked.last hrs (.inr rfl)))).2
    | fetchRunes rs =>
      have hm := key (by simp)
      exact (hm.fetch rs ht (p := 0) (.inl ht.length_pos)).1
    | fetchString w =>
      have hm := key (by simp)
      exact (hm.fetch (decodeRunes w) ht (p := 0) (.inl ht.length_pos)).1
    | tagID name parent =>
      have hm := key (by simp)
     
      have e : (Op.spec (dictOf h) (.tagID name parent)).nodes = (dictOf h).nodes := by
        simp only [Op.spec]; split <;> rfl
      rw [e]; exact hm
    | addTagSet id names =>
      have hm := key (by simp)
     
      have e : (Op.spec (dictOf h) (.addTagSet id names)).nodes = (dictOf h).nodes := by
        simp only [Op.spec]; split <;> rfl
      have e2 : (ix.addTagSet id names).1.childrenMap = ix.childrenMap := by
        unfold Index.addTagSet
        cases Index.findAll ix.tags names with
        | error n => rfl
        | ok ts =>
          simp only
          cases ix.items.get id with
          | none => rfl
          | some it =>
            simp only
            cases ix.collectionIdx.get it.variants <;> rfl
      rw [e]
      intro k hk
      simp only [Op.exec] at hk
      rw [e2] at hk
      exact hm k hk
    | optimize =>
      have hm := key (by simp)
     
      have e2 : ix.optimize.1.childrenMap = ix.childrenMap := by
        unfold Index.optimize
        simp only
        split
        · rfl
        · split
          · split <;> rfl
          · rfl
      intro k hk
      simp only [Op.exec] at hk
      rw [e2] at hk
      exact hm k hk
    | reload =>
      rw [(reload_eq r.tag ha).2.2]
      have hlen : ix.items.trim.items.length = (dictOf h).nodes.length := by
        simp only [Items.trim, List.length_take, ht.next]
        have := ht.cap
        omega
      have hn : ((dictOf h).nodes).length < 4294967296 := ht.length_lt
      refine MapsIn.rebuild (A := Asked (h ++ [.reload])) (dictOf h).nodes.length ix.items.trim.items.zipIdx _ ?_ ?_
      · refine MapsIn.ensure (fun k hk => by cases hk) (p := 0) (.inl ht.length_pos)
      · rintro ⟨it, k⟩ he
        have he' := List.mem_zipIdx_iff_getElem?.1 he
        simp only at he' ⊢
        have hk := (List.getElem?_eq_some_iff.1 he').1
        rw [hlen] at hk
        rw [show (UInt32.ofNat k).toNat = k from UInt32.toNat_ofNat_of_lt' (by simp only [UInt32.size]; omega)]
        refine ⟨?_, hk⟩
        simp only [Items.trim, ht.next] at he'
        rw [List.getElem?_take, if_pos hk] at he'
        rcases Nat.eq_zero_or_pos k with rfl | hk0
        · rw [ht.item0] at he'
          rw [← Option.some.inj he']
          exact ht.length_pos
        · obtain ⟨it', w, e1, _, e3, _, _⟩ := ht.item k hk0 hk
          rw [e1] at he'
          rw [← Option.some.inj he']
          omega

theorem Run.tidy {h : List Op} {ix : Index} (r : Run h ix)
    (hh : ∀ id rs, .fetchFromItem id rs ∈ h ∨ .fetchItemFromParent id rs ∈ h → id = 0)
    (hcap : ix.nodesCount + 2 < 4294967296) : Tidy ix := by
  have ht := r.trie
  have hn := ht.next
  have hp := ht.length_pos
  have hc := ht.nodesCount
  refine ⟨fun p l c hl => ?_, fun k hk => ?_, by rw [hn]; exact ht.cap, by omega, by omega⟩
  swap
  · rw [hn]
    rcases r.mapsIn k hk with h1 | ⟨q, op, t, rfl, _, rs, _, ho⟩
    · exact h1
    · have : k = 0 := by
        rcases ho with rfl | rfl
        · exact hh k rs (.inl (by simp))
        · exact hh k rs (.inr (by simp))
      rw [this]; exact hp
  rcases (ht.child p l c).1 hl with ⟨w, _, hcn⟩ | ⟨_, _, _, e0⟩
  · by_cases h0 : c = 0
    · exact .inl h0
    · obtain ⟨it, _, e, _⟩ := ht.items_get (Nat.pos_of_ne_zero fun h' => h0 (TrieOK.toNat_eq_zero.1 h')) (TrieOK.lt_next hcn)
      exact .inr (by rw [e]; rfl)
  · exact .inl e0

/-- Of a calm word all but the last letter is there. -/
theorem Calm.known {ix : Index} (T : Tidy ix) {w : List Rune} (h : Calm ix true 0 w) {v : List Rune} {a : Rune}
    (hv : v ++ [a] <+: w) : (∃ id, (ix.fetchRunes (v ++ [a])).2 = .ok id) ∨
      (w = v ++ [a] ∧ ∀ id, (ix.fetchRunes w).2 ≠ .ok id) := by
  obtain ⟨rest, rfl⟩ := hv
  rw [List.append_assoc] at h
  obtain ⟨p, hw, _, _, h3⟩ := h.walk v 0 a rest rfl
  cases hc : ix.getChildrenMap p a with
  | some c =>
    left
    refine ⟨c, (fetch_walk ix 0 c (v ++ [a]) (by simp)).2 ⟨?_, ?_⟩⟩
    · rw [walk_append, hw]; simp [Verif.walk, hc]
    · rcases T.child p a c hc with rfl | h
      · exact T.pos
      · obtain ⟨it, hit⟩ := Option.isSome_iff_exists.1 h
        exact (Items.get_some hit).2.1
  | none =>
    right
    obtain rfl := h3 hc rfl
    rw [List.append_nil]
    exact ⟨rfl, new_word hw hc⟩

/-- Calls that cannot meet go well together. -/
theorem compat_of_safe {ix : Index} (T : Tidy ix) {adds : Nat → Bool} {q : Nat → List Rune}
    (hno : ∀ t u, t ≠ u → ¬(Grows ix (adds t) (q t) ∧ q u ≠ []) ∧ ¬(adds t = true ∧ Crosses ix (q t) (q u))) :
    Compat ix adds q := by
  have calm : ∀ t u, t ≠ u → adds t = true → q u ≠ [] → Calm ix true 0 (q t) := by
    intro t u htu ha hu
    have := T.calm (a := adds t) (w := q t) fun hg => (hno t u htu).1 ⟨hg, hu⟩
    rw [ha] at this
    exact this
  constructor
  · intro t u htu ha hb v hv h1 h2
    obtain ⟨v', a, rfl⟩ : ∃ v' a, v = v' ++ [a] := ⟨v.dropLast, v.getLast hv, (List.dropLast_append_getLast hv).symm⟩
    have hu : q u ≠ [] := by
      intro e
      rw [e] at h2
      have := h2.length_le
      simp at this
    rcases (calm t u htu ha hu).known T h1 with h | ⟨e, hn⟩
    · exact h
    · exact absurd ⟨ha, hn, v', a, a, e, h2⟩ (hno t u htu).2
  · intro t u htu ha v a b h1 h2
    have hu : q u ≠ [] := by
      intro e
      rw [e] at h2
      have := h2.length_le
      simp at this
    rcases (calm t u htu ha hu).known T h1 with h | ⟨e, hn⟩
    · exact ⟨a, h⟩
    · exact absurd ⟨ha, hn, v, a, b, e, h2⟩ (hno t u htu).2

end Verif
