import Verif.Lemmas.Copy
import Verif.Props.Size

/-!
# C99 — a dictionary can be copied through its own interface

The program is in `Spec/Copy.lean`: register the tags, then add the word of every node by number and attach its readings.
-/

namespace Verif

/-- The words of an index built from text are text. -/
theorem textWords_of {h : List Op} {ix : Index} (r : Run h ix) (ht : ∀ op ∈ h, op.Text) : TextWords ix := by
  intro rs id hf c hc
  rw [r.trie.fetchRoot_iff] at hf
  have hw := nodes_text ht _ (List.mem_of_getElem? hf.2)
  unfold Dict.join at hw
  split at hw
  · rw [← List.takeWhile_append_dropWhile (p := (· == 0)) (l := rs), List.mem_append] at hc
    rcases hc with hc | hc
    · have hall := List.all_takeWhile (p := (· == (0 : Rune))) (l := rs)
      have : c = 0 := by simpa using List.all_eq_true.1 hall c hc
      subst this; decide
    · exact hw c hc
  · exact hw c hc

theorem shown_kinds {h : List Op} {ix : Index} (r : Run h ix) :
    ∃ L : List (List (List Tag)),
      L.length = ((List.range (dictOf h).nodes.length).map fun k => (setsOf ix k).length).sum ∧
      ∀ id sets, ix.tagSetsOf id = .ok sets → ∀ q, q <+: sets → q ≠ [] → q ∈ L := by
  refine ⟨(List.range (dictOf h).nodes.length).flatMap fun k => prefixes (setsOf ix k), ?_, ?_⟩
  · rw [List.length_flatMap]
    congr 1
    refine List.map_congr_left fun k _ => ?_
    generalize setsOf ix k = l
    induction l with
    | nil => rfl
    | cons a l ih => simp [prefixes, ih]
  · intro id sets he q hq hne
    have hk : 0 < id.toNat ∧ id.toNat < (dictOf h).nodes.length := by
      by_contra hc
      rw [tagSetsOf_none r.refines.1 hc] at he
      cases he
    have e : setsOf ix id.toNat = sets := by
      have : UInt32.ofNat id.toNat = id := by simp
      unfold setsOf
      rw [this, he]
    exact List.mem_flatMap.2 ⟨id.toNat, List.mem_range.2 hk.2, by rw [e]; exact mem_prefixes.2 ⟨hne, hq⟩⟩

/-- There is room for a copy if the readings shown are at most 65536 in all. -/
theorem copyRoom_of {h : List Op} {ix : Index} (r : Run h ix)
    (hs : ((List.range (dictOf h).nodes.length).map fun k => (setsOf ix k).length).sum ≤ 65536) : CopyRoom ix := by
  obtain ⟨L, l1, l2⟩ := shown_kinds r
  exact ⟨L, by omega, fun id sets he q hq hne => ⟨q, l2 id sets he q hq hne, SameSets.refl _⟩⟩

/-- The history of the copy, and what it has of the source. -/
theorem copy_history {h : List Op} {ix : Index} (m : Room h) (r : Run h ix) (ht : TextWords ix) (cr : CopyRoom ix) :
    ∃ cp, copyOf ix = some cp ∧ ∃ g, Run g cp ∧ NoReload g ∧ (∀ op ∈ g, op.Plain) ∧ (dictOf g).nodes = (dictOf h).nodes ∧
      (dictOf g).tags = (dictOf h).tags ∧
      (∀ k, 0 < k → k < (dictOf h).nodes.length → (dictOf g).attached k = (setsOf ix k).map tagNames) ∧
      ∀ K : List (List (List Str)), (∀ id sets, ix.tagSetsOf id = .ok sets → ∀ q, q <+: sets → q ≠ [] →
        ∃ A ∈ K, SameSets A (q.map tagNames)) →
        ∀ q, q <+: g → ∀ k, (dictOf q).attached k ≠ [] → ∃ A ∈ K, SameSets A ((dictOf q).attached k) := by
  obtain ⟨r0, o⟩ := run_of_room h m
  obtain rfl := r0.unique r
  have c := r.copySource (parents_ne h) ht
  have hpos := r.trie.length_pos
  have hN : (execAll h).nodesCount = (dictOf h).nodes.length - 1 := r.trie.nodesCount
  have hlt : (execAll h).nodesCount < (dictOf h).nodes.length := by omega
  have mc := copy_room r m o cr c _ hlt
  obtain ⟨rc, _⟩ := run_of_room _ mc
  refine ⟨_, copyNodes_eq r c _ hlt rc _ (Nat.le_refl _), _, rc, ?_, mc.plain, ?_, ?_, ?_, ?_⟩
  · intro hm
    unfold copyCalls at hm
    rw [List.mem_append, List.mem_map, List.mem_flatMap] at hm
    rcases hm with ⟨_, _, hm⟩ | ⟨i, _, hm⟩
    · cases hm
    · unfold blockCalls at hm
      rw [List.mem_cons, List.mem_map] at hm
      rcases hm with hm | ⟨_, _, hm⟩ <;> cases hm
  · rw [(c.dict _ hlt).1, hN, List.take_of_length_le (by omega)]
  · exact (c.dict _ hlt).2.1
  · intro k k0 k1
    rw [c.attached _ hlt, if_pos (by omega)]
  · intro K hK q hq k hne
    obtain ⟨q', eq⟩ := hq
    have hpre := attached_mono (dictOf_readings_prefix q q') k
    rw [eq, c.attached _ hlt] at hpre
    split at hpre
    · rename_i hk
      rw [List.prefix_map_iff] at hpre
      obtain ⟨p, hp, e⟩ := hpre
      rw [e] at hne ⊢
      exact hK (UInt32.ofNat k) _ (r.shown_at hk.1 (by omega)).1 p hp (by rintro rfl; simp at hne)
    · exact absurd (List.prefix_nil.1 hpre) hne

/-- C99: the program succeeds, and the copy is the same dictionary. -/
theorem C99_partial {h : List Op} {ix : Index} (m : Room h) (r : Run h ix) (ht : TextWords ix) (cr : CopyRoom ix) :
    ∃ cp, copyOf ix = some cp ∧ SameDictionary ix cp := by
  obtain ⟨cp, hcp, g, rg, _, _, gn, gt, ga, _⟩ := copy_history m r ht cr
  refine ⟨cp, hcp, ?_⟩
  have hnm : ∀ t : List Tag, tagNames t = [] → t = [] := fun t h => List.map_eq_nil_iff.1 h
  have hat : ∀ id L, ix.tagSetsOf id = .ok L → 0 < id.toNat ∧ id.toNat < (dictOf h).nodes.length ∧
      Shown (dictOf h).tags (dictOf h).firstSingle ((dictOf h).attached id.toNat) L ∧
      ∃ M, cp.tagSetsOf id = .ok M ∧ Shown (dictOf h).tags (dictOf g).firstSingle (L.map tagNames) M := by
    intro id L hL
    have hk : 0 < id.toNat ∧ id.toNat < (dictOf h).nodes.length := by
      by_contra hc
      rw [tagSetsOf_none r.refines.1 hc] at hL
      cases hL
    have e : UInt32.ofNat id.toNat = id := by simp
    obtain ⟨s1, s2⟩ := r.shown_at hk.1 hk.2
    obtain ⟨t1, t2⟩ := rg.shown_at hk.1 (by rw [gn]; exact hk.2)
    rw [e] at s1 t1
    rw [ga _ hk.1 hk.2, gt] at t2
    rw [hL] at s1
    cases s1
    exact ⟨hk.1, hk.2, s2, _, t1, t2⟩
  refine sameDictionary_of r.refines.1 rg.refines.1 r.caps gn gt ?_ ?_ ?_
  · intro k hk
    by_cases h0 : 0 < k
    · rw [ga k h0 hk, List.map_eq_nil_iff]
      exact (r.shown_at h0 hk).2.empty_iff
    · have none : ∀ {l ixl}, Run l ixl → (dictOf l).attached k = [] := by
        intro l ixl rl
        rw [List.eq_nil_iff_forall_not_mem]
        intro x hx
        exact h0 (rl.tag.readings k x (mem_attached.1 hx)).1
      rw [none r, none rg]
  · intro id L hL hne
    obtain ⟨_, _, s, M, hM, t⟩ := hat id L hL
    refine ⟨M, hM, ?_⟩
    have hne' : [] ∉ L.map tagNames := by
      intro hm
      obtain ⟨x, hx, e⟩ := List.mem_map.1 hm
      rw [hnm x e] at hx
      exact hne hx
    have exL : ExactReadings (dictOf h).tags (L.map tagNames) L :=
      ⟨fun n hn => by obtain ⟨x, hx, rfl⟩ := List.mem_map.1 hn; exact ⟨x, hx, List.Perm.refl _⟩,
        fun x hx => ⟨_, List.mem_map.2 ⟨x, hx, rfl⟩, List.Perm.refl _⟩, s.once hne, s.registered⟩
    have exM : ExactReadings (dictOf h).tags (L.map tagNames) M := by
      cases hf : (dictOf g).firstSingle with
      | none => rw [hf] at t; exact t.1 hne'
      | some x =>
        rw [hf] at t
        have e : (L.map tagNames).map (fun names => if names = [] then [x] else names) = L.map tagNames := by
          conv => rhs; rw [← List.map_id (L.map tagNames)]
          refine List.map_congr_left fun n hn => ?_
          have : n ≠ [] := by rintro rfl; exact hne' hn
          rw [if_neg this]; rfl
        have t' : ExactReadings _ _ M := t
        rw [e] at t'
        exact t'
    exact (exact_same r.tag.names exL (fun x hx => hx) exM).2 (SameSets.refl _)
  · intro id L hL hem
    obtain ⟨h0, h1, s, M, hM, t⟩ := hat id L hL
    obtain ⟨f1, f2, f3⟩ := s.of_empty hem
    refine ⟨f3, ?_⟩
    have hf : (dictOf g).firstSingle = none := by
      cases hf : (dictOf g).firstSingle with
      | none => rfl
      | some y =>
        obtain ⟨⟨k, names⟩, hm, hn⟩ := List.exists_of_findSome?_eq_some hf
        have hone : names = [y] := singleName_some hn
        subst hone
        obtain ⟨k0, k1, _⟩ := rg.tag.readings k [y] hm
        rw [gn] at k1
        have hin := mem_attached.2 hm
        rw [ga k k0 k1] at hin
        obtain ⟨x, hx, e⟩ := List.mem_map.1 hin
        obtain ⟨_, _, _, ⟨j, nm⟩, hj, hp⟩ := r.copied k0 k1 hx
        rw [e] at hp
        have e2 : nm = [y] := List.perm_singleton.1 hp
        subst e2
        have := List.findSome?_eq_none_iff.1 f1 _ hj
        cases this
    rw [hf] at t
    obtain ⟨D, hD, rfl⟩ := t.2 (List.mem_map.2 ⟨[], hem, rfl⟩)
    have hall : ∀ x ∈ D, x = [] := by
      intro x hx
      obtain ⟨t, ht, rfl⟩ := List.mem_map.1 (hD.sub x hx)
      rw [f3 t ht]; rfl
    rw [hM]
    obtain ⟨x, hx, _⟩ := hD.complete [] (List.mem_map.2 ⟨[], hem, rfl⟩)
    match D, hD, hall, hx with
    | [a], _, _, _ => rfl
    | a :: b :: D, hD, hall, _ =>
      have := hD.once
      rw [List.pairwise_cons] at this
      refine absurd ?_ (this.1 b (by simp))
      rw [hall a (by simp), hall b (by simp)]

/-! ## Later -/

/-- A call made on both sides: the dictionaries go on to differ in the readings they had before only. -/
theorem same_later (a b : Dict) (f : List Op) (hn : b.nodes = a.nodes) (ht : b.tags = a.tags) (hu : b.nul = a.nul) :
    (f.foldl Op.spec b).nodes = (f.foldl Op.spec a).nodes ∧ (f.foldl Op.spec b).tags = (f.foldl Op.spec a).tags ∧
    ∃ E, (f.foldl Op.spec a).readings = a.readings ++ E ∧ (f.foldl Op.spec b).readings = b.readings ++ E := by
  induction f generalizing a b with
  | nil => exact ⟨hn, ht, [], by simp, by simp⟩
  | cons op f ih =>
    have step : (op.spec b).nodes = (op.spec a).nodes ∧ (op.spec b).tags = (op.spec a).tags ∧
        (op.spec b).nul = (op.spec a).nul ∧
        ∃ E, (op.spec a).readings = a.readings ++ E ∧ (op.spec b).readings = b.readings ++ E := by
      have hins : ∀ p rs, (b.insert p rs).nodes = (a.insert p rs).nodes ∧ (b.insert p rs).tags = (a.insert p rs).tags ∧
          (b.insert p rs).nul = (a.insert p rs).nul ∧
          ∃ E, (a.insert p rs).readings = a.readings ++ E ∧ (b.insert p rs).readings = b.readings ++ E := by
        intro p rs
        unfold Dict.insert
        rw [hn]
        cases a.nodes[p]? with
        | none => exact ⟨hn, ht, hu, [], by simp, by simp⟩
        | some w =>
          simp only
          by_cases hr : rs = []
          · rw [if_pos hr, if_pos hr]; exact ⟨hn, ht, hu, [], by simp, by simp⟩
          · rw [if_neg hr, if_neg hr]
            refine ⟨?_, ht, hu, [], by simp, by simp⟩
            simp only [Dict.join, hu]
      have hh : ∀ n, b.hasTag n = a.hasTag n := fun n => by unfold Dict.hasTag; rw [ht]
      cases op with
      | addRunes rs => exact hins 0 rs
      | addString w => exact hins 0 _
      | addToNode id rs => exact hins _ rs
      | tagID name parent =>
        simp only [Op.spec, hh]
        by_cases hb : a.hasTag name = true
        · rw [if_pos hb, if_pos hb]; exact ⟨hn, ht, hu, [], by simp, by simp⟩
        · rw [if_neg hb, if_neg hb]; exact ⟨hn, by simp only [ht], hu, [], by simp, by simp⟩
      | addTagSet id names =>
        simp only [Op.spec]
        have e : names.all b.hasTag = names.all a.hasTag := by
          have : b.hasTag = a.hasTag := funext hh
          rw [this]
        rw [e, hn]
        by_cases hb : names.all a.hasTag = true ∧ 0 < id.toNat ∧ id.toNat < a.nodes.length
        · rw [if_pos hb, if_pos hb]; exact ⟨rfl, ht, hu, [(id.toNat, names)], rfl, rfl⟩
        · rw [if_neg hb, if_neg hb]; exact ⟨hn, ht, hu, [], by simp, by simp⟩
      | reload => simp only [Op.spec]; exact ⟨hn, by rw [ht], by rw [hn], [], by simp, by simp⟩
      | _ => exact ⟨hn, ht, hu, [], by simp [Op.spec], by simp [Op.spec]⟩
    obtain ⟨s1, s2, s3, E, e1, e2⟩ := step
    obtain ⟨t1, t2, F, f1, f2⟩ := ih (op.spec a) (op.spec b) s1 s2 s3
    refine ⟨t1, t2, E ++ F, ?_, ?_⟩
    · rw [List.foldl_cons, f1, e1, List.append_assoc]
    · rw [List.foldl_cons, f2, e2, List.append_assoc]

/-- There is room for a copy and what follows if the readings shown, and the calls of `AddTagSet`, are at most 65536 in
all. -/
theorem copyRoomThen_of {h f : List Op} {ix : Index} (r : Run h ix)
    (hs : ((List.range (dictOf h).nodes.length).map fun k => (setsOf ix k).length).sum +
      ((h ++ f).filter Op.isAddTagSet).length ≤ 65536) : CopyRoomThen h f ix := by
  obtain ⟨L, l1, l2⟩ := shown_kinds r
  obtain ⟨M, m1, m2⟩ := attached_kinds (h ++ f)
  refine ⟨L.map (fun A => A.map tagNames) ++ M, by rw [List.length_append, List.length_map]; omega, ?_, ?_⟩
  · intro id sets he q hq hne
    exact ⟨_, List.mem_append_left _ (List.mem_map.2 ⟨q, l2 id sets he q hq hne, rfl⟩), SameSets.refl _⟩
  · intro q hq k hne
    exact ⟨_, List.mem_append_right _ (m2 (h ++ q) ((List.prefix_append_right_inj h).2 hq) k hne), SameSets.refl _⟩

theorem Room.before {h f : List Op} (m : Room (h ++ f)) : Room h := by
  induction f using list_reverse_induction with
  | nil => rw [List.append_nil] at m; exact m
  | snoc f op ih => rw [← List.append_assoc] at m; exact ih m.init

/-- C99, later: the copy goes on as the original. Whatever calls `f` are made on both — adding words, tags and readings,
lookups, `Optimize`, saving and loading — they remain the same dictionary, as long as no empty reading is attached. -/
theorem C99_later {h : List Op} {ix : Index} (f : List Op) (m : Room (h ++ f)) (r : Run h ix) (ht : TextWords ix)
    (cr : CopyRoomThen h f ix) (hz : NoReload h) (hne : ∀ k, [] ∉ (dictOf (h ++ f)).attached k) :
    ∃ cp, copyOf ix = some cp ∧ SameDictionary (f.foldl Op.exec ix) (f.foldl Op.exec cp) := by
  obtain ⟨K, k1, k2, k3⟩ := cr
  have cr' : CopyRoom ix := by
    refine ⟨K.map fun A => A.map fun n => n.map fun x => ⟨[], x⟩, by rw [List.length_map]; exact k1, ?_⟩
    intro id sets he q hq hne
    obtain ⟨A, hA, hs⟩ := k2 id sets he q hq hne
    refine ⟨_, List.mem_map.2 ⟨A, hA, rfl⟩, ?_⟩
    have e : (A.map fun n => n.map fun x => (⟨[], x⟩ : Tag)).map tagNames = A := by
      rw [List.map_map]
      conv => rhs; rw [← List.map_id A]
      refine List.map_congr_left fun n _ => ?_
      show ((n.map fun x => (⟨[], x⟩ : Tag)).map (·.name)) = n
      rw [List.map_map]; exact List.map_id n
    rw [e]; exact hs
  obtain ⟨cp, hcp, g, rg, gz, gp, gn, gt, ga, gs⟩ := copy_history m.before r ht cr'
  refine ⟨cp, hcp, ?_⟩
  have hu : (dictOf g).nul = (dictOf h).nul := by rw [dictOf_nul g gz, dictOf_nul h hz]
  have hold : ∀ k, [] ∉ (dictOf h).attached k := fun k hm =>
    hne k ((attached_mono (dictOf_readings_prefix h f) k).subset hm)
  have none : ∀ {l ixl}, Run l ixl → ∀ k, ¬ (0 < k ∧ k < (dictOf l).nodes.length) → (dictOf l).attached k = [] := by
    intro l ixl rl k hk
    rw [List.eq_nil_iff_forall_not_mem]
    intro x hx
    obtain ⟨k0, k1, _⟩ := rl.tag.readings k x (mem_attached.1 hx)
    exact hk ⟨k0, k1⟩
  have hsame : ∀ k, SameSets ((dictOf h).attached k) ((dictOf g).attached k) := by
    intro k
    by_cases hk : 0 < k ∧ k < (dictOf h).nodes.length
    · rw [ga k hk.1 hk.2]
      have s := (r.shown_at hk.1 hk.2).2
      have ex : ExactReadings (dictOf h).tags ((dictOf h).attached k) (setsOf ix k) := by
        obtain ⟨L, hL, hx⟩ := exactReadings_of r.refines.1 r.caps r.refines.2.tags (id := UInt32.ofNat k)
          (by rw [toNat_ofNat_lt (by have := r.trie.length_lt; omega)]; exact hk.1)
          (by rw [toNat_ofNat_lt (by have := r.trie.length_lt; omega)]; exact hk.2)
          (hold _)
        rw [toNat_ofNat_lt (by have := r.trie.length_lt; omega)] at hx
        rw [(r.shown_at hk.1 hk.2).1] at hL
        cases hL
        exact hx
      constructor
      · intro a ha
        obtain ⟨t, ht, hp⟩ := ex.complete a ha
        exact ⟨_, List.mem_map.2 ⟨t, ht, rfl⟩, hp.symm⟩
      · intro b hb
        obtain ⟨t, ht, rfl⟩ := List.mem_map.1 hb
        obtain ⟨a, ha, hp⟩ := ex.sound t ht
        exact ⟨a, ha, hp.symm⟩
    · rw [none r k hk, none rg k (by rw [gn]; exact hk)]
      exact SameSets.refl _
  have happ : ∀ (a : Dict) (R E : List (Nat × List Str)) (k : Nat), a.readings = R ++ E →
      a.attached k = ((R.filter fun e => e.1 = k).map (·.2)) ++ ((E.filter fun e => e.1 = k).map (·.2)) := by
    intro a R E k e
    unfold Dict.attached
    rw [e, List.filter_append, List.map_append]
  have hall : ∀ q : List Op, (dictOf (g ++ q)).nodes = (dictOf (h ++ q)).nodes ∧
      (dictOf (g ++ q)).tags = (dictOf (h ++ q)).tags ∧
      (∃ E, (dictOf (h ++ q)).readings = (dictOf h).readings ++ E ∧ (dictOf (g ++ q)).readings = (dictOf g).readings ++ E) ∧
      ∀ k, SameSets ((dictOf (h ++ q)).attached k) ((dictOf (g ++ q)).attached k) := by
    intro q
    have hfold : ∀ l : List Op, dictOf (l ++ q) = q.foldl Op.spec (dictOf l) := fun l => by
      unfold dictOf; rw [List.foldl_append]
    obtain ⟨s1, s2, E, e1, e2⟩ := same_later (dictOf h) (dictOf g) q gn gt hu
    rw [← hfold, ← hfold] at s1 s2
    rw [← hfold] at e1 e2
    refine ⟨s1, s2, ⟨E, e1, e2⟩, fun k => ?_⟩
    rw [happ _ _ _ k e1, happ _ _ _ k e2]
    have hs := hsame k
    constructor
    · intro a ha
      rw [List.mem_append] at ha
      rcases ha with ha | ha
      · obtain ⟨b, hb, hp⟩ := hs.1 a ha
        exact ⟨b, List.mem_append_left _ hb, hp⟩
      · exact ⟨a, List.mem_append_right _ ha, List.Perm.refl _⟩
    · intro b hb
      rw [List.mem_append] at hb
      rcases hb with hb | hb
      · obtain ⟨a, ha, hp⟩ := hs.2 b hb
        exact ⟨a, List.mem_append_left _ ha, hp⟩
      · exact ⟨b, List.mem_append_right _ hb, List.Perm.refl _⟩
  obtain ⟨s1, s2, ⟨E, e1, e2⟩, hsame'⟩ := hall f
  have mg : Room (g ++ f) := by
    constructor
    · rw [s1]; exact m.nodes
    · rw [s2]; exact m.tags
    · intro op hop
      rw [List.mem_append] at hop
      rcases hop with hop | hop
      · exact gp op hop
      · exact m.plain op (List.mem_append_right _ hop)
    · obtain ⟨L, l1, l2⟩ := m.readings
      refine ⟨L, l1, ?_⟩
      intro e he
      obtain ⟨a, ha, hp⟩ := (hsame' e.1).2 e.2 (mem_attached.2 he)
      obtain ⟨l, hl, hp'⟩ := l2 _ (mem_attached.1 ha)
      exact ⟨l, hl, hp'.trans hp⟩
    · intro k
      obtain ⟨L, l1, l2⟩ := m.perWord k
      refine ⟨L, l1, ?_⟩
      intro names hn
      obtain ⟨a, ha, hp⟩ := (hsame' k).2 names hn
      obtain ⟨l, hl, hp'⟩ := l2 _ ha
      exact ⟨l, hl, hp'.trans hp⟩
    · refine ⟨K, k1, ?_⟩
      intro q hq k hne
      rcases List.prefix_or_prefix_of_prefix hq (List.prefix_append g f) with hg | ⟨q', rfl⟩
      · exact gs K k2 q hg k hne
      · have hq' : q' <+: f := (List.prefix_append_right_inj g).1 hq
        have hs := (hall q').2.2.2 k
        have hne' : (dictOf (h ++ q')).attached k ≠ [] := by
          obtain ⟨b, hb⟩ := List.exists_mem_of_ne_nil _ hne
          obtain ⟨a, ha, _⟩ := hs.2 b hb
          exact List.ne_nil_of_mem ha
        obtain ⟨A, hA, hs'⟩ := k3 q' hq' k hne'
        exact ⟨A, hA, hs'.trans hs⟩
  have r' : Run (h ++ f) (f.foldl Op.exec ix) := by
    have := (run_of_room _ m).1
    rw [show execAll (h ++ f) = f.foldl Op.exec ix by rw [r.eq]; unfold execAll; rw [List.foldl_append]] at this
    exact this
  have rg' : Run (g ++ f) (f.foldl Op.exec cp) := by
    have := (run_of_room _ mg).1
    rw [show execAll (g ++ f) = f.foldl Op.exec cp by rw [rg.eq]; unfold execAll; rw [List.foldl_append]] at this
    exact this
  have hne' : ∀ k, [] ∉ (dictOf (g ++ f)).attached k := by
    intro k hm
    obtain ⟨a, ha, hp⟩ := (hsame' k).2 [] hm
    rw [List.perm_nil.1 hp] at ha
    exact hne k ha
  have hat : ∀ id L, (f.foldl Op.exec ix).tagSetsOf id = .ok L →
      ExactReadings (dictOf (h ++ f)).tags ((dictOf (h ++ f)).attached id.toNat) L ∧
      ∃ M, (f.foldl Op.exec cp).tagSetsOf id = .ok M ∧
        ExactReadings (dictOf (h ++ f)).tags ((dictOf (g ++ f)).attached id.toNat) M := by
    intro id L hL
    have hk : 0 < id.toNat ∧ id.toNat < (dictOf (h ++ f)).nodes.length := by
      by_contra hc
      rw [tagSetsOf_none r'.refines.1 hc] at hL
      cases hL
    obtain ⟨L', hL', x⟩ := exactReadings_of r'.refines.1 r'.caps r'.refines.2.tags hk.1 hk.2 (hne _)
    obtain ⟨M, hM, y⟩ := exactReadings_of rg'.refines.1 rg'.caps rg'.refines.2.tags hk.1 (by rw [s1]; exact hk.2) (hne' _)
    rw [hL] at hL'
    cases hL'
    rw [s2] at y
    exact ⟨x, M, hM, y⟩
  refine sameDictionary_of r'.refines.1 rg'.refines.1 r'.caps s1 s2 ?_ ?_ ?_
  · intro k _
    have hs := hsame' k
    constructor
    · intro e
      rw [List.eq_nil_iff_forall_not_mem]
      intro a ha
      obtain ⟨b, hb, _⟩ := hs.1 a ha
      rw [e] at hb; cases hb
    · intro e
      rw [List.eq_nil_iff_forall_not_mem]
      intro b hb
      obtain ⟨a, ha, _⟩ := hs.2 b hb
      rw [e] at ha; cases ha
  · intro id L hL _
    obtain ⟨x, M, hM, y⟩ := hat id L hL
    exact ⟨M, hM, (exact_same r'.tag.names x (fun t ht => ht) y).2 (hsame' _)⟩
  · intro id L hL hem
    obtain ⟨x, _⟩ := hat id L hL
    obtain ⟨n, hn, hp⟩ := x.sound [] hem
    have : n = [] := List.perm_nil.1 hp.symm
    subst this
    exact absurd hn (hne _)

/-! ## What does not come over -/

/-- Two words of one character each, neither of which is a Unicode character. -/
def copyRunes : List Op := [.addRunes [0xD800], .addRunes [0xD801]]

/-- Words that are no text: both are spelled `U+FFFD`, and the copy has one word for the two. -/
theorem not_C99_text : ∃ h ix, Room h ∧ Run h ix ∧ CopyRoom ix ∧ ix.nodesCount = 2 ∧
    (copyOf ix).map Index.nodesCount = some 1 :=
  ⟨copyRunes, _, (by decide : Small copyRunes).toRoom, small_runs _ (by decide),
    copyRoom_of (small_runs copyRunes (by decide)) (by decide), by decide, by decide⟩

/-- A word with the empty reading and a reading of two tags, before there is any reading of one tag. -/
def copyHidden : List Op :=
  [.tagID (str "NOUN") [], .tagID (str "VERB") [], .addString (str "a"), .addString (str "b"),
   .addTagSet 1 [], .addTagSet 1 [str "NOUN", str "VERB"]]

/-- Readings that are not shown are not copied: here the original and its copy are the same dictionary, and cease to be
so when a reading of one tag is attached to another word. Then the original shows the reading of two tags again. -/
theorem not_C99_later : ∃ h ix cp, Run h ix ∧ copyOf ix = some cp ∧ SameDictionary ix cp ∧
    ¬ SameDictionary (ix.addTagSet 2 [str "NOUN"]).1 (cp.addTagSet 2 [str "NOUN"]).1 := by
  have r := small_runs copyHidden (by decide)
  obtain ⟨cp, hc, hs⟩ := C99_partial (by decide : Small copyHidden).toRoom r (textWords_of r (by decide))
    (copyRoom_of r (by decide))
  refine ⟨copyHidden, _, cp, r, hc, hs, fun hd => ?_⟩
  have h1 : ((execAll copyHidden).addTagSet 2 [str "NOUN"]).1.tagSetsOf 1 =
      .ok [[⟨str "----", str "NOUN"⟩], [⟨str "----", str "NOUN"⟩, ⟨str "----", str "VERB"⟩]] := by decide
  obtain ⟨M, hM, hM'⟩ := hd.tagSets 1 _ h1 (by decide)
  have hl : (copyOf (execAll copyHidden)).map (fun cp => (cp.addTagSet 2 [str "NOUN"]).1.tagSetsOf 1) =
      some (.ok [[⟨str "----", str "NOUN"⟩]]) := by decide
  rw [hc, Option.map_some, hM] at hl
  have hl' : M = [[⟨str "----", str "NOUN"⟩]] := by
    injection hl with e; injection e
  rw [hl'] at hM'
  exact absurd hM'.length (by decide)

/-! ## The hypotheses are met -/

/-- Words with common beginnings, one added in the middle of another, readings in unsorted order, one attached twice, and
a reading of one tag. -/
def copySample : List Op :=
  [.tagID (str "NOUN") [], .tagID (str "sing") (str "NOUN"), .tagID (str "VERB") [], .addString (str "abc"),
   .addString (str "b"), .addTagSet 3 [str "sing", str "NOUN"], .addString (str "ad"), .addTagSet 2 [str "VERB"],
   .addTagSet 3 [str "VERB"], .addTagSet 3 [str "NOUN", str "sing"], .addTagSet 4 []]

example : ∃ ix, Room copySample ∧ Run copySample ix ∧ TextWords ix ∧ CopyRoom ix ∧ NoReload copySample ∧
    ix.nodesCount = 5 ∧ (setsOf ix 3).length = 2 :=
  have r := small_runs copySample (by decide)
  ⟨_, (by decide : Small copySample).toRoom, r, textWords_of r (by decide), copyRoom_of r (by decide),
    by simp [NoReload, copySample], by decide, by decide⟩

/-- Adding words and readings to the original and to the copy, with a reload. -/
def copyMore : List Op := [.addString (str "bcd"), .addTagSet 4 [str "sing", str "VERB"], .reload, .addTagSet 6 [str "NOUN"]]

/-- `copySample` without the empty reading. -/
def copyFull : List Op := copySample.take 10

example : Room (copyFull ++ copyMore) ∧ NoReload copyFull ∧ (∀ k, [] ∉ (dictOf (copyFull ++ copyMore)).attached k) ∧
    ∃ ix, Run copyFull ix ∧ TextWords ix ∧ CopyRoomThen copyFull copyMore ix := by
  have r := small_runs copyFull (by decide)
  refine ⟨(by decide : Small (copyFull ++ copyMore)).toRoom, by simp [NoReload, copyFull, copySample], ?_, _, r, textWords_of r (by decide), ?_⟩
  · intro k hk
    have := mem_attached.1 hk
    revert this
    rw [show (dictOf (copyFull ++ copyMore)).readings = [(3, [str "sing", str "NOUN"]), (2, [str "VERB"]),
      (3, [str "VERB"]), (3, [str "NOUN", str "sing"]), (4, [str "sing", str "VERB"]), (6, [str "NOUN"])] by decide]
    simp
  · exact copyRoomThen_of r (by decide)

/-- After a reload. -/
example : ∃ ix, Room (copySample ++ [.reload, .optimize]) ∧ Run (copySample ++ [.reload, .optimize]) ix ∧ TextWords ix ∧ CopyRoom ix :=
  have r := small_runs (copySample ++ [.reload, .optimize]) (by decide)
  ⟨_, (by decide : Small (copySample ++ [.reload, .optimize])).toRoom, r, textWords_of r (by decide), copyRoom_of r (by decide +kernel)⟩

end Verif
