import Verif.Lemmas.SerialAdd
import Verif.Lemmas.Forgotten
import Verif.Props.Capacity

/-! # What holds at the end of a schedule of concurrent calls -/

namespace Verif

section
variable {h : List Op} {ix : Index}

/-- The invariants at the end of a schedule. -/
theorem Run.concurrent (r : Run h ix) (adds : Nat → Bool) (q : Nat → List Rune) (sched : List Nat)
    (hz : NoReload h ∨ ∀ t, NoLeadingNul (q t)) (hcap : ix.nodesCount + 1 + sched.length < 4294967296)
    (hc : ((AState.start ix adds q).run sched).crashed = false) :
    ∃ ns, AInv ix (dictOf h) adds q ((AState.start ix adds q).run sched) ns ∧
      ForgetInv (dictOf h).nul ((AState.start ix adds q).run sched) ((AState.start ix adds q).WasForgotten sched) := by
  have hn := r.trie.nodesCount
  have hlp := r.trie.length_pos
  obtain ⟨ns, h1, h2⟩ := (ForgetInv.start r.trie adds q).run (AInv.start (adds := adds) (q := q) r.trie)
    (fun e => (r.trie.child 0 0 0).2 (.inr ⟨e, rfl, rfl, rfl⟩)) (hz.imp_left (dictOf_nul h)) sched (by omega) hc
  exact ⟨ns, h1, h2.congr fun k => (false_or _).to_iff⟩

variable {adds : Nat → Bool} {q : Nat → List Rune} {s : AState} {ns : List (List Rune)}

theorem AInv.wordOf (hi : AInv ix (dictOf h) adds q s ns) {t : Nat} {id : ID} (ht : s.pc t = .done (.ok id)) :
    s.now.word id = .ok (encodeRunes (q t)) := by
  have hg := hi.good t
  rw [ht] at hg
  rcases hg with ⟨_, hg⟩ | ⟨id', h1, _, h3, _⟩ | ⟨_, _, _, _, _, hg, _⟩
  · cases hg
  · rw [Out.ok.inj h1]
    exact hi.spells.word_eq (ix := s.now) h3
  · cases hg

/-- The words that were there. -/
theorem AInv.keepsOld (r : Run h ix) (hi : AInv ix (dictOf h) adds q s ns) {v : List Rune} {id : ID}
    (hv : (ix.fetchRunes v).2 = .ok id) : (s.now.fetchRunes v).2 = .ok id ∧ s.now.word id = ix.word id := by
  have hv' : v ≠ [] := by rintro rfl; cases hv
  obtain ⟨h1, h2⟩ := (fetch_walk ix 0 id v hv').1 hv
  have hold := hi.old.length_le
  have hnext : s.now.items.nextID.toNat = ns.length := hi.spells.next
  have hnext0 := r.trie.next
  refine ⟨(fetch_walk s.now 0 id v hv').2 ⟨hi.ext.walk h1, by omega⟩, ?_⟩
  obtain ⟨w, hw⟩ : ∃ w, (dictOf h).nodes[id.toNat]? = some w :=
    ⟨_, List.getElem?_eq_getElem (by omega)⟩
  rw [r.trie.word_eq hw, hi.spells.word_eq (ix := s.now) (prefix_getElem? hi.old hw)]

/-- A node reached by letters spells them. -/
theorem AInv.walkSpells (hi : AInv ix (dictOf h) adds q s ns) {v : List Rune} {id : ID}
    (hzv : NoReload h ∨ NoLeadingNul v) (hw : walk s.now 0 v = some id) : ns[id.toNat]? = some v := by
  have key : ∀ (rs : List Rune) (p : ID) (pre : List Rune), ns[p.toNat]? = some pre →
      ((dictOf h).nul = false ∨ NoLeadingNul (pre ++ rs)) → walk s.now p rs = some id →
      ns[id.toNat]? = some (pre ++ rs) := by
    intro rs
    induction rs with
    | nil =>
      intro p pre hp _ hw
      obtain rfl := Option.some.inj hw
      rw [List.append_nil]; exact hp
    | cons a rest ih =>
      intro p pre hp hz hw
      simp only [walk] at hw
      cases hcm : s.now.getChildrenMap p a with
      | none => rw [hcm] at hw; cases hw
      | some c =>
        rw [hcm] at hw
        obtain ⟨m, hr, hm⟩ := AState.now_some hcm
        have hs := hi.sound m a c (hi.ok.lt p m hr) hm
        rw [hi.ok.own p m hr] at hs
        rcases hs with ⟨pre', e1, e2⟩ | ⟨e1, rfl, rfl, rfl⟩
        · rw [hp] at e1
          obtain rfl := Option.some.inj e1
          have := ih c (pre ++ [a]) e2 (by rw [List.append_assoc]; exact hz) hw
          rwa [List.append_assoc] at this
        · exfalso
          rcases hz with hz | hz
          · rw [hz] at e1; cases e1
          · have hr := hi.spells.root
            rw [show (0 : ID).toNat = 0 from rfl, hr] at hp
            obtain rfl := Option.some.inj hp
            exact hz rfl
  exact key v 0 [] hi.spells.root (hzv.imp_left (dictOf_nul h)) hw

/-- Every word a node spells was there or is a beginning of an added word. -/
theorem AInv.fromWhere (r : Run h ix) (hi : AInv ix (dictOf h) adds q s ns) {v : List Rune} {k : Nat} (hv : v ≠ [])
    (hzv : NoReload h ∨ NoLeadingNul v) (hk : ns[k]? = some v) :
    (∃ id', (ix.fetchRunes v).2 = .ok id') ∨ ∃ t, adds t = true ∧ v <+: q t := by
  rcases hi.from' v (List.mem_of_getElem? hk) with hm | ht
  · left
    obtain ⟨id', hid'⟩ := r.trie.exists_id hm
    refine ⟨id', ?_⟩
    rw [r.trie.fetchRoot_iff, Run.root_join hzv]
    exact ⟨hv, hid'⟩
  · exact .inr ht

/-- Nothing else is found. -/
theorem AInv.nothingElse (r : Run h ix) (hi : AInv ix (dictOf h) adds q s ns) {v : List Rune} {id : ID}
    (hzv : NoReload h ∨ NoLeadingNul v) (hv : (s.now.fetchRunes v).2 = .ok id) :
    (∃ id', (ix.fetchRunes v).2 = .ok id') ∨ ∃ t, adds t = true ∧ v <+: q t := by
  have hv' : v ≠ [] := by rintro rfl; cases hv
  exact hi.fromWhere r hv' hzv (hi.walkSpells hzv ((fetch_walk s.now 0 id v hv').1 hv).1)

/-- Under `Compat` the node returned is found. -/
theorem AInv.findsKnown (hi : AInv ix (dictOf h) adds q s ns) (hk : Compat ix adds q) {t : Nat} {id : ID}
    (ht : s.pc t = .done (.ok id)) : (s.now.fetchRunes (q t)).2 = .ok id := by
  have hg := hi.good t
  rw [ht] at hg
  rcases hg with ⟨_, hg⟩ | ⟨id', h1, h2, h3, h4, _⟩ | ⟨_, _, _, _, _, hg, _⟩
  · cases hg
  · obtain rfl := Out.ok.inj h1
    refine (fetch_walk s.now 0 _ (q t) h2).2 ⟨h4 hk, ?_⟩
    show _ < s.ix.items.nextID.toNat
    rw [hi.spells.next]
    exact ItemsSpell.lt h3
  · cases hg

/-- Found again exactly if nothing above was forgotten. -/
theorem AInv.foundIff {nul : Bool} {D : ID → Prop} (hi : AInv ix (dictOf h) adds q s ns) (hD : ForgetInv nul s D) {t : Nat} {id : ID}
    (ht : s.pc t = .done (.ok id)) :
    (s.now.fetchRunes (q t)).2 = .ok id ↔ ¬∃ a, Above s.ix.items a id ∧ D a := by
  have hg := hi.good t
  rw [ht] at hg
  rcases hg with ⟨_, hg⟩ | ⟨id', h1, h2, h3, _⟩ | ⟨_, _, _, _, _, hg, _⟩
  · cases hg
  · obtain rfl := Out.ok.inj h1
    show (s.now.fetchFromItem 0 (q t)).2 = .ok id ↔ _
    rw [fetch_walk s.now 0 id (q t) h2]
    have hlt : id.toNat < s.now.items.nextID.toNat := by
      show _ < s.ix.items.nextID.toNat
      rw [hi.spells.next]
      exact ItemsSpell.lt h3
    constructor
    · rintro ⟨hw, _⟩ ⟨a, ha, hr⟩
      exact hD.clean hi.ok (q t) id hw a ha hr
    · intro hno
      refine ⟨hD.found hi.ok hi.spells _ id (q t) rfl (hD.place t id (by rw [ht]; rfl)) h3 ?_, hlt⟩
      exact fun a ha hr => hno ⟨a, ha, hr⟩
  · cases hg

/-- A call given enough steps has returned; an addition of a word, a node. -/
theorem AInv.returns {sched : List Nat} {s0 : AState} (hi : AInv ix (dictOf h) adds q (s0.run sched) ns)
    (hc : (s0.run sched).crashed = false) {t : Nat} (h0 : s0.pc t = .check 0 (q t))
    (hk : 9 * (q t).length + 1 ≤ sched.count t) :
    ∃ o, (s0.run sched).pc t = .done o ∧ (q t ≠ [] → adds t = true → ∃ id, o = .ok id) := by
  have hl := s0.run_left sched t hc
  have e : (s0.pc t).left = 9 * (q t).length + 1 := by rw [h0]; rfl
  obtain ⟨o, ho⟩ := hi.finishes (t := t) (by omega)
  refine ⟨o, ho, fun hq ha => ?_⟩
  have hg := hi.good t
  rw [ho] at hg
  rcases hg with ⟨h1, _⟩ | ⟨id, h1, _⟩ | ⟨h1, _⟩
  · exact absurd h1 hq
  · exact ⟨id, h1⟩
  · rw [ha] at h1; cases h1

end

/-- Calls one after the other. -/
theorem AState.serial {q : Nat → List Rune} : ∀ ts : List Nat, ts.Nodup → ∀ s : AState, s.Idle →
    (∀ t ∈ ts, s.pc t = .check 0 (q t)) →
    let s' := s.run (ts.flatMap fun t => List.replicate (9 * (q t).length + 1) t);
    let after := fun ts : List Nat => ts.foldl (fun ix t => (callLoop (s.adds t) ix 0 (q t)).1) s.now
    s'.crashed = false ∧ s'.now = after ts ∧ (∀ u, u ∉ ts → s'.pc u = s.pc u) ∧
      ∀ pre t post, ts = pre ++ t :: post → s'.pc t = .done (callLoop (s.adds t) (after pre) 0 (q t)).2 := by
  intro ts
  induction ts with
  | nil =>
    intro _ s hi _
    refine ⟨hi.crashed, rfl, fun _ _ => rfl, ?_⟩
    intro pre t post e
    have := congrArg List.length e
    simp at this
  | cons a l ih =>
    intro hnd s hi hp
    rw [List.nodup_cons] at hnd
    simp only [List.flatMap_cons]
    rw [AState.run_append]
    obtain ⟨i1, n1, p1, a1⟩ := AState.alone a (q a) hi (hp a (by simp)) _ (Nat.le_refl _)
    generalize hs1 : s.run (List.replicate (9 * (q a).length + 1) a) = s1 at i1 n1 p1 a1 ⊢
    obtain ⟨h1, h2, h3, h4⟩ := ih hnd.2 s1 i1 (fun t ht => by
      have hta : t ≠ a := by rintro rfl; exact hnd.1 ht
      rw [p1, upd_other _ _ hta]; exact hp t (by simp [ht]))
    simp only [n1, a1] at h2 h4
    refine ⟨h1, h2, ?_, ?_⟩
    · intro u hu
      simp only [List.mem_cons, not_or] at hu
      rw [h3 u hu.2, p1, upd_other _ _ hu.1]
    · intro pre t post e
      cases pre with
      | nil =>
        simp only [List.nil_append, List.cons.injEq] at e
        obtain ⟨rfl, rfl⟩ := e
        rw [h3 a hnd.1, p1]
        exact upd_same _ _ _
      | cons b pre =>
        simp only [List.cons_append, List.cons.injEq] at e
        obtain ⟨rfl, e⟩ := e
        exact h4 pre t post e

end Verif
