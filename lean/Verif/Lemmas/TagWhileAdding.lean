import Verif.Spec.TagWhileAdding
import Verif.Lemmas.Concurrent

/-! # Helper lemmas: tagging while nodes are created -/

namespace Verif

/-- `NewChild` leaves nodes that were there in every array, and only moves the storage to a fresh array. -/
theorem NInv.leaves {n0 : Nat} {s : NState} (h : NInv n0 s) (args : Nat → ID × Rune) (t : Nat) (b : Bool) :
    let s' := s.step args t b
    (∀ a i, i < n0 → a < s.fresh → s'.heap a i = s.heap a i) ∧
    (s'.cur = s.cur ∧ s'.fresh = s.fresh ∨ s'.cur = s.fresh ∧ s'.fresh = s.fresh + 1 ∧
      ∀ i, i < n0 → s'.heap s'.cur i = s.heap s.cur i) := by
  have hlow := h.low
  have hcap := h.cap
  intro s'
  have keep : ∀ i, i < n0 → s'.heap s'.cur i = s.heap s.cur i := fun i hi => h.keeps args t b hi
  have hs : s' = s.step args t b := rfl
  unfold NState.step at hs
  cases hp : s.pc t with
  | start =>
    rw [hp] at hs
    simp only at hs
    split at hs <;> rw [hs] <;> exact ⟨fun _ _ _ _ => rfl, .inl ⟨rfl, rfl⟩⟩
  | sized n len =>
    rw [hp] at hs
    simp only at hs
    split at hs
    · by_cases hb : b = true
      · have e : (s.grow (Items.extendStep len) b) = { s with
            len := s.len + Items.extendStep len
            heap := upd s.heap s.cur (fun i =>
              if s.len ≤ i ∧ i < s.len + Items.extendStep len then zeroItem else s.heap s.cur i) } := by
          unfold NState.grow; rw [if_pos hb]
        rw [e] at hs
        refine ⟨fun a i hi ha => ?_, .inl ⟨by rw [hs]; rfl, by rw [hs]; rfl⟩⟩
        rw [hs]
        show upd s.heap s.cur _ a i = _
        by_cases hac : a = s.cur
        · rw [hac, upd_same, if_neg (by omega)]
        · rw [upd_other _ _ hac]
      · have e : (s.grow (Items.extendStep len) b) = { s with
            len := s.len + Items.extendStep len
            cur := s.fresh
            fresh := s.fresh + 1
            heap := upd s.heap s.fresh (fun i => if i < s.len then s.heap s.cur i else zeroItem) } := by
          unfold NState.grow; rw [if_neg hb]
        rw [e] at hs
        refine ⟨fun a i hi ha => ?_, .inr ⟨by rw [hs]; rfl, by rw [hs]; rfl, keep⟩⟩
        rw [hs]
        show upd s.heap s.fresh _ a i = _
        rw [upd_other _ _ (by omega)]
    · rw [hs]; exact ⟨fun _ _ _ _ => rfl, .inl ⟨rfl, rfl⟩⟩
  | store k n =>
    rw [hp] at hs
    simp only at hs
    split at hs <;> rw [hs] <;> exact ⟨fun _ _ _ _ => rfl, .inl ⟨rfl, rfl⟩⟩
  | ret n =>
    rw [hp] at hs
    simp only at hs
    split at hs <;> rw [hs] <;> exact ⟨fun _ _ _ _ => rfl, .inl ⟨rfl, rfl⟩⟩
  | storing k n a =>
    rw [hp] at hs
    simp only at hs
    have hr := h.range t n (by rw [hp]; rfl)
    refine ⟨fun a' i hi _ => ?_, .inl ⟨by rw [hs]; rfl, by rw [hs]; rfl⟩⟩
    rw [hs]
    show upd s.heap a (upd (s.heap a) n _) a' i = _
    by_cases e : a' = a
    · rw [e, upd_same, upd_other _ _ (by omega)]
    · rw [upd_other _ _ e]
  | locked => rw [hp] at hs; rw [hs]; exact ⟨fun _ _ _ _ => rfl, .inl ⟨rfl, rfl⟩⟩
  | extended n => rw [hp] at hs; rw [hs]; exact ⟨fun _ _ _ _ => rfl, .inl ⟨rfl, rfl⟩⟩
  | bumped n => rw [hp] at hs; rw [hs]; exact ⟨fun _ _ _ _ => rfl, .inl ⟨rfl, rfl⟩⟩
  | done n it => rw [hp] at hs; rw [hs]; exact ⟨fun _ _ _ _ => rfl, .inl ⟨rfl, rfl⟩⟩
  | panicked => rw [hp] at hs; rw [hs]; exact ⟨fun _ _ _ _ => rfl, .inl ⟨rfl, rfl⟩⟩

/-- The invariant does not look at the nodes. -/
theorem NInv.heap {n0 : Nat} {s : NState} (h : NInv n0 s) (hp : Nat → Nat → Item) : NInv n0 { s with heap := hp } := by
  refine ⟨h.lock, fun t => ?_, h.low, h.cap, h.range, h.uniq, h.surj⟩
  have := h.loc t
  show NPC.Local _ (s.pc t)
  generalize s.pc t = p at this
  cases p <;> exact this

section

variable {args : Nat → ID × Rune} {word : Nat → Nat} {f : Nat → VariantID → VariantID}

theorem GState.goto_same (s : GState) (t : Nat) (p : GPC) : (s.goto t p).pc t = p := upd_same _ _ _
theorem GState.goto_other (s : GState) {t u : Nat} (p : GPC) (h : u ≠ t) : (s.goto t p).pc u = s.pc u := upd_other _ _ h

theorem GState.run_snoc (s : GState) (sched : List GEv) (e : GEv) :
    s.run args word f (sched ++ [e]) = (s.run args word f sched).step args word f e := by
  unfold GState.run
  rw [List.foldl_append]
  rfl

theorem Overtaken.snoc {s : GState} {sched : List GEv} {e : GEv} {t : Nat} :
    Overtaken args word f s (sched ++ [e]) t ↔ Overtaken args word f s sched t ∨
      (((s.run args word f sched).step args word f e).n.cur ≠ (s.run args word f sched).n.cur ∧
        ((s.run args word f sched).pc t).Holds) := by
  constructor
  · rintro ⟨pre, e', post, he, h⟩
    rcases List.eq_nil_or_concat post with rfl | ⟨post', x, rfl⟩
    · obtain ⟨rfl, he'⟩ := List.append_inj' he rfl
      cases he'
      exact .inr h
    · rw [List.concat_eq_append, ← List.cons_append, ← List.append_assoc] at he
      obtain ⟨rfl, -⟩ := List.append_inj' he rfl
      exact .inl ⟨pre, e', post', rfl, h⟩
  · rintro (⟨pre, e', post, rfl, h⟩ | h)
    · exact ⟨pre, e', post ++ [e], by simp, h⟩
    · exact ⟨sched, e, [], rfl, h⟩

/-- What is known about a tagging goroutine and its node. -/
def GPC.Knows (s : NState) (old : Item) (w : Nat) (g : VariantID → VariantID) (lost : Prop) : GPC → Prop
  | .start | .checked => ¬ lost ∧ s.heap s.cur w = old
  | .held a => a < s.fresh ∧ (a = s.cur ↔ ¬ lost) ∧ s.heap s.cur w = old ∧ s.heap a w = old
  | .found a v => a < s.fresh ∧ (a = s.cur ↔ ¬ lost) ∧ s.heap s.cur w = old ∧ s.heap a w = old ∧ v = old.variants
  | .done v => v = g old.variants ∧ (lost → s.heap s.cur w = old) ∧ (¬ lost → s.heap s.cur w = { old with variants := v })
  | .panicked => False

theorem GPC.Knows.keep {s s' : NState} {old : Item} {w : Nat} {g : VariantID → VariantID} {lost : Prop} {p : GPC}
    (h : p.Knows s old w g lost) (hc : s'.cur = s.cur) (hf : s'.fresh = s.fresh) (hlt : s.cur < s.fresh)
    (hh : ∀ a, a < s.fresh → s'.heap a w = s.heap a w) : p.Knows s' old w g lost := by
  cases p with
  | start => unfold Knows at h ⊢; rw [hc, hh _ hlt]; exact h
  | checked => unfold Knows at h ⊢; rw [hc, hh _ hlt]; exact h
  | held a =>
    obtain ⟨h1, h2, h3, h4⟩ := h
    exact ⟨by rw [hf]; exact h1, by rw [hc]; exact h2, by rw [hc, hh _ hlt]; exact h3, by rw [hh _ h1]; exact h4⟩
  | found a v =>
    obtain ⟨h1, h2, h3, h4, h5⟩ := h
    exact ⟨by rw [hf]; exact h1, by rw [hc]; exact h2, by rw [hc, hh _ hlt]; exact h3, by rw [hh _ h1]; exact h4, h5⟩
  | done v => unfold Knows at h ⊢; rw [hc, hh _ hlt]; exact h
  | panicked => exact h

theorem GPC.Knows.congr {s : NState} {old : Item} {w : Nat} {g : VariantID → VariantID} {lost lost' : Prop} {p : GPC}
    (h : p.Knows s old w g lost) (e : lost ↔ lost') : p.Knows s old w g lost' := by
  rw [← propext e]; exact h

/-- The invariant of the tagging goroutine `t`, alone with its node. -/
structure HeldInv (items : Nat → Item) (n0 t : Nat) (word : Nat → Nat) (f : Nat → VariantID → VariantID) (lost : Prop)
    (s : GState) : Prop where
  inv : NInv n0 s.n
  arr : s.n.cur < s.n.fresh
  others : ∀ u a, (s.pc u = .held a ∨ ∃ v, s.pc u = .found a v) → a < s.n.fresh
  knows : (s.pc t).Knows s.n (items (word t)) (word t) (f t) lost

theorem HeldInv.step {items : Nat → Item} {n0 t : Nat} {lost : Prop} {s : GState}
    (h : HeldInv items n0 t word f lost s) (h0 : 0 < word t) (h1 : word t < n0) (hu : ∀ u, word u = word t → u = t) (e : GEv) :
    HeldInv items n0 t word f (lost ∨ ((s.step args word f e).n.cur ≠ s.n.cur ∧ (s.pc t).Holds)) (s.step args word f e) := by
  obtain ⟨inv, arr, others, knows⟩ := h
  cases e with
  | add u b =>
    obtain ⟨hl, hm⟩ := inv.leaves args u b
    have hpc : (s.step args word f (.add u b)).pc = s.pc := rfl
    have hn : (s.step args word f (.add u b)).n = s.n.step args u b := rfl
    rw [hn]
    rcases hm with ⟨hc, hf⟩ | ⟨hc, hf, hk⟩
    · refine ⟨inv.step args u b, by rw [hn, hc, hf]; exact arr, fun u' a ha => by rw [hn, hf]; exact others u' a ha, ?_⟩
      rw [hpc, hn]
      exact (knows.keep hc hf arr fun a ha => hl a _ h1 ha).congr ⟨.inl, fun hh => hh.elim id fun hh => absurd hc hh.1⟩
    · have hne : (s.n.step args u b).cur ≠ s.n.cur := by rw [hc]; omega
      refine ⟨inv.step args u b, by rw [hn, hc, hf]; omega, fun u' a ha => by rw [hn, hf]; exact Nat.lt_succ_of_lt (others u' a ha), ?_⟩
      rw [hpc, hn]
      have hk := hk _ h1
      cases hp : s.pc t with
      | start =>
        rw [hp] at knows
        exact ⟨fun hh => hh.elim knows.1 fun hh => hh.2, hk.trans knows.2⟩
      | checked =>
        rw [hp] at knows
        exact ⟨fun hh => hh.elim knows.1 fun hh => hh.2, hk.trans knows.2⟩
      | held a =>
        rw [hp] at knows
        obtain ⟨k1, k2, k3, k4⟩ := knows
        exact ⟨by rw [hf]; omega, ⟨fun hh => absurd (hh.trans hc) (by omega), fun hh => absurd (Or.inr ⟨hne, trivial⟩) hh⟩,
          hk.trans k3, (hl a _ h1 k1).trans k4⟩
      | found a v =>
        rw [hp] at knows
        obtain ⟨k1, k2, k3, k4, k5⟩ := knows
        exact ⟨by rw [hf]; omega, ⟨fun hh => absurd (hh.trans hc) (by omega), fun hh => absurd (Or.inr ⟨hne, trivial⟩) hh⟩,
          hk.trans k3, (hl a _ h1 k1).trans k4, k5⟩
      | done v =>
        rw [hp] at knows
        obtain ⟨k1, k2, k3⟩ := knows
        exact ⟨k1, fun hh => hk.trans (k2 (hh.elim id fun hh => hh.2.elim)), fun hh => hk.trans (k3 fun hl => hh (.inl hl))⟩
      | panicked => rw [hp] at knows; exact knows
  | tag u =>
    have hlow := inv.low
    have hcap := inv.cap
    -- a step of `u` that only changes its own program counter
    have move : ∀ p, (s.step args word f (.tag u)) = s.goto u p → (∀ a, (p = .held a ∨ ∃ v, p = .found a v) → a < s.n.fresh) →
        (u = t → p.Knows s.n (items (word t)) (word t) (f t) lost) →
        HeldInv items n0 t word f (lost ∨ ((s.step args word f (.tag u)).n.cur ≠ s.n.cur ∧ (s.pc t).Holds)) (s.step args word f (.tag u)) := by
      intro p hs ha hk
      rw [hs]
      refine ⟨inv, arr, fun u' a hh => ?_, ?_⟩
      · by_cases e : u' = u
        · subst e
          rw [show (s.goto u' p).pc u' = p from upd_same _ _ _] at hh
          exact ha a hh
        · rw [show (s.goto u p).pc u' = s.pc u' from upd_other _ _ e] at hh
          exact others u' a hh
      · refine GPC.Knows.congr ?_ (⟨.inl, fun hh => hh.elim id fun hh => absurd rfl hh.1⟩ : lost ↔ _)
        by_cases e : u = t
        · rw [e, show (s.goto t p).pc t = p from upd_same _ _ _]
          exact hk e
        · rw [show (s.goto u p).pc t = s.pc t from upd_other _ _ (Ne.symm e)]
          exact knows
    cases hp : s.pc u with
    | start =>
      by_cases hw : 0 < word u ∧ word u < s.n.next
      · refine move .checked (by unfold GState.step; simp only [hp]; rw [if_pos hw]) (by rintro a (h | ⟨v, h⟩) <;> cases h) ?_
        rintro rfl
        rw [hp] at knows; exact knows
      · refine move .panicked (by unfold GState.step; simp only [hp]; rw [if_neg hw]) (by rintro a (h | ⟨v, h⟩) <;> cases h) ?_
        rintro rfl
        exact absurd ⟨h0, by omega⟩ hw
    | checked =>
      by_cases hw : word u < s.n.len
      · refine move (.held s.n.cur) (by unfold GState.step; simp only [hp]; rw [if_pos hw])
          (by rintro a (h | ⟨v, h⟩) <;> cases h; exact arr) ?_
        rintro rfl
        rw [hp] at knows; exact ⟨arr, ⟨fun _ => knows.1, fun _ => rfl⟩, knows.2, knows.2⟩
      · refine move .panicked (by unfold GState.step; simp only [hp]; rw [if_neg hw]) (by rintro a (h | ⟨v, h⟩) <;> cases h) ?_
        rintro rfl
        exact absurd (by omega) hw
    | held a =>
      refine move (.found a (s.n.heap a (word u)).variants) (by unfold GState.step; simp only [hp])
        (by rintro a (h | ⟨v, h⟩) <;> cases h; exact others u _ (.inl hp)) ?_
      rintro rfl
      rw [hp] at knows
      obtain ⟨k1, k2, k3, k4⟩ := knows
      exact ⟨k1, k2, k3, k4, by rw [k4]⟩
    | found a v =>
      have hs : s.step args word f (.tag u) = { s with n := { s.n with heap := upd s.n.heap a (upd (s.n.heap a) (word u)
          { s.n.heap a (word u) with variants := f u v }) } }.goto u (.done (f u v)) := by
        unfold GState.step; simp only [hp]
      rw [hs]
      refine ⟨inv.heap _, arr, fun u' a' hh => ?_, ?_⟩
      · by_cases e : u' = u
        · subst e
          rw [show (GState.goto _ u' (.done (f u' v))).pc u' = _ from upd_same _ _ _] at hh
          rcases hh with h | ⟨_, h⟩ <;> cases h
        · rw [GState.goto_other _ _ e] at hh
          exact others u' a' hh
      · refine GPC.Knows.congr ?_ (⟨.inl, fun hh => hh.elim id fun hh => absurd rfl hh.1⟩ : lost ↔ _)
        by_cases e : u = t
        · subst e
          rw [show (GState.goto _ u (.done (f u v))).pc u = _ from upd_same _ _ _]
          rw [hp] at knows
          obtain ⟨k1, k2, k3, k4, k5⟩ := knows
          refine ⟨by rw [k5], fun hl => ?_, fun hl => ?_⟩
          · show upd s.n.heap a _ s.n.cur (word u) = _
            rw [upd_other _ _ fun hh => (k2.1 hh.symm) hl]
            exact k3
          · show upd s.n.heap a _ s.n.cur (word u) = _
            rw [← k2.2 hl, upd_same, upd_same, k4]
        · rw [GState.goto_other _ _ (Ne.symm e)]
          refine knows.keep (s' := { s.n with heap := upd s.n.heap a (upd (s.n.heap a) (word u)
            { s.n.heap a (word u) with variants := f u v }) }) rfl rfl arr fun a' _ => ?_
          show upd s.n.heap a _ a' (word t) = _
          by_cases e' : a' = a
          · rw [e', upd_same, upd_other _ _ fun hh => e (hu u hh.symm)]
          · rw [upd_other _ _ e']
    | done v =>
      have hs : s.step args word f (.tag u) = s := by unfold GState.step; simp only [hp]
      rw [hs]
      exact ⟨inv, arr, others, knows.congr ⟨.inl, fun hh => hh.elim id fun hh => absurd rfl hh.1⟩⟩
    | panicked =>
      have hs : s.step args word f (.tag u) = s := by unfold GState.step; simp only [hp]
      rw [hs]
      exact ⟨inv, arr, others, knows.congr ⟨.inl, fun hh => hh.elim id fun hh => absurd rfl hh.1⟩⟩

theorem HeldInv.run (items : Nat → Item) {len next t : Nat} (hlen : next ≤ len) (h0 : 0 < word t) (h1 : word t < next)
    (hu : ∀ u, word u = word t → u = t) (sched : List GEv) :
    HeldInv items next t word f (Overtaken args word f (GState.init items len next) sched t)
      ((GState.init items len next).run args word f sched) := by
  obtain ⟨r, rfl⟩ : ∃ r : List GEv, sched = r.reverse := ⟨sched.reverse, by rw [List.reverse_reverse]⟩
  induction r with
  | nil =>
    refine ⟨NInv.init items hlen, Nat.one_pos, ?_, ?_, rfl⟩
    · rintro u a (h | ⟨v, h⟩) <;> cases h
    · rintro ⟨pre, e, post, he, _⟩
      cases pre <;> cases he
  | cons e r ih =>
    rw [List.reverse_cons, GState.run_snoc]
    have := ih.step (args := args) h0 h1 hu e
    rw [← Overtaken.snoc] at this
    exact this

/-- With room for all new nodes the nodes stay where they are. -/
theorem GState.stays {n0 T L : Nat} (hL : n0 + T ≤ L) (sched : List GEv) (hT : ∀ t b, GEv.add t b ∈ sched → t < T) :
    ∀ s : GState, NInv n0 s.n → (∀ t, T ≤ t → s.n.pc t = .start) → s.n.len = L → s.n.cur = 0 →
    (s.run args word f sched).n.cur = 0 := by
  induction sched with
  | nil => intro s _ _ _ h; exact h
  | cons e sched ih =>
    intro s inv idle len cur
    have ih := ih fun t b h => hT t b (List.mem_cons_of_mem _ h)
    cases e with
    | tag u =>
      have : (s.step args word f (.tag u)).n = { s.n with heap := (s.step args word f (.tag u)).n.heap } := by
        cases hp : s.pc u with
        | start => unfold GState.step; simp only [hp]; split <;> rfl
        | checked => unfold GState.step; simp only [hp]; split <;> rfl
        | held a => unfold GState.step; simp only [hp]; rfl
        | found a v => unfold GState.step; simp only [hp]; rfl
        | done v => unfold GState.step; simp only [hp]
        | panicked => unfold GState.step; simp only [hp]
      refine ih (s.step args word f (.tag u)) ?_ ?_ ?_ ?_ <;> rw [this]
      · exact inv.heap _
      · exact idle
      · exact len
      · exact cur
    | add u b =>
      have hu : u < T := hT u b List.mem_cons_self
      have same : (s.n.step args u b).len = s.n.len ∧ (s.n.step args u b).cur = s.n.cur := by
        unfold NState.step
        cases hp : s.n.pc u with
        | start => simp only; split <;> exact ⟨rfl, rfl⟩
        | sized n len' =>
          have hl := inv.loc u
          rw [hp] at hl
          have := inv.room idle hu (by rw [hp]; rfl)
          simp only
          rw [if_neg (by rw [hl.1, hl.2]; omega)]
          exact ⟨rfl, rfl⟩
        | store k n => simp only; split <;> exact ⟨rfl, rfl⟩
        | ret n => simp only; split <;> exact ⟨rfl, rfl⟩
        | _ => exact ⟨rfl, rfl⟩
      refine ih (s.step args word f (.add u b)) (inv.step args u b) (fun t ht => ?_) (same.1.trans len) (same.2.trans cur)
      · have hne : t ≠ u := by omega
        rw [← idle t ht]
        show (s.n.step args u b).pc t = _
        unfold NState.step
        cases hp : s.n.pc u with
        | start => simp only; split <;> first | rfl | exact goto_pc_other _ _ hne
        | sized n len =>
          simp only
          split
          · rw [goto_pc_other _ _ hne, (s.n.grow_facts _ b).1]
          · exact goto_pc_other _ _ hne
        | store k n => simp only; split <;> exact goto_pc_other _ _ hne
        | ret n => simp only; split <;> exact goto_pc_other _ _ hne
        | done n it => rfl
        | panicked => rfl
        | _ => exact goto_pc_other _ _ hne

end

end Verif
