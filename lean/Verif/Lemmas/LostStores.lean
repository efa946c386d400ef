import Verif.Lemmas.Concurrent

/-! # Helper lemmas: which stores of concurrent `NewChild` calls are lost -/

namespace Verif

/-- A field that holds `old` if its store was lost and `new` otherwise. -/
def FieldIs {α : Type} (lost : Prop) (new old x : α) : Prop := (lost → x = old) ∧ (¬lost → x = new)

theorem FieldIs.congr {α : Type} {p q : Prop} {new old x : α} (h : FieldIs p new old x) (e : p ↔ q) :
    FieldIs q new old x := ⟨fun hq => h.1 (e.2 hq), fun hq => h.2 fun hp => hq (e.1 hp)⟩

/-- The item after `k` of the four stores, of which those in `lost` never arrived. -/
structure Partly (k n : Nat) (arg : ID × Rune) (lost : Nat → Prop) (o it : Item) : Prop where
  id : FieldIs (k ≤ 0 ∨ lost 0) (UInt32.ofNat n) o.id it.id
  parent : FieldIs (k ≤ 1 ∨ lost 1) arg.1 o.parent it.parent
  letter : FieldIs (k ≤ 2 ∨ lost 2) arg.2 o.letter it.letter
  variants : FieldIs (k ≤ 3 ∨ lost 3) 0 o.variants it.variants

theorem Partly.zero (n : Nat) (arg : ID × Rune) (lost : Nat → Prop) (o : Item) : Partly 0 n arg lost o o :=
  ⟨⟨fun _ => rfl, fun h => absurd (.inl (by omega)) h⟩, ⟨fun _ => rfl, fun h => absurd (.inl (by omega)) h⟩,
    ⟨fun _ => rfl, fun h => absurd (.inl (by omega)) h⟩, ⟨fun _ => rfl, fun h => absurd (.inl (by omega)) h⟩⟩

/-- Only what happened to the stores already made counts. -/
theorem Partly.congr {k n : Nat} {arg : ID × Rune} {lost lost' : Nat → Prop} {o it : Item}
    (h : Partly k n arg lost o it) (e : ∀ j, j < k → (lost j ↔ lost' j)) : Partly k n arg lost' o it := by
  have key : ∀ j, (k ≤ j ∨ lost j) ↔ (k ≤ j ∨ lost' j) := by
    intro j
    by_cases hj : k ≤ j
    · simp [hj]
    · rw [e j (by omega)]
  exact ⟨h.id.congr (key 0), h.parent.congr (key 1), h.letter.congr (key 2), h.variants.congr (key 3)⟩

/-- A store that arrives. -/
theorem Partly.write {k n : Nat} {arg : ID × Rune} {lost : Nat → Prop} {o it : Item} (h : Partly k n arg lost o it)
    (hk : k ≤ 3) (hl : ¬lost k) : Partly (k + 1) n arg lost o (writeField k n arg it) := by
  have key : ∀ j, j ≠ k → ((k ≤ j ∨ lost j) ↔ (k + 1 ≤ j ∨ lost j)) := by
    intro j hj
    have : k ≤ j ↔ k + 1 ≤ j := by omega
    rw [this]
  have new : ∀ {α : Type} (x y : α), FieldIs (k + 1 ≤ k ∨ lost k) x y x := fun x y =>
    ⟨fun hh => hh.elim (fun h => absurd h (by omega)) fun h => absurd h hl, fun _ => rfl⟩
  match k, hk with
  | 0, _ => exact ⟨new _ _, h.parent.congr (key 1 (by decide)), h.letter.congr (key 2 (by decide)), h.variants.congr (key 3 (by decide))⟩
  | 1, _ => exact ⟨h.id.congr (key 0 (by decide)), new _ _, h.letter.congr (key 2 (by decide)), h.variants.congr (key 3 (by decide))⟩
  | 2, _ => exact ⟨h.id.congr (key 0 (by decide)), h.parent.congr (key 1 (by decide)), new _ _, h.variants.congr (key 3 (by decide))⟩
  | 3, _ => exact ⟨h.id.congr (key 0 (by decide)), h.parent.congr (key 1 (by decide)), h.letter.congr (key 2 (by decide)), new _ _⟩

/-- A store that is lost. -/
theorem Partly.skip {k n : Nat} {arg : ID × Rune} {lost : Nat → Prop} {o it : Item} (h : Partly k n arg lost o it)
    (hl : lost k) : Partly (k + 1) n arg lost o it := by
  have key : ∀ j, (k ≤ j ∨ lost j) ↔ (k + 1 ≤ j ∨ lost j) := by
    intro j
    by_cases hj : j = k
    · subst hj; exact ⟨fun _ => .inr hl, fun _ => .inr hl⟩
    · have : k ≤ j ↔ k + 1 ≤ j := by omega
      rw [this]
  exact ⟨h.id.congr (key 0), h.parent.congr (key 1), h.letter.congr (key 2), h.variants.congr (key 3)⟩

/-- What a call has achieved, seen in backing array `c`, when the stores in `lost` were overtaken by a copy. -/
def NPC.Told (c fresh : Nat) (heap : Nat → Nat → Item) (old : Nat → Item) (arg : ID × Rune) (lost : Nat → Prop) :
    NPC → Prop
  | .bumped n => heap c n = old n ∧ ∀ k, ¬lost k
  | .store k n => k ≤ 3 ∧ Partly k n arg lost (old n) (heap c n) ∧ ∀ j, k ≤ j → ¬lost j
  | .storing k n a => k ≤ 3 ∧ a < fresh ∧ (a = c ↔ ¬lost k) ∧ Partly k n arg lost (old n) (heap c n) ∧ ∀ j, k < j → ¬lost j
  | .ret n => Partly 4 n arg lost (old n) (heap c n)
  | .done n it => it = heap c n ∧ Partly 4 n arg lost (old n) (heap c n)
  | _ => ∀ k, ¬lost k

theorem NPC.Told.keep {c fresh : Nat} {heap heap' : Nat → Nat → Item} {old : Nat → Item} {arg : ID × Rune}
    {lost : Nat → Prop} {p : NPC} (h : p.Told c fresh heap old arg lost)
    (hs : ∀ n, p.owns = some n → heap' c n = heap c n) : p.Told c fresh heap' old arg lost := by
  cases p with
  | bumped n => rw [NPC.Told, hs n rfl]; exact h
  | store k n => rw [NPC.Told, hs n rfl]; exact h
  | storing k n a => rw [NPC.Told, hs n rfl]; exact h
  | ret n => rw [NPC.Told, hs n rfl]; exact h
  | done n it => rw [NPC.Told, hs n rfl]; exact h
  | _ => exact h

/-- The step of the schedule overtakes the `k`-th store of thread `t`. -/
def NState.Overtakes (s : NState) (e : Nat × Bool) (t k : Nat) : Prop :=
  s.Copies e.1 e.2 ∧ ∃ n a, s.pc t = .storing k n a

/-- The invariant. -/
structure EInv (args : Nat → ID × Rune) (old : Nat → Item) (n0 : Nat) (lost : Nat → Nat → Prop) (s : NState) : Prop where
  inv : NInv n0 s
  arr : s.cur < s.fresh
  idle : ∀ m, s.next ≤ m → m < s.len → s.heap s.cur m = old m
  past : ∀ m, s.len ≤ m → old m = zeroItem
  told : ∀ t, (s.pc t).Told s.cur s.fresh s.heap old (args t) (lost t)

theorem EInv.congr {args : Nat → ID × Rune} {old : Nat → Item} {n0 : Nat} {lost lost' : Nat → Nat → Prop} {s : NState}
    (h : EInv args old n0 lost s) (e : ∀ t k, lost t k ↔ lost' t k) : EInv args old n0 lost' s := by
  have : lost = lost' := funext fun t => funext fun k => propext (e t k)
  rw [← this]; exact h

/-- Nobody is overtaken by a step that does not copy. -/
theorem NState.not_overtakes {s : NState} {e : Nat × Bool} (h : ¬s.Copies e.1 e.2) (lost : Nat → Nat → Prop) (t k : Nat) :
    lost t k ↔ lost t k ∨ s.Overtakes e t k := ⟨.inl, fun hh => hh.elim id fun hh => absurd hh.1 h⟩

theorem EInv.step {args : Nat → ID × Rune} {old : Nat → Item} {n0 : Nat} {lost : Nat → Nat → Prop} {s : NState}
    (h : EInv args old n0 lost s) (t : Nat) (b : Bool) :
    EInv args old n0 (fun u k => lost u k ∨ s.Overtakes (t, b) u k) (s.step args t b) := by
  have hinv := h.inv.step args t b
  have hvis := h.told t
  have hcap := h.inv.cap
  have same : s.step args t b = s → ¬s.Copies t b →
      EInv args old n0 (fun u k => lost u k ∨ s.Overtakes (t, b) u k) (s.step args t b) := by
    intro hs hc
    rw [hs]
    exact h.congr (NState.not_overtakes hc lost)
  have mk : ∀ (s' : NState) (p : NPC), s'.pc = upd s.pc t p → s'.heap = s.heap → s'.cur = s.cur → s'.fresh = s.fresh →
      s'.len = s.len → s.next ≤ s'.next → s' = s.step args t b → ¬s.Copies t b →
      p.Told s.cur s.fresh s.heap old (args t) (lost t) →
      EInv args old n0 (fun u k => lost u k ∨ s.Overtakes (t, b) u k) (s.step args t b) := by
    intro s' p hpc hheap hcur hfr hlen hnext he hc hv
    subst he
    refine EInv.congr (lost := lost) ⟨hinv, ?_, ?_, ?_, ?_⟩ (NState.not_overtakes hc lost)
    · rw [hcur, hfr]; exact h.arr
    · intro m h1 h2; rw [hheap, hcur]; exact h.idle m (by omega) (by omega)
    · intro m h1; exact h.past m (by omega)
    · intro u
      rw [hpc, hheap, hcur, hfr]
      by_cases e : u = t
      · subst e; rw [upd_same]; exact hv
      · rw [upd_other _ _ e]; exact h.told u
  have nc : (∀ n len, s.pc t ≠ .sized n len) → ¬s.Copies t b := fun hn hc => by
    obtain ⟨_, n, len, hp, _⟩ := hc; exact hn n len hp
  cases hp : s.pc t with
  | start =>
    rw [hp] at hvis
    have hn : ¬s.Copies t b := nc (by rw [hp]; intro _ _ h; cases h)
    cases hl : s.lock with
    | some t' => exact same (by unfold NState.step; rw [hp]; simp only [hl]) hn
    | none =>
      exact mk ({ s with lock := some t }.goto t .locked) .locked rfl rfl rfl rfl rfl (Nat.le_refl _)
        (by unfold NState.step; rw [hp]; simp only [hl]) hn hvis
  | locked =>
    rw [hp] at hvis
    exact mk (s.goto t (.sized s.next s.len)) (.sized s.next s.len) rfl rfl rfl rfl rfl (Nat.le_refl _)
      (by unfold NState.step; rw [hp]) (nc (by rw [hp]; intro _ _ h; cases h)) hvis
  | sized n len =>
    rw [hp] at hvis
    have hloc := h.inv.loc t
    rw [hp] at hloc
    obtain ⟨rfl, rfl⟩ := hloc
    by_cases hle : s.len ≤ s.next
    · have hs : s.step args t b = (s.grow (Items.extendStep s.len) b).goto t (.extended s.next) := by
        unfold NState.step; rw [hp]; simp only; rw [if_pos hle]
      obtain ⟨g1, _, g3, g4⟩ := s.grow_facts (Items.extendStep s.len) b
      rw [hs] at hinv ⊢
      have hh : ∀ u m, (s.pc u).owns = some m →
          (s.grow (Items.extendStep s.len) b).heap (s.grow (Items.extendStep s.len) b).cur m = s.heap s.cur m := by
        intro u m hm
        have := h.inv.range u m hm
        exact s.grow_cur _ b (by omega)
      refine ⟨hinv, ?_, ?_, ?_, ?_⟩
      · show (s.grow _ b).cur < (s.grow _ b).fresh
        cases b with
        | true => exact h.arr
        | false => exact Nat.lt_succ_self _
      · intro m h1 h2
        replace h1 : s.next ≤ m := g3 ▸ h1
        replace h2 : m < s.len + Items.extendStep s.len := g4 ▸ h2
        rw [h.past m (by omega)]
        show (s.grow _ b).heap (s.grow _ b).cur m = zeroItem
        cases b with
        | true =>
          show upd s.heap s.cur _ s.cur m = _
          rw [upd_same, if_pos ⟨by omega, h2⟩]
        | false =>
          show upd s.heap s.fresh _ s.fresh m = _
          rw [upd_same, if_neg (by omega)]
      · intro m h1
        replace h1 : s.len + Items.extendStep s.len ≤ m := g4 ▸ h1
        exact h.past m (by omega)
      · intro u
        by_cases e : u = t
        · subst e
          rw [goto_pc_same]
          rintro k (hk | ⟨_, n, a, hk⟩)
          · exact hvis k hk
          · rw [hp] at hk; cases hk
        · rw [goto_pc_other _ _ e, g1]
          have hv := h.told u
          have hh := hh u
          show NPC.Told (s.grow _ b).cur (s.grow _ b).fresh (s.grow _ b).heap old (args u) _ (s.pc u)
          have none : (∀ k n a, s.pc u ≠ .storing k n a) → (fun k => lost u k ∨ s.Overtakes (t, b) u k) = lost u :=
            fun hn => funext fun k => propext ⟨fun hk => hk.elim id fun ⟨_, n, a, hk⟩ => absurd hk (hn k n a), .inl⟩
          cases hu : s.pc u with
          | storing k m a =>
            rw [hu] at hv
            obtain ⟨h1, h2, h3, h4, h5⟩ := hv
            have oth : ∀ j, j ≠ k → (lost u j ↔ lost u j ∨ s.Overtakes (t, b) u j) := fun j hj =>
              ⟨.inl, fun hk => hk.elim id fun ⟨_, n', a', hk⟩ => by rw [hu] at hk; cases hk; exact absurd rfl hj⟩
            refine ⟨h1, ?_, ?_, ?_, ?_⟩
            · cases b with
              | true => exact h2
              | false => exact Nat.lt_succ_of_lt h2
            · cases b with
              | true =>
                refine h3.trans (not_congr ⟨.inl, fun hk => hk.elim id fun hk => ?_⟩)
                cases hk.1.1
              | false =>
                constructor
                · intro ha; exact absurd (show a = s.fresh from ha) (by omega)
                · intro hn; exact absurd (.inr ⟨⟨rfl, _, _, hp, hle⟩, m, a, hu⟩) hn
            · rw [hh m (by rw [hu]; rfl)]
              exact h4.congr fun j hj => oth j (by omega)
            · intro j hj hl
              exact h5 j hj ((oth j (by omega)).2 hl)
          | bumped m => rw [hu] at hv; rw [none (by rw [hu]; intro _ _ _ h; cases h), NPC.Told, hh m (by rw [hu]; rfl)]; exact hv
          | store k m => rw [hu] at hv; rw [none (by rw [hu]; intro _ _ _ h; cases h), NPC.Told, hh m (by rw [hu]; rfl)]; exact hv
          | ret m => rw [hu] at hv; rw [none (by rw [hu]; intro _ _ _ h; cases h), NPC.Told, hh m (by rw [hu]; rfl)]; exact hv
          | done m it => rw [hu] at hv; rw [none (by rw [hu]; intro _ _ _ h; cases h), NPC.Told, hh m (by rw [hu]; rfl)]; exact hv
          | start => rw [hu] at hv; rw [none (by rw [hu]; intro _ _ _ h; cases h)]; exact hv
          | locked => rw [hu] at hv; rw [none (by rw [hu]; intro _ _ _ h; cases h)]; exact hv
          | sized _ _ => rw [hu] at hv; rw [none (by rw [hu]; intro _ _ _ h; cases h)]; exact hv
          | extended _ => rw [hu] at hv; rw [none (by rw [hu]; intro _ _ _ h; cases h)]; exact hv
          | panicked => rw [hu] at hv; rw [none (by rw [hu]; intro _ _ _ h; cases h)]; exact hv
    · refine mk (s.goto t (.extended s.next)) (.extended s.next) rfl rfl rfl rfl rfl (Nat.le_refl _) ?_ ?_ hvis
      · unfold NState.step
        rw [hp]
        simp only
        rw [if_neg hle]
      · rintro ⟨_, n, len, hp', hle'⟩
        rw [hp] at hp'
        cases hp'
        exact hle hle'
  | extended n =>
    rw [hp] at hvis
    have hloc := h.inv.loc t
    rw [hp] at hloc
    refine mk ({ s with next := s.next + 1 }.goto t (.bumped n)) (.bumped n) rfl rfl rfl rfl rfl (Nat.le_succ _)
      (by unfold NState.step; rw [hp]) (nc (by rw [hp]; intro _ _ h; cases h)) ⟨?_, hvis⟩
    exact h.idle n (by rw [hloc.1]) hloc.2
  | bumped n =>
    rw [hp] at hvis
    refine mk ({ s with lock := none }.goto t (.store 0 n)) (.store 0 n) rfl rfl rfl rfl rfl (Nat.le_refl _)
      (by unfold NState.step; rw [hp]) (nc (by rw [hp]; intro _ _ h; cases h)) ⟨by omega, ?_, fun j _ => hvis.2 j⟩
    rw [hvis.1]
    exact Partly.zero n (args t) (lost t) (old n)
  | store k n =>
    rw [hp] at hvis
    obtain ⟨h1, h2, h3⟩ := hvis
    have hr := h.inv.range t n (by rw [hp]; rfl)
    refine mk (s.goto t (.storing k n s.cur)) (.storing k n s.cur) rfl rfl rfl rfl rfl (Nat.le_refl _) ?_
      (nc (by rw [hp]; intro _ _ h; cases h))
      ⟨h1, h.arr, ⟨fun _ => h3 k (Nat.le_refl _), fun _ => rfl⟩, h2, fun j hj => h3 j (Nat.le_of_lt hj)⟩
    unfold NState.step
    rw [hp]
    simp only
    rw [if_pos (by omega)]
  | storing k n a =>
    rw [hp] at hvis
    obtain ⟨hk, ha, hcu, hpa, hlo⟩ := hvis
    have hstep : s.step args t b = { s with heap := upd s.heap a (upd (s.heap a) n (writeField k n (args t) (s.heap a n))) }.goto t
        (if k < 3 then .store (k + 1) n else .ret n) := by unfold NState.step; rw [hp]
    have hr := h.inv.range t n (by rw [hp]; rfl)
    refine EInv.congr (lost := lost) ?_ (NState.not_overtakes (nc (by rw [hp]; intro _ _ h; cases h)) lost)
    rw [hstep] at hinv ⊢
    have hoth : ∀ m, m ≠ n → upd s.heap a (upd (s.heap a) n (writeField k n (args t) (s.heap a n))) s.cur m = s.heap s.cur m := by
      intro m hm
      by_cases e : s.cur = a
      · rw [e, upd_same, upd_other _ _ hm]
      · rw [upd_other _ _ e]
    refine ⟨hinv, h.arr, ?_, h.past, ?_⟩
    · intro m h1 h2
      show upd s.heap a _ s.cur m = _
      replace h1 : s.next ≤ m := h1
      rw [hoth m (by omega)]
      exact h.idle m h1 h2
    · intro u
      show NPC.Told s.cur s.fresh (upd s.heap a _) old (args u) (lost u) (upd s.pc t _ u)
      by_cases e : u = t
      · subst e
        rw [upd_same]
        have hw : Partly (k + 1) n (args u) (lost u) (old n)
            (upd s.heap a (upd (s.heap a) n (writeField k n (args u) (s.heap a n))) s.cur n) := by
          by_cases hl : lost u k
          · have hne : s.cur ≠ a := fun e => hcu.1 e.symm hl
            rw [upd_other _ _ hne]
            exact hpa.skip hl
          · have hac := hcu.2 hl
            subst hac
            rw [upd_same, upd_same]
            exact hpa.write hk hl
        split
        · exact ⟨by omega, hw, fun j hj => hlo j hj⟩
        · have : k = 3 := by omega
          subst this
          exact hw
      · rw [upd_other _ _ e]
        refine (h.told u).keep ?_
        intro m hm
        refine hoth m ?_
        rintro rfl
        exact e (h.inv.uniq u t m hm (by rw [hp]; rfl))
  | ret n =>
    rw [hp] at hvis
    have hr := h.inv.range t n (by rw [hp]; rfl)
    refine mk (s.goto t (.done n (s.heap s.cur n))) (.done n (s.heap s.cur n)) rfl rfl rfl rfl rfl (Nat.le_refl _) ?_
      (nc (by rw [hp]; intro _ _ h; cases h)) ⟨rfl, hvis⟩
    unfold NState.step
    rw [hp]
    simp only
    rw [if_pos (by omega)]
  | done n it =>
    exact same (by unfold NState.step; rw [hp]) (nc (by rw [hp]; intro _ _ h; cases h))
  | panicked =>
    exact same (by unfold NState.step; rw [hp]) (nc (by rw [hp]; intro _ _ h; cases h))

/-- At some moment of the schedule the storage is copied while thread `t` has read where it is and has not yet written
its `k`-th field. -/
def LostStore (args : Nat → ID × Rune) (s : NState) (sched : List (Nat × Bool)) (t k : Nat) : Prop :=
  ∃ pre e post, sched = pre ++ e :: post ∧ (s.run args pre).Copies e.1 e.2 ∧ ∃ n a, (s.run args pre).pc t = .storing k n a

theorem LostStore.cons {args : Nat → ID × Rune} {s : NState} {e : Nat × Bool} {es : List (Nat × Bool)} {t k : Nat} :
    LostStore args s (e :: es) t k ↔ s.Overtakes e t k ∨ LostStore args (s.step args e.1 e.2) es t k := by
  constructor
  · rintro ⟨pre, e', post, he, hc, hp⟩
    cases pre with
    | nil =>
      cases he
      exact .inl ⟨hc, hp⟩
    | cons f pre =>
      cases he
      exact .inr ⟨pre, e', post, rfl, hc, hp⟩
  · rintro (⟨hc, hp⟩ | ⟨pre, e', post, rfl, hc, hp⟩)
    · exact ⟨[], e, es, rfl, hc, hp⟩
    · exact ⟨e :: pre, e', post, rfl, hc, hp⟩

theorem EInv.run {args : Nat → ID × Rune} {old : Nat → Item} {n0 : Nat} (sched : List (Nat × Bool))
    {lost : Nat → Nat → Prop} {s : NState} (h : EInv args old n0 lost s) :
    EInv args old n0 (fun t k => lost t k ∨ LostStore args s sched t k) (s.run args sched) := by
  induction sched generalizing s lost with
  | nil =>
    refine h.congr fun t k => ⟨.inl, fun hh => hh.elim id ?_⟩
    rintro ⟨pre, e, post, he, _⟩
    cases pre <;> cases he
  | cons e es ih =>
    refine (ih (h.step e.1 e.2)).congr fun t k => ?_
    rw [LostStore.cons, or_assoc]

end Verif
