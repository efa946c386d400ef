import Verif.Model.Concurrent
import Verif.Lemmas.LoadSafe

/-! # Helper lemmas: concurrent calls -/

namespace Verif

@[simp] theorem upd_same {α : Type} (f : Nat → α) (i : Nat) (x : α) : upd f i x i = x := if_pos rfl
theorem upd_other {α : Type} (f : Nat → α) {i j : Nat} (x : α) (h : j ≠ i) : upd f i x j = f j := if_neg h

/-! ## `NewChild` -/

/-- The call holds the lock. -/
def NPC.holds : NPC → Bool
  | .locked | .sized _ _ | .extended _ | .bumped _ => true
  | _ => false

/-- The id the call has obtained. -/
def NPC.owns : NPC → Option Nat
  | .bumped n | .store _ n | .storing _ n _ | .ret n | .done n _ => some n
  | _ => none

/-- What is known about the local variables of a call. -/
def NPC.Local (s : NState) : NPC → Prop
  | .sized n len => n = s.next ∧ len = s.len
  | .extended n => n = s.next ∧ n < s.len
  | .panicked => False
  | _ => True

/-- The invariant of `NewChild` calls that started with `n0` ids in use. -/
structure NInv (n0 : Nat) (s : NState) : Prop where
  lock : ∀ t, (s.pc t).holds = true ↔ s.lock = some t
  loc : ∀ t, (s.pc t).Local s
  low : n0 ≤ s.next
  cap : s.next ≤ s.len
  range : ∀ t n, (s.pc t).owns = some n → n0 ≤ n ∧ n < s.next
  uniq : ∀ t t' n, (s.pc t).owns = some n → (s.pc t').owns = some n → t = t'
  surj : ∀ n, n0 ≤ n → n < s.next → ∃ t, (s.pc t).owns = some n

theorem NInv.init (items : Nat → Item) {len next : Nat} (h : next ≤ len) :
    NInv next (NState.init items len next) := by
  refine ⟨fun t => ⟨fun h => (nomatch h), fun h => (nomatch h)⟩, fun t => trivial, Nat.le_refl _, h, ?_, ?_, ?_⟩
  · intro t n h; cases h
  · intro t t' n h; cases h
  · intro n h1 h2
    exact absurd h1 (Nat.not_le.2 h2)

@[simp] theorem goto_pc_same (s : NState) (t : Nat) (p : NPC) : (s.goto t p).pc t = p := if_pos rfl
theorem goto_pc_other (s : NState) {t t' : Nat} (p : NPC) (h : t' ≠ t) : (s.goto t p).pc t' = s.pc t' := if_neg h

/-- A step that only moves thread `t` to a place with the same lock status and the same id. -/
theorem NInv.move {n0 : Nat} {s s' : NState} (h : NInv n0 s) {t : Nat} {p : NPC}
    (hpc : s'.pc = upd s.pc t p) (hl : s'.lock = s.lock) (hn : s'.next = s.next) (hlen : s'.len = s.len)
    (hh : p.holds = (s.pc t).holds) (ho : p.owns = (s.pc t).owns) (hloc : p.Local s') : NInv n0 s' := by
  have key : ∀ t', (s'.pc t').holds = (s.pc t').holds ∧ (s'.pc t').owns = (s.pc t').owns := by
    intro t'
    rw [hpc]
    by_cases e : t' = t
    · subst e; rw [upd_same]; exact ⟨hh, ho⟩
    · rw [upd_other _ _ e]; exact ⟨rfl, rfl⟩
  refine ⟨?_, ?_, by rw [hn]; exact h.low, by rw [hn, hlen]; exact h.cap, ?_, ?_, ?_⟩
  · intro t'; rw [(key t').1, hl]; exact h.lock t'
  · intro t'
    by_cases e : t' = t
    · subst e; rw [hpc, upd_same]; exact hloc
    · rw [hpc, upd_other _ _ e]
      have := h.loc t'
      revert this
      cases s.pc t' <;> simp only [NPC.Local, hn, hlen] <;> exact id
  · intro t' n; rw [(key t').2, hn]; exact h.range t' n
  · intro a b n; rw [(key a).2, (key b).2]; exact h.uniq a b n
  · intro n h1 h2
    rw [hn] at h2
    obtain ⟨a, ha⟩ := h.surj n h1 h2
    exact ⟨a, by rw [(key a).2]; exact ha⟩

theorem NState.grow_facts (s : NState) (count : Nat) (b : Bool) :
    (s.grow count b).pc = s.pc ∧ (s.grow count b).lock = s.lock ∧ (s.grow count b).next = s.next ∧
    (s.grow count b).len = s.len + count := by
  unfold NState.grow
  split <;> exact ⟨rfl, rfl, rfl, rfl⟩

/-- Only one thread holds the lock. -/
theorem NInv.only {n0 : Nat} {s : NState} (h : NInv n0 s) {t t' : Nat} (h1 : (s.pc t).holds = true)
    (h2 : (s.pc t').holds = true) : t = t' := by
  have a := (h.lock t).1 h1
  have b := (h.lock t').1 h2
  rw [a] at b
  exact Option.some.inj b

theorem NInv.step {n0 : Nat} {s : NState} (h : NInv n0 s) (args : Nat → ID × Rune) (t : Nat) (b : Bool) :
    NInv n0 (s.step args t b) := by
  unfold NState.step
  cases hp : s.pc t with
  | start =>
    simp only
    cases hl : s.lock with
    | some t' => exact h
    | none =>
      simp only
      have hno : ∀ t', (s.pc t').holds = false := by
        intro t'
        cases hh : (s.pc t').holds with
        | false => rfl
        | true => have := (h.lock t').1 hh; rw [hl] at this; cases this
      have hown : ∀ t', (upd s.pc t .locked t').owns = (s.pc t').owns := by
        intro t'
        by_cases e : t' = t
        · subst e; rw [upd_same, hp]; rfl
        · rw [upd_other _ _ e]
      refine ⟨?_, ?_, h.low, h.cap, ?_, ?_, ?_⟩
      · intro t'
        show (upd s.pc t .locked t').holds = true ↔ some t = some t'
        by_cases e : t' = t
        · subst e; rw [upd_same]; exact ⟨fun _ => rfl, fun _ => rfl⟩
        · rw [upd_other _ _ e, hno t']
          exact ⟨fun h => (nomatch h), fun h => absurd (Option.some.inj h).symm e⟩
      · intro t'
        show NPC.Local _ (upd s.pc t .locked t')
        by_cases e : t' = t
        · subst e; rw [upd_same]; exact trivial
        · rw [upd_other _ _ e]
          have := h.loc t'
          revert this
          cases s.pc t' <;> exact id
      · intro t' n; exact (hown t') ▸ h.range t' n
      · intro a c n ha hc
        exact h.uniq a c n ((hown a) ▸ ha) ((hown c) ▸ hc)
      · intro n h1 h2
        obtain ⟨a, ha⟩ := h.surj n h1 h2
        exact ⟨a, (hown a).symm ▸ ha⟩
  | locked =>
    exact h.move rfl rfl rfl rfl (by rw [hp]; rfl) (by rw [hp]; rfl) ⟨rfl, rfl⟩
  | sized n len =>
    have hloc := h.loc t
    rw [hp] at hloc
    obtain ⟨rfl, rfl⟩ := hloc
    simp only
    split
    · rename_i hle
      obtain ⟨g1, g2, g3, g4⟩ := s.grow_facts (Items.extendStep s.len) b
      have hpos := extendStep_pos s.len
      have hcap := h.cap
      have hold : (s.pc t).holds = true := by rw [hp]; rfl
      have key : ∀ t', ((upd (s.grow (Items.extendStep s.len) b).pc t (.extended s.next)) t').holds = (s.pc t').holds ∧
          ((upd (s.grow (Items.extendStep s.len) b).pc t (.extended s.next)) t').owns = (s.pc t').owns := by
        intro t'
        rw [g1]
        by_cases e : t' = t
        · subst e; rw [upd_same, hp]; exact ⟨rfl, rfl⟩
        · rw [upd_other _ _ e]; exact ⟨rfl, rfl⟩
      refine ⟨?_, ?_, ?_, ?_, ?_, ?_, ?_⟩
      · intro t'
        show _ ↔ (s.grow _ b).lock = some t'
        rw [g2]
        exact (key t').1 ▸ h.lock t'
      · intro t'
        show NPC.Local _ (upd (s.grow (Items.extendStep s.len) b).pc t (.extended s.next) t')
        by_cases e : t' = t
        · subst e
          rw [upd_same]
          refine ⟨?_, ?_⟩
          · show s.next = (s.grow _ b).next; rw [g3]
          · show s.next < (s.grow _ b).len; rw [g4]; omega
        · rw [g1, upd_other _ _ e]
          have hl := h.loc t'
          have hh : (s.pc t').holds = false := by
            cases hh : (s.pc t').holds with
            | false => rfl
            | true => exact absurd (h.only hh hold) e
          revert hl hh
          cases s.pc t' <;> simp [NPC.Local, NPC.holds]
      · show n0 ≤ (s.grow _ b).next; rw [g3]; exact h.low
      · show (s.grow _ b).next ≤ (s.grow _ b).len; rw [g3, g4]; omega
      · intro t' m hm
        show n0 ≤ m ∧ m < (s.grow _ b).next
        rw [g3]
        exact h.range t' m ((key t').2 ▸ hm)
      · intro a c m ha hc
        exact h.uniq a c m ((key a).2 ▸ ha) ((key c).2 ▸ hc)
      · intro m h1 h2
        have h2 : m < (s.grow (Items.extendStep s.len) b).next := h2
        rw [g3] at h2
        obtain ⟨a, ha⟩ := h.surj m h1 h2
        exact ⟨a, (key a).2.symm ▸ ha⟩
    · rename_i hlt
      refine h.move rfl rfl rfl rfl (by rw [hp]; rfl) (by rw [hp]; rfl) ⟨rfl, ?_⟩
      exact Nat.not_le.1 hlt
  | extended n =>
    have hloc := h.loc t
    rw [hp] at hloc
    obtain ⟨rfl, hlt⟩ := hloc
    simp only
    have hold : (s.pc t).holds = true := by rw [hp]; rfl
    refine ⟨?_, ?_, ?_, ?_, ?_, ?_, ?_⟩
    · intro t'
      show (upd s.pc t (.bumped s.next) t').holds = true ↔ s.lock = some t'
      by_cases e : t' = t
      · subst e; rw [upd_same, ← h.lock t', hp]; rfl
      · rw [upd_other _ _ e]; exact h.lock t'
    · intro t'
      show NPC.Local _ (upd s.pc t (.bumped s.next) t')
      by_cases e : t' = t
      · subst e; rw [upd_same]; exact trivial
      · rw [upd_other _ _ e]
        have hl := h.loc t'
        have hh : (s.pc t').holds = false := by
          cases hh : (s.pc t').holds with
          | false => rfl
          | true => exact absurd (h.only hh hold) e
        revert hl hh
        cases s.pc t' <;> simp [NPC.Local, NPC.holds]
    · show n0 ≤ s.next + 1; have := h.low; omega
    · show s.next + 1 ≤ s.len; omega
    · intro t' m hm
      have hm : (upd s.pc t (.bumped s.next) t').owns = some m := hm
      show n0 ≤ m ∧ m < s.next + 1
      by_cases e : t' = t
      · subst e; rw [upd_same] at hm
        obtain rfl := Option.some.inj hm
        exact ⟨h.low, by omega⟩
      · rw [upd_other _ _ e] at hm
        have := h.range t' m hm
        omega
    · intro a c m ha hc
      have ha : (upd s.pc t (.bumped s.next) a).owns = some m := ha
      have hc : (upd s.pc t (.bumped s.next) c).owns = some m := hc
      by_cases e : a = t
      · by_cases e' : c = t
        · rw [e, e']
        · rw [e, upd_same] at ha
          rw [upd_other _ _ e'] at hc
          obtain rfl := Option.some.inj ha
          have := h.range c _ hc
          omega
      · rw [upd_other _ _ e] at ha
        by_cases e' : c = t
        · rw [e', upd_same] at hc
          obtain rfl := Option.some.inj hc
          have := h.range a _ ha
          omega
        · rw [upd_other _ _ e'] at hc
          exact h.uniq a c m ha hc
    · intro m h1 h2
      have h2 : m < s.next + 1 := h2
      by_cases e : m = s.next
      · refine ⟨t, ?_⟩
        show (upd s.pc t (.bumped s.next) t).owns = some m
        rw [upd_same, e]; rfl
      · obtain ⟨a, ha⟩ := h.surj m h1 (by omega)
        refine ⟨a, ?_⟩
        show (upd s.pc t (.bumped s.next) a).owns = some m
        rw [upd_other _ _ ?_]
        · exact ha
        · rintro rfl
          rw [hp] at ha
          cases ha
  | bumped n =>
    simp only
    have hold : (s.pc t).holds = true := by rw [hp]; rfl
    have hown : ∀ t', (upd s.pc t (.store 0 n) t').owns = (s.pc t').owns := by
      intro t'
      by_cases e : t' = t
      · subst e; rw [upd_same, hp]; rfl
      · rw [upd_other _ _ e]
    refine ⟨?_, ?_, h.low, h.cap, ?_, ?_, ?_⟩
    · intro t'
      show (upd s.pc t (.store 0 n) t').holds = true ↔ none = some t'
      by_cases e : t' = t
      · subst e; rw [upd_same]; exact ⟨fun h => (nomatch h), fun h => (nomatch h)⟩
      · rw [upd_other _ _ e]
        exact ⟨fun hh => absurd (h.only hh hold) e, fun h => (nomatch h)⟩
    · intro t'
      show NPC.Local _ (upd s.pc t (.store 0 n) t')
      by_cases e : t' = t
      · subst e; rw [upd_same]; exact trivial
      · rw [upd_other _ _ e]
        have := h.loc t'
        revert this
        cases s.pc t' <;> exact id
    · intro t' m; exact (hown t') ▸ h.range t' m
    · intro a c m ha hc
      exact h.uniq a c m ((hown a) ▸ ha) ((hown c) ▸ hc)
    · intro m h1 h2
      obtain ⟨a, ha⟩ := h.surj m h1 h2
      exact ⟨a, (hown a).symm ▸ ha⟩
  | store k n =>
    simp only
    have hr := h.range t n (by rw [hp]; rfl)
    have hcap := h.cap
    rw [if_pos (by omega)]
    exact h.move rfl rfl rfl rfl (by rw [hp]; rfl) (by rw [hp]; rfl) trivial
  | storing k n a =>
    simp only
    split
    · exact h.move rfl rfl rfl rfl (by rw [hp]; rfl) (by rw [hp]; rfl) trivial
    · exact h.move rfl rfl rfl rfl (by rw [hp]; rfl) (by rw [hp]; rfl) trivial
  | ret n =>
    simp only
    have hr := h.range t n (by rw [hp]; rfl)
    have hcap := h.cap
    rw [if_pos (by omega)]
    exact h.move rfl rfl rfl rfl (by rw [hp]; rfl) (by rw [hp]; rfl) trivial
  | done n it => exact h
  | panicked => exact h

theorem NInv.run {n0 : Nat} {s : NState} (h : NInv n0 s) (args : Nat → ID × Rune) (sched : List (Nat × Bool)) :
    NInv n0 (s.run args sched) := by
  induction sched generalizing s with
  | nil => exact h
  | cons e es ih => exact ih (h.step args e.1 e.2)

/-! ### Without growth -/

/-- The first `k` stores of the call for slot `n` are visible. -/
def Agrees (k n : Nat) (arg : ID × Rune) (it : Item) : Prop :=
  (0 < k → it.id = UInt32.ofNat n) ∧ (1 < k → it.parent = arg.1) ∧ (2 < k → it.letter = arg.2) ∧
  (3 < k → it.variants = 0)

theorem Agrees.all {n : Nat} {arg : ID × Rune} {it : Item} (h : Agrees 4 n arg it) :
    it = { parent := arg.1, id := UInt32.ofNat n, letter := arg.2, variants := 0 } := by
  obtain ⟨h1, h2, h3, h4⟩ := h
  cases it
  simp_all

theorem Agrees.write {k n : Nat} {arg : ID × Rune} {it : Item} (h : Agrees k n arg it) (hk : k ≤ 3) :
    Agrees (k + 1) n arg (writeField k n arg it) := by
  obtain ⟨h1, h2, h3, h4⟩ := h
  match k, hk with
  | 0, _ => exact ⟨fun _ => rfl, fun h => absurd h (by decide), fun h => absurd h (by decide), fun h => absurd h (by decide)⟩
  | 1, _ => exact ⟨fun _ => h1 (by decide), fun _ => rfl, fun h => absurd h (by decide), fun h => absurd h (by decide)⟩
  | 2, _ => exact ⟨fun _ => h1 (by decide), fun _ => h2 (by decide), fun _ => rfl, fun h => absurd h (by decide)⟩
  | 3, _ => exact ⟨fun _ => h1 (by decide), fun _ => h2 (by decide), fun _ => h3 (by decide), fun _ => rfl⟩

/-- How far a call's stores are visible in backing array `c`. -/
def NPC.Visible (c : Nat) (heap : Nat → Nat → Item) (arg : ID × Rune) : NPC → Prop
  | .store k n => k ≤ 3 ∧ Agrees k n arg (heap c n)
  | .storing k n a => k ≤ 3 ∧ a = c ∧ Agrees k n arg (heap c n)
  | .ret n => Agrees 4 n arg (heap c n)
  | .done n it => it = { parent := arg.1, id := UInt32.ofNat n, letter := arg.2, variants := 0 } ∧
      Agrees 4 n arg (heap c n)
  | _ => True

/-- Visibility only depends on the slot of the call. -/
theorem NPC.Visible.keep {c : Nat} {heap heap' : Nat → Nat → Item} {arg : ID × Rune} {p : NPC}
    (h : p.Visible c heap arg) (hs : ∀ n, p.owns = some n → heap' c n = heap c n) : p.Visible c heap' arg := by
  cases p with
  | store k n => rw [NPC.Visible, hs n rfl]; exact h
  | storing k n a => rw [NPC.Visible, hs n rfl]; exact h
  | ret n => rw [NPC.Visible, hs n rfl]; exact h
  | done n it => rw [NPC.Visible, hs n rfl]; exact h
  | _ => trivial

/-- The invariant when `T` threads share a storage with at least `T` free slots. -/
structure QInv (args : Nat → ID × Rune) (n0 T c L : Nat) (s : NState) : Prop where
  inv : NInv n0 s
  idle : ∀ t, T ≤ t → s.pc t = .start
  len : s.len = L
  cur : s.cur = c
  vis : ∀ t, (s.pc t).Visible c s.heap (args t)

/-- A thread without an id finds room for one. -/
theorem NInv.room {n0 T : Nat} {s : NState} (h : NInv n0 s) (idle : ∀ t, T ≤ t → s.pc t = .start)
    {t : Nat} (ht : t < T) (ho : (s.pc t).owns = none) : s.next < n0 + T := by
  classical
  have hex : ∀ n, ∃ u, n0 ≤ n → n < s.next → (s.pc u).owns = some n := by
    intro n
    by_cases hn : n0 ≤ n ∧ n < s.next
    · obtain ⟨u, hu⟩ := h.surj n hn.1 hn.2
      exact ⟨u, fun _ _ => hu⟩
    · exact ⟨0, fun h1 h2 => absurd ⟨h1, h2⟩ hn⟩
  choose f hf using hex
  have hnd : ((List.range' n0 (s.next - n0)).map f).Nodup := by
    unfold List.Nodup
    rw [List.pairwise_map]
    refine List.Pairwise.imp_of_mem ?_ (List.nodup_range' (s := n0) (n := s.next - n0))
    intro a b ha hb hab he
    rw [List.mem_range'_1] at ha hb
    have h1 := hf a ha.1 (by omega)
    have h2 := hf b hb.1 (by omega)
    rw [he, h2] at h1
    exact hab (Option.some.inj h1).symm
  have hsub : (List.range' n0 (s.next - n0)).map f ⊆ (List.range T).erase t := by
    intro u hu
    obtain ⟨n, hn, rfl⟩ := List.mem_map.1 hu
    rw [List.mem_range'_1] at hn
    have h1 := hf n hn.1 (by omega)
    have hne : f n ≠ t := by
      intro e
      rw [e, ho] at h1
      cases h1
    rw [List.mem_erase_of_ne hne, List.mem_range]
    by_contra hge
    rw [idle (f n) (by omega)] at h1
    cases h1
  have := (List.subperm_of_subset hnd hsub).length_le
  rw [List.length_map, List.length_range', List.length_erase_of_mem (List.mem_range.2 ht), List.length_range] at this
  have := h.low
  omega

theorem QInv.room {args : Nat → ID × Rune} {n0 T c L : Nat} {s : NState} (h : QInv args n0 T c L s)
    {t : Nat} (ht : t < T) (ho : (s.pc t).owns = none) : s.next < n0 + T := h.inv.room h.idle ht ho

theorem QInv.step {args : Nat → ID × Rune} {n0 T c L : Nat} {s : NState} (h : QInv args n0 T c L s)
    (hL : n0 + T ≤ L) {t : Nat} (ht : t < T) (b : Bool) : QInv args n0 T c L (s.step args t b) := by
  have hinv := h.inv.step args t b
  have hidle : ∀ u, T ≤ u → (s.step args t b).pc u = .start := by
    intro u hu
    have hne : u ≠ t := by omega
    have := h.idle u hu
    unfold NState.step
    cases s.pc t with
    | start =>
      simp only
      split
      · rw [goto_pc_other _ _ hne]; exact this
      · exact this
    | sized n len =>
      simp only
      split
      · rw [goto_pc_other _ _ hne, (s.grow_facts _ b).1]; exact this
      · rw [goto_pc_other _ _ hne]; exact this
    | store k n => simp only; split <;> (rw [goto_pc_other _ _ hne]; exact this)
    | ret n => simp only; split <;> (rw [goto_pc_other _ _ hne]; exact this)
    | done n it => exact this
    | panicked => exact this
    | _ => simp only; rw [goto_pc_other _ _ hne]; exact this
  have mk : ∀ (s' : NState) (p : NPC), s'.pc = upd s.pc t p → s'.heap = s.heap → s'.len = s.len → s'.cur = s.cur →
      s' = s.step args t b → p.Visible c s.heap (args t) → QInv args n0 T c L (s.step args t b) := by
    intro s' p hpc hheap hlen hcur he hv
    subst he
    refine ⟨hinv, hidle, hlen.trans h.len, hcur.trans h.cur, ?_⟩
    intro u
    rw [hpc, hheap]
    by_cases e : u = t
    · subst e; rw [upd_same]; exact hv
    · rw [upd_other _ _ e]; exact h.vis u
  have hvis := h.vis t
  cases hp : s.pc t with
  | start =>
    cases hl : s.lock with
    | some t' =>
      have : s.step args t b = s := by unfold NState.step; rw [hp]; simp only [hl]
      rw [this]; exact h
    | none =>
      exact mk ({ s with lock := some t }.goto t .locked) .locked rfl rfl rfl rfl
        (by unfold NState.step; rw [hp]; simp only [hl]) trivial
  | locked => exact mk (s.goto t (.sized s.next s.len)) (.sized s.next s.len) rfl rfl rfl rfl (by unfold NState.step; rw [hp]) trivial
  | sized n len =>
    have hloc := h.inv.loc t
    rw [hp] at hloc
    obtain ⟨rfl, rfl⟩ := hloc
    have hroom := h.room ht (by rw [hp]; rfl)
    have hlen := h.len
    refine mk (s.goto t (.extended s.next)) (.extended s.next) rfl rfl rfl rfl ?_ trivial
    unfold NState.step
    rw [hp]
    simp only
    rw [if_neg (by omega)]
  | extended n => exact mk ({ s with next := s.next + 1 }.goto t (.bumped n)) (.bumped n) rfl rfl rfl rfl (by unfold NState.step; rw [hp]) trivial
  | bumped n =>
    refine mk ({ s with lock := none }.goto t (.store 0 n)) (.store 0 n) rfl rfl rfl rfl (by unfold NState.step; rw [hp]) ⟨by omega, ?_⟩
    exact ⟨fun h => absurd h (by decide), fun h => absurd h (by decide), fun h => absurd h (by decide), fun h => absurd h (by decide)⟩
  | store k n =>
    rw [hp] at hvis
    have hr := h.inv.range t n (by rw [hp]; rfl)
    have hcap := h.inv.cap
    refine mk (s.goto t (.storing k n s.cur)) (.storing k n s.cur) rfl rfl rfl rfl ?_ ⟨hvis.1, h.cur, hvis.2⟩
    unfold NState.step
    rw [hp]
    simp only
    rw [if_pos (by omega)]
  | storing k n a =>
    rw [hp] at hvis
    obtain ⟨hk, rfl, hag⟩ := hvis
    have hstep : s.step args t b = { s with heap := upd s.heap a (upd (s.heap a) n (writeField k n (args t) (s.heap a n))) }.goto t
        (if k < 3 then .store (k + 1) n else .ret n) := by unfold NState.step; rw [hp]
    rw [hstep] at hinv hidle ⊢
    refine ⟨hinv, hidle, h.len, h.cur, ?_⟩
    intro u
    by_cases e : u = t
    · subst e
      show NPC.Visible a _ (args u) (upd s.pc u _ u)
      rw [upd_same]
      have hw := hag.write hk
      have hh : (upd s.heap a (upd (s.heap a) n (writeField k n (args u) (s.heap a n)))) a n =
          writeField k n (args u) (s.heap a n) := by rw [upd_same, upd_same]
      split
      · refine ⟨by omega, ?_⟩
        show Agrees (k + 1) n (args u) (upd s.heap a _ a n)
        rw [hh]; exact hw
      · have : k = 3 := by omega
        subst this
        show Agrees 4 n (args u) (upd s.heap a _ a n)
        rw [hh]; exact hw
    · show NPC.Visible a _ (args u) (upd s.pc t _ u)
      rw [upd_other _ _ e]
      refine (h.vis u).keep ?_
      intro m hm
      show upd s.heap a _ a m = _
      rw [upd_same, upd_other]
      rintro rfl
      exact e (h.inv.uniq u t m hm (by rw [hp]; rfl))
  | ret n =>
    rw [hp] at hvis
    have hr := h.inv.range t n (by rw [hp]; rfl)
    have hcap := h.inv.cap
    refine mk (s.goto t (.done n (s.heap s.cur n))) (.done n (s.heap s.cur n)) rfl rfl rfl rfl ?_ ⟨?_, hvis⟩
    · unfold NState.step
      rw [hp]
      simp only
      rw [if_pos (by omega)]
    · rw [h.cur]; exact Agrees.all hvis
  | done n it =>
    have : s.step args t b = s := by unfold NState.step; rw [hp]
    rw [this]; exact h
  | panicked =>
    have : s.step args t b = s := by unfold NState.step; rw [hp]
    rw [this]; exact h

theorem QInv.run {args : Nat → ID × Rune} {n0 T c L : Nat} (hL : n0 + T ≤ L) (sched : List (Nat × Bool)) {s : NState}
    (h : QInv args n0 T c L s) (hs : ∀ e ∈ sched, e.1 < T) : QInv args n0 T c L (s.run args sched) := by
  induction sched generalizing s with
  | nil => exact h
  | cons e es ih =>
    exact ih (h.step hL (hs e (List.mem_cons_self ..)) e.2) (fun x hx => hs x (List.mem_cons_of_mem _ hx))

/-! ### With growth -/

theorem NState.grow_cur (s : NState) (count : Nat) (b : Bool) {i : Nat} (hi : i < s.len) :
    (s.grow count b).heap (s.grow count b).cur i = s.heap s.cur i := by
  unfold NState.grow
  split
  · show upd s.heap s.cur _ s.cur i = _
    rw [upd_same, if_neg (by omega)]
  · show upd s.heap s.fresh _ s.fresh i = _
    rw [upd_same, if_pos hi]

/-- Slots in use before the calls keep their items. -/
theorem NInv.keeps {n0 : Nat} {s : NState} (h : NInv n0 s) (args : Nat → ID × Rune) (t : Nat) (b : Bool) {i : Nat}
    (hi : i < n0) : (s.step args t b).heap (s.step args t b).cur i = s.heap s.cur i := by
  have hlow := h.low
  have hcap := h.cap
  unfold NState.step
  cases hp : s.pc t with
  | start => simp only; split <;> rfl
  | sized n len =>
    simp only
    split
    · exact s.grow_cur _ b (by omega)
    · rfl
  | store k n => simp only; split <;> rfl
  | ret n => simp only; split <;> rfl
  | storing k n a =>
    simp only
    have hr := h.range t n (by rw [hp]; rfl)
    show upd s.heap a (upd (s.heap a) n _) s.cur i = _
    by_cases e : s.cur = a
    · rw [e, upd_same, upd_other _ _ (by omega)]
    · rw [upd_other _ _ e]
  | _ => rfl

/-- The step of thread `t` copies the storage to another place. -/
def NState.Copies (s : NState) (t : Nat) (inPlace : Bool) : Prop :=
  inPlace = false ∧ ∃ n len, s.pc t = .sized n len ∧ len ≤ n

/-- The invariant as long as no call is about to write through an outdated slice header. -/
structure VInv (args : Nat → ID × Rune) (n0 : Nat) (s : NState) : Prop where
  inv : NInv n0 s
  vis : ∀ t, (s.pc t).Visible s.cur s.heap (args t)

theorem VInv.step {args : Nat → ID × Rune} {n0 : Nat} {s : NState} (h : VInv args n0 s) (t : Nat) (b : Bool)
    (hc : s.Copies t b → ∀ u k n a, s.pc u ≠ .storing k n a) : VInv args n0 (s.step args t b) := by
  have hinv := h.inv.step args t b
  refine ⟨hinv, ?_⟩
  have mk : ∀ (s' : NState) (p : NPC), s'.pc = upd s.pc t p → s'.heap = s.heap → s'.cur = s.cur →
      s' = s.step args t b → p.Visible s.cur s.heap (args t) →
      ∀ u, ((s.step args t b).pc u).Visible (s.step args t b).cur (s.step args t b).heap (args u) := by
    intro s' p hpc hheap hcur he hv u
    subst he
    rw [hpc, hheap, hcur]
    by_cases e : u = t
    · subst e; rw [upd_same]; exact hv
    · rw [upd_other _ _ e]; exact h.vis u
  have hvis := h.vis t
  have hcap := h.inv.cap
  cases hp : s.pc t with
  | start =>
    cases hl : s.lock with
    | some t' =>
      have : s.step args t b = s := by unfold NState.step; rw [hp]; simp only [hl]
      rw [this]; exact h.vis
    | none =>
      exact mk ({ s with lock := some t }.goto t .locked) .locked rfl rfl rfl
        (by unfold NState.step; rw [hp]; simp only [hl]) trivial
  | locked => exact mk (s.goto t (.sized s.next s.len)) (.sized s.next s.len) rfl rfl rfl (by unfold NState.step; rw [hp]) trivial
  | sized n len =>
    have hloc := h.inv.loc t
    rw [hp] at hloc
    obtain ⟨rfl, rfl⟩ := hloc
    by_cases hle : s.len ≤ s.next
    · have hs : s.step args t b = (s.grow (Items.extendStep s.len) b).goto t (.extended s.next) := by
        unfold NState.step; rw [hp]; simp only; rw [if_pos hle]
      rw [hs]
      intro u
      by_cases e : u = t
      · subst e; rw [goto_pc_same]; trivial
      · rw [goto_pc_other _ _ e, (s.grow_facts _ b).1]
        have hv := h.vis u
        have hcur : (∀ k n a, s.pc u ≠ .storing k n a) ∨ (s.grow (Items.extendStep s.len) b).cur = s.cur := by
          cases b with
          | true => exact .inr rfl
          | false => exact .inl (hc ⟨rfl, _, _, hp, hle⟩ u)
        have hh : ∀ m, (s.pc u).owns = some m →
            (s.grow (Items.extendStep s.len) b).heap (s.grow (Items.extendStep s.len) b).cur m = s.heap s.cur m := by
          intro m hm
          have := h.inv.range u m hm
          exact s.grow_cur _ b (by omega)
        show NPC.Visible (s.grow _ b).cur (s.grow _ b).heap (args u) (s.pc u)
        revert hv hcur hh
        cases s.pc u with
        | store k m => intro hv _ hh; rw [NPC.Visible, hh m rfl]; exact hv
        | storing k m a =>
          intro hv hcur hh
          rcases hcur with hn | hcur
          · exact absurd rfl (hn k m a)
          · rw [NPC.Visible, hh m rfl, hcur]; exact hv
        | ret m => intro hv _ hh; rw [NPC.Visible, hh m rfl]; exact hv
        | done m it => intro hv _ hh; rw [NPC.Visible, hh m rfl]; exact hv
        | _ => intros; trivial
    · refine mk (s.goto t (.extended s.next)) (.extended s.next) rfl rfl rfl ?_ trivial
      unfold NState.step
      rw [hp]
      simp only
      rw [if_neg hle]
  | extended n => exact mk ({ s with next := s.next + 1 }.goto t (.bumped n)) (.bumped n) rfl rfl rfl (by unfold NState.step; rw [hp]) trivial
  | bumped n =>
    refine mk ({ s with lock := none }.goto t (.store 0 n)) (.store 0 n) rfl rfl rfl (by unfold NState.step; rw [hp]) ⟨by omega, ?_⟩
    exact ⟨fun h => absurd h (by decide), fun h => absurd h (by decide), fun h => absurd h (by decide), fun h => absurd h (by decide)⟩
  | store k n =>
    rw [hp] at hvis
    have hr := h.inv.range t n (by rw [hp]; rfl)
    refine mk (s.goto t (.storing k n s.cur)) (.storing k n s.cur) rfl rfl rfl ?_ ⟨hvis.1, rfl, hvis.2⟩
    unfold NState.step
    rw [hp]
    simp only
    rw [if_pos (by omega)]
  | storing k n a =>
    rw [hp] at hvis
    obtain ⟨hk, rfl, hag⟩ := hvis
    have hstep : s.step args t b = { s with heap := upd s.heap s.cur (upd (s.heap s.cur) n (writeField k n (args t) (s.heap s.cur n))) }.goto t
        (if k < 3 then .store (k + 1) n else .ret n) := by unfold NState.step; rw [hp]
    rw [hstep]
    intro u
    by_cases e : u = t
    · subst e
      show NPC.Visible s.cur _ (args u) (upd s.pc u _ u)
      rw [upd_same]
      have hw := hag.write hk
      have hh : (upd s.heap s.cur (upd (s.heap s.cur) n (writeField k n (args u) (s.heap s.cur n)))) s.cur n =
          writeField k n (args u) (s.heap s.cur n) := by rw [upd_same, upd_same]
      split
      · refine ⟨by omega, ?_⟩
        show Agrees (k + 1) n (args u) (upd s.heap s.cur _ s.cur n)
        rw [hh]; exact hw
      · have : k = 3 := by omega
        subst this
        show Agrees 4 n (args u) (upd s.heap s.cur _ s.cur n)
        rw [hh]; exact hw
    · show NPC.Visible s.cur _ (args u) (upd s.pc t _ u)
      rw [upd_other _ _ e]
      refine (h.vis u).keep ?_
      intro m hm
      show upd s.heap s.cur _ s.cur m = _
      rw [upd_same, upd_other]
      rintro rfl
      exact e (h.inv.uniq u t m hm (by rw [hp]; rfl))
  | ret n =>
    rw [hp] at hvis
    have hr := h.inv.range t n (by rw [hp]; rfl)
    refine mk (s.goto t (.done n (s.heap s.cur n))) (.done n (s.heap s.cur n)) rfl rfl rfl ?_ ⟨Agrees.all hvis, hvis⟩
    unfold NState.step
    rw [hp]
    simp only
    rw [if_pos (by omega)]
  | done n it =>
    have : s.step args t b = s := by unfold NState.step; rw [hp]
    rw [this]; exact h.vis
  | panicked =>
    have : s.step args t b = s := by unfold NState.step; rw [hp]
    rw [this]; exact h.vis

theorem VInv.run {args : Nat → ID × Rune} {n0 : Nat} (sched : List (Nat × Bool)) {s : NState} (h : VInv args n0 s)
    (hc : ∀ pre e post, sched = pre ++ e :: post → (s.run args pre).Copies e.1 e.2 →
      ∀ u k n a, (s.run args pre).pc u ≠ .storing k n a) : VInv args n0 (s.run args sched) := by
  induction sched generalizing s with
  | nil => exact h
  | cons e es ih =>
    refine ih (h.step e.1 e.2 (hc [] e es rfl)) ?_
    intro pre e' post he
    exact hc (e :: pre) e' post (by rw [he]; rfl)

end Verif
