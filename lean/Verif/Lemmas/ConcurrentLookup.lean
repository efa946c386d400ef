import Verif.Lemmas.Concurrent
import Verif.Lemmas.LoadSafe

/-! # Concurrent lookups -/

namespace Verif

/-- Every node visited by the lookup of `rs` from `p` already has its children map. -/
def Quiet (ix : Index) : ID → List Rune → Prop
  | _, [] => True
  | p, r :: rest => (ix.childrenMap p).isSome = true ∧
      ∀ k, ix.getChildrenMap p r = some k → rest ≠ [] → Quiet ix k rest

theorem Solid.quiet {ix : Index} (s : Solid ix) (rs : List Rune) (p : ID)
    (hp : p = 0 ∨ p.toNat < ix.items.nextID.toNat) : Quiet ix p rs := by
  induction rs generalizing p with
  | nil => trivial
  | cons r rest ih =>
    refine ⟨?_, fun k hk _ => ih k (.inr (s.child_lt hk))⟩
    rcases hp with rfl | hp
    · exact s.root
    · exact s.nodes p hp

theorem getChildrenMap_isSome {ix : Index} {p : ID} {r : Rune} {k : ID} (h : ix.getChildrenMap p r = some k) :
    (ix.childrenMap p).isSome = true := by
  unfold Index.getChildrenMap at h
  cases hm : ix.childrenMap p with
  | none => rw [hm] at h; cases h
  | some m => rfl

theorem quiet_of_found {ix : Index} (rs : List Rune) (p id : ID) (h : (ix.fetchFromItem p rs).2 = .ok id) :
    Quiet ix p rs := by
  induction rs generalizing p with
  | nil => trivial
  | cons r rest ih =>
    unfold Index.fetchFromItem at h
    cases hc : ix.getChildrenMap p r with
    | none =>
      have h2 : (ix.getChildrenIDMap p).2 r = none := by rw [getChildrenIDMap_snd]; exact hc
      simp only [h2] at h
      cases hw : (ix.getChildrenIDMap p).1.word p with
      | _ => rw [hw] at h; cases h
    | some k =>
      have hm := getChildrenMap_isSome hc
      rw [getChildrenIDMap_same hm] at h
      simp only [hc] at h
      refine ⟨hm, fun k' hk' hne => ?_⟩
      rw [hc] at hk'
      obtain rfl := Option.some.inj hk'
      rw [if_neg hne] at h
      exact ih k h

/-- The state of one lookup whose sequential answer is `a`. -/
def LPC.Good (ix : Index) (a : Out ID) : LPC → Prop
  | .check p rs => Quiet ix p rs ∧ (ix.fetchFromItem p rs).2 = a
  | .look p rs => rs ≠ [] ∧ Quiet ix p rs ∧ (ix.fetchFromItem p rs).2 = a
  | .done o => o = a
  | .insert _ _ => False
  | .inserting _ _ => False

/-- Steps a lookup still has to make. -/
def LPC.left : LPC → Nat
  | .check _ rs => 2 * rs.length + 1
  | .look _ rs => 2 * rs.length
  | .done _ => 0
  | .insert _ rs => 2 * rs.length + 2
  | .inserting _ rs => 2 * rs.length + 1

structure LInv (ix : Index) (a : Nat → Out ID) (s : LState) : Prop where
  same : s.ix = ix
  free : s.inserting = none
  fine : s.crashed = false
  good : ∀ t, (s.pc t).Good ix (a t)

/-- One step keeps the invariant, moves at most its own thread, and makes progress. -/
theorem LInv.step {ix : Index} {a : Nat → Out ID} {s : LState} (h : LInv ix a s) (t : Nat) :
    LInv ix a (s.step t) ∧ (∀ u, u ≠ t → (s.step t).pc u = s.pc u) ∧
      ((s.step t).pc t).left ≤ (s.pc t).left - 1 := by
  have mk : ∀ p : LPC, s.step t = s.goto t p → p.Good ix (a t) → p.left ≤ (s.pc t).left - 1 →
      LInv ix a (s.step t) ∧ (∀ u, u ≠ t → (s.step t).pc u = s.pc u) ∧
        ((s.step t).pc t).left ≤ (s.pc t).left - 1 := by
    intro p he hp hl
    rw [he]
    refine ⟨⟨h.same, h.free, h.fine, ?_⟩, fun u hu => upd_other _ _ hu, ?_⟩
    · intro u
      by_cases e : u = t
      · subst e; show LPC.Good ix (a u) (upd s.pc u p u); rw [upd_same]; exact hp
      · show LPC.Good ix (a u) (upd s.pc t p u); rw [upd_other _ _ e]; exact h.good u
    · show (upd s.pc t p t).left ≤ _
      rw [upd_same]; exact hl
  have hg := h.good t
  have hfree := h.free
  cases hp : s.pc t with
  | check p rs =>
    rw [hp] at hg mk
    cases rs with
    | nil =>
      refine mk (.done (.err .emptyRunes)) ?_ ?_ (Nat.zero_le _)
      · unfold LState.step; simp only [h.fine, hp]; rfl
      · exact hg.2
    | cons r rest =>
      have hm := hg.1.1
      refine mk (.look p (r :: rest)) ?_ ⟨by simp, hg⟩ (by simp only [LPC.left]; omega)
      unfold LState.step
      simp only [h.fine, hp, LState.access, hfree, h.same, hm]
      rfl
  | insert p rs => rw [hp] at hg; exact hg.elim
  | inserting p rs => rw [hp] at hg; exact hg.elim
  | look p rs =>
    rw [hp] at hg mk
    obtain ⟨hne, hq, ha⟩ := hg
    cases rs with
    | nil => exact absurd rfl hne
    | cons r rest =>
      unfold Index.fetchFromItem at ha
      rw [getChildrenIDMap_same hq.1] at ha
      have hstep : s.step t = (match ix.getChildrenMap p r with
          | none => s.goto t (.done ((ix.word p).bind fun w => .err (.notFound w r)))
          | some next => if rest = [] then s.goto t (.done (ix.get next)) else s.goto t (.check next rest)) := by
        unfold LState.step
        simp only [h.fine, hp, LState.access, hfree, h.same]
        rfl
      cases hc : ix.getChildrenMap p r with
      | none =>
        simp only [hc] at ha hstep
        exact mk _ hstep ha (Nat.zero_le _)
      | some k =>
        simp only [hc] at ha hstep
        by_cases hr : rest = []
        · rw [if_pos hr] at ha hstep
          exact mk _ hstep ha (Nat.zero_le _)
        · rw [if_neg hr] at ha hstep
          exact mk _ hstep ⟨hq.2 k hc hr, ha⟩ (by simp only [LPC.left, List.length_cons]; omega)
  | done o =>
    have : s.step t = s := by unfold LState.step; simp only [h.fine, hp]; rfl
    rw [this]
    refine ⟨h, fun _ _ => rfl, ?_⟩
    rw [hp]; exact Nat.zero_le _

theorem LInv.run {ix : Index} {a : Nat → Out ID} (sched : List Nat) {s : LState} (h : LInv ix a s) :
    LInv ix a (s.run sched) ∧ ∀ t, ((s.run sched).pc t).left ≤ (s.pc t).left - sched.count t := by
  induction sched generalizing s with
  | nil => exact ⟨h, fun t => by simp [LState.run]⟩
  | cons u us ih =>
    obtain ⟨h1, h2, h3⟩ := h.step u
    obtain ⟨i1, i2⟩ := ih h1
    refine ⟨i1, fun t => ?_⟩
    have := i2 t
    show ((LState.run (s.step u) us).pc t).left ≤ _
    by_cases e : u = t
    · subst e
      rw [List.count_cons_self]
      omega
    · rw [List.count_cons_of_ne e]
      rw [h2 t (fun h => e h.symm)] at this
      exact this

theorem LInv.init {ix : Index} {q : Nat → List Rune} (h : ∀ t, Quiet ix 0 (q t)) :
    LInv ix (fun t => (ix.fetchRunes (q t)).2) (LState.init ix q) :=
  ⟨rfl, rfl, rfl, fun t => ⟨h t, rfl⟩⟩

theorem LPC.done_of_left {ix : Index} {a : Out ID} {p : LPC} (hg : p.Good ix a) (hl : p.left = 0) : p = .done a := by
  cases p with
  | check p rs => simp [LPC.left] at hl
  | look p rs =>
    obtain ⟨hne, _⟩ := hg
    simp only [LPC.left] at hl
    exact absurd (List.eq_nil_of_length_eq_zero (by omega)) hne
  | insert p rs => exact hg.elim
  | inserting p rs => exact hg.elim
  | done o => exact congrArg _ hg

/-- Lookups that only meet existing maps: every schedule gives the sequential answers. -/
theorem lookups_sequential {ix : Index} {q : Nat → List Rune} (h : ∀ t, Quiet ix 0 (q t)) (sched : List Nat) :
    let s := (LState.init ix q).run sched
    s.crashed = false ∧ s.ix = ix ∧ (∀ t o, s.pc t = .done o → o = (ix.fetchRunes (q t)).2) ∧
      ∀ t, 2 * (q t).length + 1 ≤ sched.count t → s.pc t = .done (ix.fetchRunes (q t)).2 := by
  obtain ⟨h1, h2⟩ := (LInv.init h).run sched
  refine ⟨h1.fine, h1.same, ?_, ?_⟩
  · intro t o ho
    have := h1.good t
    rw [ho] at this
    exact this
  · intro t ht
    refine LPC.done_of_left (h1.good t) ?_
    have := h2 t
    have e : ((LState.init ix q).pc t).left = 2 * (q t).length + 1 := rfl
    omega

end Verif
