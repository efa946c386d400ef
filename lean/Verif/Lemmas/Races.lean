import Verif.Lemmas.Moments
import Verif.Lemmas.LookupRaces
import Verif.Spec.Races

/-! # Calls that may meet in a map -/

namespace Verif

/-! ## One call alone -/

theorem setChild_some (m : ID → Option IdMap) (p : ID) (r : Rune) (c k : ID) :
    (Index.setChild m p r c k).isSome = (m k).isSome := by
  unfold Index.setChild
  cases h : m p with
  | none => rfl
  | some im =>
    simp only
    split
    · rename_i e; rw [e, h]; rfl
    · rfl

theorem callLoop_cons (a : Bool) (ix : Index) (p : ID) (r : Rune) (rest : List Rune)
    (hp : p = 0 ∨ (ix.items.get p).isSome = true) :
    callLoop a ix p (r :: rest) =
        (let ix1 := (ix.getChildrenIDMap p).1
         match ix.getChildrenMap p r with
         | some c => if rest = [] then (ix1, ix1.get c) else callLoop a ix1 c rest
         | none => if a then
             (match ix1.items.newChild p r with
              | none => (ix1, .panic)
              | some (its, it) =>
                let ix2 : Index := { ix1 with items := its, childrenMap := Index.setChild ix1.childrenMap p r it.id }
                if rest = [] then (ix2, ix2.get it.id) else callLoop true ix2 it.id rest)
           else (ix1, (ix1.word p).bind fun w => .err (.notFound w r))) := by
  have hs := getChildrenIDMap_snd ix p
  cases a with
  | true =>
    have hn : ¬(p ≠ 0 ∧ (ix.items.get p).isNone = true) := by
      rintro ⟨h1, h2⟩
      rcases hp with hp | hp
      · exact h1 hp
      · cases hg : ix.items.get p with
        | none => rw [hg] at hp; cases hp
        | some _ => rw [hg] at h2; cases h2
    simp only [callLoop, if_true]
    conv_lhs => unfold Index.addLoop
    rw [if_neg hn]
    unfold Index.addStep
    generalize hx : ix.getChildrenIDMap p = x at hs ⊢
    obtain ⟨ix1, cm⟩ := x
    simp only at hs ⊢
    subst hs
    cases ix.getChildrenMap p r with
    | some c => rfl
    | none =>
      simp only
      cases ix1.items.newChild p r with
      | none => rfl
      | some y => rfl
  | false =>
    simp only [callLoop, Bool.false_eq_true, if_false]
    conv_lhs => unfold Index.fetchFromItem
    generalize hx : ix.getChildrenIDMap p = x at hs ⊢
    obtain ⟨ix1, cm⟩ := x
    simp only at hs ⊢
    subst hs
    cases ix.getChildrenMap p r with
    | some c => rfl
    | none => rfl

theorem addLoop_grows (rs : List Rune) (ix : Index) (p k : ID) (h : (ix.childrenMap k).isSome = true) :
    ((ix.addLoop 0 p rs).1.childrenMap k).isSome = true := by
  induction rs generalizing ix p with
  | nil => exact h
  | cons r rest ih =>
    by_cases hp : p = 0 ∨ (ix.items.get p).isSome = true
    · have e := callLoop_cons true ix p r rest hp
      simp only [callLoop, if_true] at e
      rw [e]
      have hg := childrenMap_grows ix p k h
      cases ix.getChildrenMap p r with
      | some c =>
        simp only
        split
        · exact hg
        · exact ih _ _ hg
      | none =>
        simp only
        split
        · exact hg
        · rename_i its it _
          have hg' : (Index.setChild (ix.getChildrenIDMap p).1.childrenMap p r it.id k).isSome = true := by
            rw [setChild_some]; exact hg
          split
          · exact hg'
          · exact ih _ _ hg'
    · unfold Index.addLoop
      rw [if_pos ⟨fun e => hp (.inl e), by
        cases hg : ix.items.get p with
        | none => rfl
        | some _ => exact absurd (.inr (by rw [hg]; rfl)) hp⟩]
      exact h

theorem callLoop_grows (a : Bool) (rs : List Rune) (ix : Index) (p k : ID) (h : (ix.childrenMap k).isSome = true) :
    ((callLoop a ix p rs).1.childrenMap k).isSome = true := by
  unfold callLoop
  cases a
  · exact fetchFromItem_grows rs ix p k h
  · exact addLoop_grows rs ix p k h

/-- The call makes no new map: every node it visits has one, and what is new is a last letter at most. -/
def Calm (ix : Index) (a : Bool) : ID → List Rune → Prop
  | _, [] => True
  | p, r :: rest => (ix.childrenMap p).isSome = true ∧ (∀ k, ix.getChildrenMap p r = some k → rest ≠ [] → Calm ix a k rest) ∧
      (ix.getChildrenMap p r = none → a = true → rest = [])

/-- The facts about an index used here. -/
structure Tidy (ix : Index) : Prop where
  child : ∀ p r c, ix.getChildrenMap p r = some c → c = 0 ∨ (ix.items.get c).isSome = true
  stray : ∀ k, (ix.childrenMap k).isSome = true → k.toNat < ix.items.nextID.toNat
  cap : ix.items.nextID.toNat ≤ ix.items.items.length
  pos : 0 < ix.items.nextID.toNat
  room : ix.items.nextID.toNat + 1 < 4294967296

theorem grows_of_not_calm {ix : Index} (T : Tidy ix) (a : Bool) (rs : List Rune) : ∀ p : ID,
    (p = 0 ∨ (ix.items.get p).isSome = true) → ¬Calm ix a p rs →
    ∃ k, ix.childrenMap k = none ∧ ((callLoop a ix p rs).1.childrenMap k).isSome = true := by
  induction rs with
  | nil => exact fun _ _ h => absurd trivial h
  | cons r rest ih =>
    intro p hp hn
    have e := callLoop_cons a ix p r rest hp
    cases hm : ix.childrenMap p with
    | none =>
      refine ⟨p, hm, ?_⟩
      rw [e]
      have hg := childrenMap_made ix p
      cases ix.getChildrenMap p r with
      | some c =>
        simp only
        split
        · exact hg
        · exact callLoop_grows _ _ _ _ _ hg
      | none =>
        simp only
        split
        · split
          · exact hg
          · rename_i its it _
            have hg' : (Index.setChild (ix.getChildrenIDMap p).1.childrenMap p r it.id p).isSome = true := by
              rw [setChild_some]; exact hg
            split
            · exact hg'
            · exact callLoop_grows _ _ _ _ _ hg'
        · exact hg
    | some im =>
      have hms : (ix.childrenMap p).isSome = true := by rw [hm]; rfl
      rw [getChildrenIDMap_same hms] at e
      simp only at e
      cases hc : ix.getChildrenMap p r with
      | some c =>
        have hr : rest ≠ [] ∧ ¬Calm ix a c rest := by
          refine ⟨fun h => hn ⟨hms, fun k _ hne => absurd h hne, fun h' => ?_⟩, fun h => hn ⟨hms, fun k hk _ => ?_, fun h' => ?_⟩⟩
          · rw [hc] at h'; cases h'
          · rw [hc] at hk; obtain rfl := Option.some.inj hk; exact h
          · rw [hc] at h'; cases h'
        rw [hc] at e
        simp only [if_neg hr.1] at e
        rw [e]
        exact ih c (T.child p r c hc) hr.2
      | none =>
        have hr : a = true ∧ rest ≠ [] := by
          constructor
          · by_contra ha
            refine hn ⟨hms, fun k hk => ?_, fun _ h => absurd h ha⟩
            rw [hc] at hk; cases hk
          · intro hr
            refine hn ⟨hms, fun k hk => ?_, fun _ _ => hr⟩
            rw [hc] at hk; cases hk
        obtain ⟨rfl, hne⟩ := hr
        obtain ⟨its', hnew, hnext, hlen, hself, _⟩ := newChild_spec ix.items p r T.cap
        rw [hc] at e
        simp only [hnew, if_neg hne, if_true] at e
        rw [e]
        obtain ⟨r', rest', rfl⟩ := List.exists_cons_of_ne_nil hne
        have hnone : ix.childrenMap ix.items.nextID = none := by
          cases hx : ix.childrenMap ix.items.nextID with
          | none => rfl
          | some _ => exact absurd (T.stray _ (by rw [hx]; rfl)) (Nat.lt_irrefl _)
        have hroom := T.room
        have hpos := T.pos
        refine ⟨ix.items.nextID, hnone, ?_⟩
        have hg : (its'.get ix.items.nextID).isSome = true := by
          unfold Items.get
          rw [if_neg (by omega), if_neg, hself]
          · rfl
          · rw [hnext, UInt32.toNat_add]
            simp only [show (1 : ID).toNat = 1 from rfl]
            omega
        rw [callLoop_cons true _ ix.items.nextID r' rest' (.inr hg)]
        generalize hix2 : ({ ix with items := its', childrenMap := _ } : Index) = ix2
        have hg2 := childrenMap_made ix2 ix.items.nextID
        cases ix2.getChildrenMap ix.items.nextID r' with
        | some c =>
          simp only
          split
          · exact hg2
          · exact callLoop_grows _ _ _ _ _ hg2
        | none =>
          simp only
          split
          · split
            · exact hg2
            · rename_i its it _
              have hg' : (Index.setChild (ix2.getChildrenIDMap ix.items.nextID).1.childrenMap ix.items.nextID r' it.id
                  ix.items.nextID).isSome = true := by
                rw [setChild_some]; exact hg2
              split
              · exact hg'
              · exact callLoop_grows _ _ _ _ _ hg'
          · exact hg2

theorem grows_iff (ix : Index) (a : Bool) (w : List Rune) :
    Grows ix a w ↔ ∃ k, ix.childrenMap k = none ∧ ((callLoop a ix 0 w).1.childrenMap k).isSome = true := by
  have e : ∀ k, (if a then (ix.addRunes w).1 else (ix.fetchRunes w).1).childrenMap k ≠ none ↔
      ((callLoop a ix 0 w).1.childrenMap k).isSome = true := by
    intro k
    rw [← Option.isSome_iff_ne_none]
    cases a <;> exact Iff.rfl
  exact ⟨fun ⟨k, h1, h2⟩ => ⟨k, h1, (e k).1 h2⟩, fun ⟨k, h1, h2⟩ => ⟨k, h1, (e k).2 h2⟩⟩

theorem Tidy.calm {ix : Index} (T : Tidy ix) {a : Bool} {w : List Rune} (h : ¬Grows ix a w) : Calm ix a 0 w := by
  by_contra hn
  exact h ((grows_iff ix a w).2 (grows_of_not_calm T a w 0 (.inl rfl) hn))

/-! ## A call that makes a new map can meet any other -/

/-- Inside an insertion only after having begun it. -/
theorem inserting_writes {s : AState} {t : Nat} {p : ID} {rs : List Rune} (hc : (s.step t).crashed = false)
    (h : (s.step t).pc t = .inserting p rs) : (t, none) ∈ (s.step t).writing := by
  have hf : s.crashed = false := by
    cases e : s.crashed with
    | false => rfl
    | true => rw [AInv.crashed_step t e, e] at hc; cases hc
  have acc : ∀ {m : Option Nat} {s' : AState}, s.step t = s.access t m s' → s.step t = s' := by
    intro m s' e
    rw [e] at hc ⊢
    exact AInv.access hc
  have no : ∀ (s' : AState) (pc' : APC), s.step t = s'.goto t pc' → (∀ p rs, pc' ≠ .inserting p rs) →
      (t, none) ∈ (s.step t).writing := by
    intro s' pc' e hne
    rw [e] at h
    exact absurd ((upd_same s'.pc t pc').symm.trans h) (hne p rs)
  cases hp : s.pc t with
  | check p' rs' =>
    cases rs' with
    | nil => exact no s (.done (.err .emptyRunes)) (by unfold AState.step; rw [hf, hp]; rfl) (by simp)
    | cons r rest =>
      by_cases hpar : s.adds t = true ∧ p' ≠ 0 ∧ (s.ix.items.get p').isNone = true
      · exact no s (.done (.err (.noParent 0)))
          (by unfold AState.step; simp only [hf, hp, Bool.false_eq_true, if_false]; rw [if_pos hpar]) (by simp)
      · refine no s (if (s.kids.ref p').isSome then .look p' (r :: rest) else .insert p' (r :: rest)) (acc (m := none) ?_) ?_
        · unfold AState.step
          simp only [hf, hp, Bool.false_eq_true, if_false]
          rw [if_neg hpar]
        · intro p rs; split <;> simp
  | insert p' rs' =>
    have e : s.step t = { s with writing := (t, none) :: s.writing }.goto t (.inserting p' rs') := by
      refine acc (m := none) ?_
      unfold AState.step
      rw [hf, hp]
      rfl
    rw [e]
    exact List.mem_cons_self
  | inserting p' rs' => exact no _ _ (ForgetInv.step_inserting hf hp) (by simp)
  | look p' rs' =>
    cases rs' with
    | nil =>
      have e : s.step t = s := by unfold AState.step; rw [hf, hp]; rfl
      rw [e, hp] at h; cases h
    | cons r rest =>
      cases hr : s.kids.ref p' with
      | some m => exact no _ _ (step_look hc hp hr) (by simp)
      | none =>
        have e : s.step t = s.missing t p' r rest := by
          refine acc (m := none) ?_
          unfold AState.step
          rw [hf, hp]
          simp only [hr]
          rfl
        unfold AState.missing at e
        split at e
        · exact no _ _ e (by simp)
        · exact no _ _ e (by simp)
  | probe p' r rest m =>
    have e := step_probe hc hp
    cases hm : s.kids.maps m r with
    | some c =>
      rw [hm] at e
      simp only [AInv.next_eq] at e
      exact no _ _ e (by intro p rs; split <;> simp)
    | none =>
      rw [hm] at e
      simp only [AState.missing] at e
      split at e
      · exact no _ _ e (by simp)
      · exact no _ _ e (by simp)
  | make p' r rest =>
    have e : s.step t = match s.ix.items.newChild p' r with
      | none => s.goto t (.done .panic)
      | some (its, it) => { s with ix := { s.ix with items := its } }.goto t (.link p' r rest it.id) := by
      unfold AState.step
      rw [hf, hp]
      rfl
    split at e
    · exact no _ _ e (by simp)
    · exact no _ _ e (by simp)
  | link p' r rest c =>
    have e : s.step t = match s.kids.ref p' with
      | some m => s.goto t (.store p' r rest c m)
      | none => s.goto t (.done .panic) := by
      refine acc (m := none) ?_
      unfold AState.step
      rw [hf, hp]
      rfl
    split at e
    · exact no _ _ e (by simp)
    · exact no _ _ e (by simp)
  | store p' r rest c m =>
    refine no { s with writing := (t, some m) :: s.writing } (.storing p' r rest c m) (acc (m := some m) ?_) (by simp)
    unfold AState.step
    rw [hf, hp]
    rfl
  | storing p' r rest c m =>
    have e := ForgetInv.step_storing hf hp
    rw [AInv.next_eq] at e
    exact no _ _ e (by intro p rs; split <;> simp)
  | done o =>
    have e : s.step t = s := by unfold AState.step; rw [hf, hp]; rfl
    rw [e, hp] at h; cases h

theorem run_replicate_succ (s : AState) (t n : Nat) :
    s.run (List.replicate (n + 1) t) = (s.run (List.replicate n t)).step t := by
  rw [List.replicate_succ', AState.run_snoc]

/-- If a map appears while `t` runs alone, `t` was inside an insertion. -/
theorem was_inserting {s : AState} {t : Nat} {p : ID} (n : Nat) (hc : (s.run (List.replicate n t)).crashed = false)
    (h0 : s.kids.ref p = none) (h1 : (s.run (List.replicate n t)).kids.ref p ≠ none) :
    ∃ k, k < n ∧ ∃ p' rs, (s.run (List.replicate k t)).pc t = .inserting p' rs := by
  induction n with
  | zero => exact absurd h0 h1
  | succ n ih =>
    rw [run_replicate_succ] at hc h1
    have hf : (s.run (List.replicate n t)).crashed = false := by
      cases e : (s.run (List.replicate n t)).crashed with
      | false => rfl
      | true => rw [AInv.crashed_step t e, e] at hc; cases hc
    by_cases h2 : (s.run (List.replicate n t)).kids.ref p = none
    · by_cases hi : ∃ p' rs, (s.run (List.replicate n t)).pc t = .inserting p' rs
      · exact ⟨n, by omega, hi⟩
      · exfalso
        apply h1
        by_cases hst : ∃ p' r rest c m, (s.run (List.replicate n t)).pc t = .storing p' r rest c m
        · obtain ⟨p', r, rest, c, m, hp⟩ := hst
          rw [ForgetInv.step_storing hf hp, AInv.next_eq]
          exact h2
        · rw [ForgetInv.step_kids _ t (fun p' rs e => hi ⟨p', rs, e⟩) fun p' r rest c m e => hst ⟨p', r, rest, c, m, e⟩]
          exact h2
    · obtain ⟨k, hk, h⟩ := ih hf h2
      exact ⟨k, by omega, h⟩

/-- A call that makes a new map can meet any other call that reads at least one letter. -/
theorem grows_crash (ix : Index) (adds : Nat → Bool) (q : Nat → List Rune) {t u : Nat} (htu : t ≠ u)
    (hg : Grows ix (adds t) (q t)) (hu : q u ≠ []) : ∃ sched, ((AState.start ix adds q).run sched).crashed = true := by
  obtain ⟨p, hp0, hp1⟩ := (grows_iff _ _ _).1 hg
  have hi : (AState.start ix adds q).Idle := ⟨rfl, rfl, KidMaps.ofIndex_ok ix⟩
  have hn : (AState.start ix adds q).now = ix := AState.start_now ix _ q
  obtain ⟨i1, n1, p1, a1⟩ := AState.alone (s := AState.start ix adds q) t (q t) hi rfl _ (Nat.le_refl _)
  rw [hn] at n1
  have h0 : (AState.start ix adds q).kids.ref p = none := by
    show (if _ then _ else _) = _
    rw [hp0]; rfl
  have h1 : ((AState.start ix adds q).run (List.replicate (9 * (q t).length + 1) t)).kids.ref p ≠ none := by
    intro e
    have e1 : (callLoop (adds t) ix 0 (q t)).1.childrenMap p = none := by
      have e2 := congrArg (fun x => x.childrenMap p) n1
      simp only [AState.now, KidMaps.view, e, Option.map_none] at e2
      exact e2.symm
    rw [e1] at hp1; cases hp1
  obtain ⟨k, hk, p', rs, hk2⟩ := was_inserting _ i1.crashed h0 h1
  cases k with
  | zero => cases hk2
  | succ k =>
    have hc : ((AState.start ix adds q).run (List.replicate (k + 1) t)).crashed = false := by
      obtain ⟨d, hd⟩ := Nat.exists_eq_add_of_le (Nat.le_of_lt hk)
      have := i1.crashed
      rw [hd, List.replicate_add] at this
      exact AState.run_fine this
    have hpu : ((AState.start ix adds q).run (List.replicate (k + 1) t)).pc u = .check 0 (q u) := by
      rw [AState.run_still _ u _ hc]
      · rfl
      · intro hm; exact htu ((List.mem_replicate.1 hm).2.symm)
    have hw : (t, none) ∈ ((AState.start ix adds q).run (List.replicate (k + 1) t)).writing := by
      rw [run_replicate_succ] at hc hk2 ⊢
      exact inserting_writes hc hk2
    refine ⟨List.replicate (k + 1) t ++ [u], ?_⟩
    rw [AState.run_snoc]
    generalize (AState.start ix adds q).run (List.replicate (k + 1) t) = s at *
    obtain ⟨r, rest, e⟩ := List.exists_cons_of_ne_nil hu
    rw [e] at hpu
    have hb : s.busy u none = true := by
      unfold AState.busy
      rw [List.any_eq_true]
      exact ⟨(t, none), hw, by simp [htu]⟩
    unfold AState.step AState.access
    simp only [hc, hpu, Bool.false_eq_true, if_false]
    rw [if_neg (by rintro ⟨_, h, _⟩; exact h rfl), if_pos hb]

/-! ## A call that makes a new last letter can meet those that pass its place -/

theorem goto_goto (s : AState) (t : Nat) (a b : APC) : (s.goto t a).goto t b = s.goto t b := by
  show ({ s with pc := upd (upd s.pc t a) t b } : AState) = { s with pc := upd s.pc t b }
  congr 1
  funext j
  by_cases h : j = t
  · simp [upd, h]
  · simp [upd, h]

/-- On a known path a call comes to its end without changing anything. -/
theorem to_probe {ix : Index} (T : Tidy ix) {s : AState} (hi : s.Idle) (hn : s.now = ix) (u : Nat) (b : Rune) (rest : List Rune) :
    ∀ (v : List Rune) (p0 p : ID), (p0 = 0 ∨ (ix.items.get p0).isSome = true) → walk ix p0 v = some p →
      (ix.childrenMap p).isSome = true → ∀ s0 : AState, s0 = s.goto u (.check p0 (v ++ b :: rest)) →
      ∃ k m, s.kids.ref p = some m ∧ s0.run (List.replicate k u) = s.goto u (.probe p b rest m) := by
  have hci : ∀ x, (s.goto u x).Idle := fun x => ⟨hi.writing, hi.crashed, hi.ok⟩
  have hitems : s.ix.items = ix.items := by rw [← hn]; rfl
  have href : ∀ p, (ix.childrenMap p).isSome = true → ∃ m, s.kids.ref p = some m := by
    intro p h
    rw [← hn] at h
    simp only [AState.now, KidMaps.view, Option.isSome_map] at h
    exact Option.isSome_iff_exists.1 h
  -- from the top of the loop to the probe
  have two : ∀ (p0 : ID) (r : Rune) (l : List Rune) (m : Nat), (p0 = 0 ∨ (ix.items.get p0).isSome = true) →
      s.kids.ref p0 = some m → (s.goto u (.check p0 (r :: l))).run (List.replicate 2 u) = s.goto u (.probe p0 r l m) := by
    intro p0 r l m hp hm
    have e1 := (hci (.check p0 (r :: l))).step (t := u) (pc := .check p0 (r :: l)) (upd_same _ _ _)
    simp only at e1
    rw [if_neg] at e1
    · have hm' : ((s.goto u (.check p0 (r :: l))).kids.ref p0).isSome = true := by
        show (s.kids.ref p0).isSome = true
        rw [hm]; rfl
      rw [if_pos hm', goto_goto] at e1
      have e2 := (hci (.look p0 (r :: l))).step (t := u) (pc := .look p0 (r :: l)) (upd_same _ _ _)
      have hm2 : (s.goto u (.look p0 (r :: l))).kids.ref p0 = some m := hm
      simp only [hm2, goto_goto] at e2
      show ((s.goto u (.check p0 (r :: l))).step u).step u = _
      rw [e1, e2]
    · rintro ⟨_, h1, h2⟩
      rcases hp with hp | hp
      · exact h1 hp
      · replace h2 : (s.ix.items.get p0).isNone = true := h2
        rw [hitems] at h2
        cases hg : ix.items.get p0 with
        | none => rw [hg] at hp; cases hp
        | some _ => rw [hg] at h2; cases h2
  intro v
  induction v with
  | nil =>
    intro p0 p hp0 hw hm s0 hs0
    obtain rfl := Option.some.inj hw
    obtain ⟨m, hm⟩ := href p0 hm
    exact ⟨2, m, hm, by rw [hs0]; exact two p0 b rest m hp0 hm⟩
  | cons r v ih =>
    intro p0 p hp0 hw hm s0 hs0
    simp only [walk] at hw
    cases hc : ix.getChildrenMap p0 r with
    | none => rw [hc] at hw; cases hw
    | some c =>
      rw [hc] at hw
      obtain ⟨m0, hm0⟩ := href p0 (childrenMap_isSome hc)
      have e1 := two p0 r (v ++ b :: rest) m0 hp0 hm0
      have e2 := (hci (.probe p0 r (v ++ b :: rest) m0)).step (t := u) (pc := .probe p0 r (v ++ b :: rest) m0) (upd_same _ _ _)
      have hmr : (s.goto u (.probe p0 r (v ++ b :: rest) m0)).kids.maps m0 r = some c := by
        have := AState.now_of_ref hm0 r
        rw [hn, hc] at this
        exact this.symm
      simp only [hmr, AInv.next_eq] at e2
      rw [if_neg (by simp), goto_goto] at e2
      obtain ⟨k, m, h1, h2⟩ := ih c p (T.child p0 r c hc) hw hm _ rfl
      refine ⟨3 + k, m, h1, ?_⟩
      rw [List.replicate_add, AState.run_append, hs0]
      have e3 : (s.goto u (.check p0 (r :: v ++ b :: rest))).run (List.replicate 3 u) = s.goto u (.check c (v ++ b :: rest)) := by
        show (((s.goto u (.check p0 (r :: (v ++ b :: rest)))).run (List.replicate 2 u)).step u) = _
        rw [e1, e2]
      rw [e3, h2]

theorem Calm.walk {ix : Index} {a : Bool} (v : List Rune) : ∀ (p : ID) (r : Rune) (l : List Rune), a = true →
    Calm ix a p (v ++ r :: l) → ∃ p', Verif.walk ix p v = some p' ∧ Calm ix a p' (r :: l) := by
  induction v with
  | nil => exact fun p r l _ h => ⟨p, rfl, h⟩
  | cons x v ih =>
    intro p r l ha h
    simp only [List.cons_append, Calm] at h
    simp only [Verif.walk]
    cases hc : ix.getChildrenMap p x with
    | none => have := h.2.2 hc ha; simp at this
    | some c => exact ih c r l ha (h.2.1 c hc (by simp))

/-- A new last letter and a call that passes its place. -/
theorem crosses_crash {ix : Index} (T : Tidy ix) (adds : Nat → Bool) (q : Nat → List Rune) {t u : Nat} (htu : t ≠ u)
    (ha : adds t = true) (hx : Crosses ix (q t) (q u)) :
    ∃ sched, ((AState.start ix adds q).run sched).crashed = true := by
  obtain ⟨hnew, v, a, b, hqt, rest, hqu⟩ := hx
  by_cases hg : Grows ix (adds t) (q t)
  · exact grows_crash ix adds q htu hg (by rw [← hqu]; simp)
  have hcalm := T.calm hg
  rw [hqt] at hcalm
  obtain ⟨p, hw, hcp⟩ := hcalm.walk v 0 a [] ha
  have hmap := hcp.1
  have hi : (AState.start ix adds q).Idle := ⟨rfl, rfl, KidMaps.ofIndex_ok ix⟩
  have hn : (AState.start ix adds q).now = ix := AState.start_now ix _ q
  have hnone : ix.getChildrenMap p a = none := by
    cases hc : ix.getChildrenMap p a with
    | none => rfl
    | some c =>
      exfalso
      refine hnew c ((fetch_walk ix 0 c (q t) (by rw [hqt]; simp)).2 ⟨?_, ?_⟩)
      · rw [hqt, walk_append, hw]; simp [walk, hc]
      · rcases T.child p a c hc with rfl | h
        · exact T.pos
        · obtain ⟨it, hit⟩ := Option.isSome_iff_exists.1 h
          exact (Items.get_some hit).2.1
  -- the one that passes, up to the place
  have self : ∀ (s : AState) (x : Nat) (pc : APC), s.pc x = pc → s = s.goto x pc := by
    intro s x pc h
    have e : upd s.pc x pc = s.pc := by
      funext j
      by_cases hj : j = x
      · simp [upd, hj, h]
      · simp [upd, hj]
    show s = { s with pc := upd s.pc x pc }
    rw [e]
  obtain ⟨k1, m, hm, e1⟩ := to_probe T hi hn u b rest v 0 p (.inl rfl) hw hmap (AState.start ix adds q)
    (self _ _ _ (by show APC.check 0 (q u) = _; rw [← hqu]; simp))
  generalize hs1 : (AState.start ix adds q).goto u (.probe p b rest m) = s1 at e1
  have hi1 : s1.Idle := by rw [← hs1]; exact ⟨hi.writing, hi.crashed, hi.ok⟩
  have hn1 : s1.now = ix := by rw [← hs1]; exact hn
  have hpu1 : s1.pc u = .probe p b rest m := by rw [← hs1]; exact upd_same _ _ _
  have hpt1 : s1.pc t = .check 0 (v ++ [a]) := by
    rw [← hs1, ← hqt]
    exact upd_other _ _ htu
  have hm1 : s1.kids.ref p = some m := by rw [← hs1]; exact hm
  have ha1 : s1.adds t = true := by rw [← hs1]; exact ha
  -- the one that adds, up to the same map
  obtain ⟨k2, m', hm', e2⟩ := to_probe T hi1 hn1 t a [] v 0 p (.inl rfl) hw hmap s1 (self _ _ _ hpt1)
  obtain rfl : m = m' := Option.some.inj (hm1.symm.trans hm')
  -- and into the write
  have hI : ∀ (s : AState) (x : APC), s.Idle → (s.goto t x).Idle := fun s x h => ⟨h.writing, h.crashed, h.ok⟩
  have e3 := (hI s1 (.probe p a [] m) hi1).step (t := t) (pc := .probe p a [] m) (upd_same _ _ _)
  have hmr : (s1.goto t (.probe p a [] m)).kids.maps m a = none := by
    have := AState.now_of_ref hm1 a
    rw [hn1, hnone] at this
    exact this.symm
  have ha2 : (s1.goto t (.probe p a [] m)).adds t = true := ha1
  simp only [hmr, AState.missing, ha2, if_true, goto_goto] at e3
  have hcap : s1.ix.items = ix.items := by rw [← hn1]; rfl
  obtain ⟨its', hnewc, _⟩ := newChild_spec ix.items p a T.cap
  have e4 := (hI s1 (.make p a []) hi1).step (t := t) (pc := .make p a []) (upd_same _ _ _)
  have hnc : (s1.goto t (.make p a [])).ix.items.newChild p a = some (its', { parent := p, id := ix.items.nextID, letter := a, variants := 0 }) := by
    show s1.ix.items.newChild p a = _
    rw [hcap]; exact hnewc
  simp only [hnc] at e4
  generalize hs4 : (s1.goto t (.make p a [])).step t = s4 at e4
  have hi4 : s4.Idle := by rw [e4]; exact ⟨hi1.writing, hi1.crashed, hi1.ok⟩
  have hpt4 : s4.pc t = .link p a [] ix.items.nextID := by rw [e4]; exact upd_same _ _ _
  have hm4 : s4.kids.ref p = some m := by rw [e4]; exact hm1
  have hpu4 : s4.pc u = .probe p b rest m := by
    rw [e4]
    show upd (upd s1.pc t _) t _ u = _
    rw [upd_other _ _ htu.symm, upd_other _ _ htu.symm]
    exact hpu1
  have e5 := hi4.step hpt4
  simp only [hm4] at e5
  have e6 := (hI s4 (.store p a [] ix.items.nextID m) hi4).step (t := t) (pc := .store p a [] ix.items.nextID m) (upd_same _ _ _)
  simp only at e6
  refine ⟨List.replicate k1 u ++ List.replicate k2 t ++ [t, t, t, t] ++ [u], ?_⟩
  rw [AState.run_snoc, AState.run_append, AState.run_append, e1, e2]
  show (((((s1.goto t (.probe p a [] m)).step t).step t).step t).step t |>.step u).crashed = true
  rw [e3, hs4, e5, e6]
  generalize hs6 : ({ s4.goto t (.store p a [] ix.items.nextID m) with writing := _ } : AState).goto t _ = s6
  have hc6 : s6.crashed = false := by rw [← hs6]; exact hi4.crashed
  have hpu6 : s6.pc u = .probe p b rest m := by
    rw [← hs6]
    show upd (upd s4.pc t _) t _ u = _
    rw [upd_other _ _ htu.symm, upd_other _ _ htu.symm]
    exact hpu4
  have hw6 : (t, some m) ∈ s6.writing := by
    rw [← hs6]
    exact List.mem_cons_self
  have hb : s6.busy u (some m) = true := by
    unfold AState.busy
    rw [List.any_eq_true]
    exact ⟨(t, some m), hw6, by simp [htu]⟩
  unfold AState.step AState.access
  simp only [hc6, hpu6, Bool.false_eq_true, if_false]
  rw [if_pos hb]

/-! ## No other meetings -/

theorem not_busy {s : AState} {t : Nat} {m : Option Nat} (h : ∀ x ∈ s.writing, x.2 = m → x.1 = t) : s.busy t m = false := by
  unfold AState.busy
  rw [List.any_eq_false]
  rintro ⟨x, m'⟩ hx
  simp only [Bool.and_eq_true, bne_iff_ne, beq_iff_eq, not_and]
  exact fun h1 h2 => h1 (h _ hx h2)

/-- The part of a step that matters if no other thread is writing. -/
theorem step_free {s : AState} {t : Nat} (hc : s.crashed = false) (hw : ∀ x ∈ s.writing, x.1 = t) :
    (s.step t).crashed = false ∧ (∀ x ∈ (s.step t).writing, x.1 = t) ∧ ∀ u, u ≠ t → (s.step t).pc u = s.pc u := by
  have hb : ∀ m, s.busy t m = false := fun m => not_busy fun x hx _ => hw x hx
  have acc : ∀ m s', s.access t m s' = s' := fun m s' => by unfold AState.access; rw [hb m]; rfl
  have hgo : ∀ pc, (s.goto t pc).crashed = false ∧ (∀ x ∈ (s.goto t pc).writing, x.1 = t) ∧
      ∀ u, u ≠ t → (s.goto t pc).pc u = s.pc u := fun pc => ⟨hc, hw, fun u hu => upd_other _ _ hu⟩
  unfold AState.step
  rw [if_neg (by rw [hc]; decide)]
  simp only [acc]
  cases hp : s.pc t with
  | check p rs =>
    cases rs with
    | nil => exact hgo _
    | cons r rest =>
      simp only
      split
      · exact hgo _
      · exact hgo _
  | insert p rs =>
    refine ⟨hc, fun x hx => ?_, fun u hu => upd_other _ _ hu⟩
    rcases List.mem_cons.1 hx with rfl | hx
    · rfl
    · exact hw x hx
  | inserting p rs =>
    exact ⟨hc, fun x hx => hw x (List.mem_of_mem_erase hx), fun u hu => upd_other _ _ hu⟩
  | look p rs =>
    cases rs with
    | nil => exact ⟨hc, hw, fun _ _ => rfl⟩
    | cons r rest =>
      simp only
      split
      · exact hgo _
      · unfold AState.missing
        split
        · exact hgo _
        · exact hgo _
  | probe p r rest m =>
    simp only
    split
    · rw [AInv.next_eq]; exact hgo _
    · unfold AState.missing
      split
      · exact hgo _
      · exact hgo _
  | make p r rest =>
    simp only
    split
    · exact hgo _
    · exact ⟨hc, hw, fun u hu => upd_other _ _ hu⟩
  | link p r rest c =>
    simp only
    split
    · exact hgo _
    · exact hgo _
  | store p r rest c m =>
    refine ⟨hc, fun x hx => ?_, fun u hu => upd_other _ _ hu⟩
    rcases List.mem_cons.1 hx with rfl | hx
    · rfl
    · exact hw x hx
  | storing p r rest c m =>
    simp only [AInv.next_eq]
    exact ⟨hc, fun x hx => hw x (List.mem_of_mem_erase hx), fun u hu => upd_other _ _ hu⟩
  | done o => exact ⟨hc, hw, fun _ _ => rfl⟩

/-- One call beside calls without a letter. -/
theorem alone_safe (ix : Index) (adds : Nat → Bool) (q : Nat → List Rune) (t : Nat) (h : ∀ u, u ≠ t → q u = [])
    (sched : List Nat) : ((AState.start ix adds q).run sched).crashed = false := by
  suffices H : ∀ (sched : List Nat) (s : AState), s.crashed = false → (∀ x ∈ s.writing, x.1 = t) →
      (∀ u, u ≠ t → s.pc u = .check 0 [] ∨ ∃ o, s.pc u = .done o) → (s.run sched).crashed = false by
    refine H sched _ rfl (fun x hx => by cases hx) fun u hu => .inl ?_
    show APC.check 0 (q u) = _
    rw [h u hu]
  intro sched
  induction sched with
  | nil => exact fun s hc _ _ => hc
  | cons u sched ih =>
    intro s hc hw hp
    show ((s.step u).run sched).crashed = false
    by_cases hu : u = t
    · subst hu
      obtain ⟨h1, h2, h3⟩ := step_free hc hw
      exact ih _ h1 h2 fun v hv => by rw [h3 v hv]; exact hp v hv
    · rcases hp u hu with e | ⟨o, e⟩
      · have e1 : s.step u = s.goto u (.done (.err .emptyRunes)) := by unfold AState.step; rw [hc, e]; rfl
        rw [e1]
        refine ih _ hc hw fun v hv => ?_
        by_cases hvu : v = u
        · subst hvu; exact .inr ⟨_, upd_same _ _ _⟩
        · rw [show (s.goto u _).pc v = s.pc v from upd_other _ _ hvu]; exact hp v hv
      · have e1 : s.step u = s := by unfold AState.step; rw [hc, e]; rfl
        rw [e1]
        exact ih _ hc hw hp

/-- A thread of a calm call: on a path of the index, and about to write at its own place at most. -/
def APC.OnPath (ix : Index) (a : Bool) (w : List Rune) (pc : APC) : Prop :=
  match pc with
  | .check p rs => ∃ v, w = v ++ rs ∧ walk ix 0 v = some p ∧ Calm ix a p rs
  | .look p rs => rs ≠ [] ∧ ∃ v, w = v ++ rs ∧ walk ix 0 v = some p ∧ Calm ix a p rs
  | .probe p r rest m => m = p.toNat ∧ ∃ v, w = v ++ r :: rest ∧ walk ix 0 v = some p ∧ Calm ix a p (r :: rest)
  | .make p r rest | .link p r rest _ => rest = [] ∧ a = true ∧ ix.getChildrenMap p r = none ∧
      (ix.childrenMap p).isSome = true ∧ ∃ v, w = v ++ [r] ∧ walk ix 0 v = some p
  | .store p r rest _ m | .storing p r rest _ m => m = p.toNat ∧ rest = [] ∧ a = true ∧ ix.getChildrenMap p r = none ∧
      ∃ v, w = v ++ [r] ∧ walk ix 0 v = some p
  | .insert _ _ | .inserting _ _ => False
  | .done _ => True

/-- The invariant of calm calls that do not cross. -/
structure CalmInv (ix : Index) (adds : Nat → Bool) (q : Nat → List Rune) (s : AState) : Prop where
  fine : s.crashed = false
  adds_eq : s.adds = adds
  ref : s.kids.ref = (KidMaps.ofIndex ix).ref
  path : ∀ t, (s.pc t).OnPath ix (adds t) (q t)
  writes : ∀ x ∈ s.writing, ∃ p r c, x.2 = some p.toNat ∧ s.pc x.1 = .storing p r [] c p.toNat
  maps : ∀ p : ID, ∀ r, s.kids.maps p.toNat r = ix.getChildrenMap p r ∨ ∃ t v o, adds t = true ∧ q t = v ++ [r] ∧
    walk ix 0 v = some p ∧ ix.getChildrenMap p r = none ∧ s.pc t = .done o
  nodup : s.writing.Nodup

theorem new_word {ix : Index} {v : List Rune} {p : ID} {r : Rune} (hw : walk ix 0 v = some p)
    (hn : ix.getChildrenMap p r = none) : ∀ id, (ix.fetchRunes (v ++ [r])).2 ≠ .ok id := by
  intro id h
  have := ((fetch_walk ix 0 id (v ++ [r]) (by simp)).1 h).1
  rw [walk_append, hw] at this
  simp [walk, hn] at this

theorem calm_step {ix : Index} {adds : Nat → Bool} {q : Nat → List Rune}
    (inj : ∀ t u v v' p, v <+: q t → v' <+: q u → walk ix 0 v = some p → walk ix 0 v' = some p → v = v')
    (hx : ∀ t u, t ≠ u → adds t = true → ¬Crosses ix (q t) (q u)) {s : AState} (I : CalmInv ix adds q s) (u : Nat) :
    CalmInv ix adds q (s.step u) := by
  have hc := I.fine
  have href : ∀ p : ID, (ix.childrenMap p).isSome = true → s.kids.ref p = some p.toNat := by
    intro p h
    rw [I.ref]
    show (if _ then _ else _) = _
    rw [if_pos h]
  -- moving on without touching anything shared but the nodes
  have move : ∀ (i : Index) (pc : APC), (∀ p r c m, s.pc u ≠ .storing p r [] c m) → (∀ o, s.pc u ≠ .done o) →
      pc.OnPath ix (adds u) (q u) → CalmInv ix adds q ({ s with ix := i }.goto u pc) := by
    intro i pc h1 h2 h3
    refine ⟨hc, I.adds_eq, I.ref, fun t => ?_, fun x hxm => ?_, fun p r => ?_, I.nodup⟩
    · by_cases ht : t = u
      · subst ht
        show (upd s.pc t pc t).OnPath _ _ _
        rw [upd_same]; exact h3
      · show (upd s.pc u pc t).OnPath _ _ _
        rw [upd_other _ _ ht]; exact I.path t
    · obtain ⟨p, r, c, e1, e2⟩ := I.writes x hxm
      refine ⟨p, r, c, e1, ?_⟩
      show upd s.pc u pc x.1 = _
      rw [upd_other _ _ (by intro e; rw [e] at e2; exact h1 _ _ _ _ e2)]
      exact e2
    · rcases I.maps p r with h | ⟨t, v, o, e1, e2, e3, e4, e5⟩
      · exact .inl h
      · refine .inr ⟨t, v, o, e1, e2, e3, e4, ?_⟩
        show upd s.pc u pc t = _
        rw [upd_other _ _ (by intro e; rw [e] at e5; exact h2 _ e5)]
        exact e5
  -- nobody writes the outer map
  have free0 : ∀ s', s.access u none s' = s' := by
    intro s'
    unfold AState.access
    rw [not_busy]
    · rfl
    · intro x hxm e
      obtain ⟨p, r, c, e1, _⟩ := I.writes x hxm
      rw [e1] at e; cases e
  -- nobody else writes the map of a node that is passed
  have free1 : ∀ (p : ID) (s' : AState) (v rest : List Rune) (b : Rune), q u = v ++ b :: rest → walk ix 0 v = some p →
      s.access u (some p.toNat) s' = s' := by
    intro p s' v rest b hq hw
    unfold AState.access
    rw [not_busy]
    · rfl
    · intro x hxm e
      by_contra hne
      obtain ⟨p', r, c, e1, e2⟩ := I.writes x hxm
      rw [e1] at e
      obtain rfl : p' = p := UInt32.toNat_inj.1 (Option.some.inj e)
      have hpx := I.path x.1
      rw [e2] at hpx
      obtain ⟨_, _, ha, hn, v', hq', hw'⟩ := hpx
      obtain rfl : v' = v := inj x.1 u v' v p' (by rw [hq']; exact List.prefix_append _ _)
        (by rw [hq]; exact List.prefix_append _ _) hw' hw
      refine hx x.1 u hne ha ⟨?_, v', r, b, hq', ?_⟩
      · rw [hq']; exact new_word hw' hn
      · rw [hq]; exact ⟨rest, by simp⟩
  have hpath := I.path u
  have hs := I.adds_eq
  have nodone : ∀ {pc : APC}, s.pc u = pc → (∀ o, pc ≠ .done o) → ∀ o, s.pc u ≠ .done o := fun e h o => by rw [e]; exact h o
  have nostore : ∀ {pc : APC}, s.pc u = pc → (∀ p r c m, pc ≠ .storing p r [] c m) → ∀ p r c m, s.pc u ≠ .storing p r [] c m :=
    fun e h p r c m => by rw [e]; exact h p r c m
  unfold AState.step
  rw [if_neg (by rw [hc]; decide)]
  cases hp : s.pc u with
  | check p rs =>
    rw [hp] at hpath
    cases rs with
    | nil => exact move s.ix _ (nostore hp (by simp)) (nodone hp (by simp)) trivial
    | cons r rest =>
      simp only [free0]
      split
      · exact move s.ix _ (nostore hp (by simp)) (nodone hp (by simp)) trivial
      · obtain ⟨v, h1, h2, h3⟩ := hpath
        rw [href p h3.1]
        exact move s.ix _ (nostore hp (by simp)) (nodone hp (by simp)) ⟨by simp, v, h1, h2, h3⟩
  | insert p rs => rw [hp] at hpath; exact hpath.elim
  | inserting p rs => rw [hp] at hpath; exact hpath.elim
  | look p rs =>
    rw [hp] at hpath
    obtain ⟨h0, v, h1, h2, h3⟩ := hpath
    cases rs with
    | nil => exact absurd rfl h0
    | cons r rest =>
      simp only [free0, href p h3.1]
      exact move s.ix _ (nostore hp (by simp)) (nodone hp (by simp)) ⟨rfl, v, h1, h2, h3⟩
  | probe p r rest m =>
    rw [hp] at hpath
    obtain ⟨rfl, v, h1, h2, h3⟩ := hpath
    simp only [free1 p _ v rest r h1 h2]
    have hm : s.kids.maps p.toNat r = ix.getChildrenMap p r := by
      rcases I.maps p r with h | ⟨t, v', o, e1, e2, e3, e4, e5⟩
      · exact h
      · exfalso
        have hne : t ≠ u := by rintro rfl; rw [hp] at e5; cases e5
        obtain rfl : v' = v := inj t u v' v p (by rw [e2]; exact List.prefix_append _ _)
          (by rw [h1]; exact List.prefix_append _ _) e3 h2
        refine hx t u hne e1 ⟨?_, v', r, r, e2, ?_⟩
        · rw [e2]; exact new_word e3 e4
        · rw [h1]; exact ⟨rest, by simp⟩
    rw [hm]
    cases hcm : ix.getChildrenMap p r with
    | some c =>
      simp only [AInv.next_eq]
      refine move s.ix _ (nostore hp (by simp)) (nodone hp (by simp)) ?_
      split
      · trivial
      · rename_i hne
        refine ⟨v ++ [r], by rw [h1]; simp, ?_, h3.2.1 c hcm hne⟩
        rw [walk_append, h2]; simp [walk, hcm]
    | none =>
      simp only [AState.missing]
      split
      · rename_i ha
        rw [hs] at ha
        have hr := h3.2.2 hcm ha
        subst hr
        exact move s.ix _ (nostore hp (by simp)) (nodone hp (by simp)) ⟨rfl, ha, hcm, h3.1, v, h1, h2⟩
      · exact move s.ix _ (nostore hp (by simp)) (nodone hp (by simp)) trivial
  | make p r rest =>
    rw [hp] at hpath
    simp only
    split
    · exact move s.ix _ (nostore hp (by simp)) (nodone hp (by simp)) trivial
    · exact move _ (.link _ _ _ _) (nostore hp (by simp)) (nodone hp (by simp)) hpath
  | link p r rest c =>
    rw [hp] at hpath
    obtain ⟨h0, ha, hn, hm, v, h1, h2⟩ := hpath
    simp only [free0, href p hm]
    exact move s.ix _ (nostore hp (by simp)) (nodone hp (by simp)) ⟨rfl, h0, ha, hn, v, h1, h2⟩
  | store p r rest c m =>
    rw [hp] at hpath
    obtain ⟨rfl, rfl, ha, hn, v, h1, h2⟩ := hpath
    simp only [free1 p _ v [] r h1 h2]
    have hnw : ∀ mo, (u, mo) ∉ s.writing := by
      intro mo hmem
      obtain ⟨p', r', c', _, e2⟩ := I.writes _ hmem
      rw [hp] at e2; cases e2
    refine ⟨hc, hs, I.ref, fun t => ?_, fun x hxm => ?_, fun p' r' => ?_, List.nodup_cons.2 ⟨hnw _, I.nodup⟩⟩
    · by_cases ht : t = u
      · subst ht
        show (upd s.pc t _ t).OnPath _ _ _
        rw [upd_same]
        exact ⟨rfl, rfl, ha, hn, v, h1, h2⟩
      · show (upd s.pc u _ t).OnPath _ _ _
        rw [upd_other _ _ ht]; exact I.path t
    · rcases List.mem_cons.1 hxm with rfl | hxm
      · exact ⟨p, r, c, rfl, upd_same _ _ _⟩
      · obtain ⟨p', r', c', e1, e2⟩ := I.writes x hxm
        refine ⟨p', r', c', e1, ?_⟩
        show upd s.pc u _ x.1 = _
        rw [upd_other _ _ (by intro e; rw [e, hp] at e2; cases e2)]
        exact e2
    · rcases I.maps p' r' with h | ⟨t, v', o, e1, e2, e3, e4, e5⟩
      · exact .inl h
      · refine .inr ⟨t, v', o, e1, e2, e3, e4, ?_⟩
        show upd s.pc u _ t = _
        rw [upd_other _ _ (by intro e; rw [e, hp] at e5; cases e5)]
        exact e5
  | storing p r rest c m =>
    rw [hp] at hpath
    obtain ⟨rfl, rfl, ha, hn, v, h1, h2⟩ := hpath
    simp only [AInv.next_eq, if_true]
    have hdone : ∀ t o, s.pc t = .done o → ∀ x, upd s.pc u (.done x) t = .done o := by
      intro t o e x
      rw [upd_other _ _ (by intro e'; rw [e', hp] at e; cases e)]
      exact e
    refine ⟨hc, hs, I.ref, fun t => ?_, fun x hxm => ?_, fun p' r' => ?_, I.nodup.erase _⟩
    · by_cases ht : t = u
      · subst ht
        show (upd s.pc t _ t).OnPath _ _ _
        rw [upd_same]
        trivial
      · show (upd s.pc u _ t).OnPath _ _ _
        rw [upd_other _ _ ht]; exact I.path t
    · obtain ⟨hne, hmem⟩ := (List.Nodup.mem_erase_iff I.nodup).1 hxm
      obtain ⟨p', r', c', e1, e2⟩ := I.writes x hmem
      refine ⟨p', r', c', e1, ?_⟩
      have hxu : x.1 ≠ u := by
        intro e
        rw [e, hp] at e2
        injection e2 with e3
        apply hne
        rw [← e, e3, ← e1]
      show upd s.pc u _ x.1 = _
      rw [upd_other _ _ hxu]
      exact e2
    · by_cases hpr : p' = p ∧ r' = r
      · obtain ⟨rfl, rfl⟩ := hpr
        exact .inr ⟨u, v, _, ha, h1, h2, hn, upd_same _ _ _⟩
      · have e : (s.kids.store p.toNat r c).maps p'.toNat r' = s.kids.maps p'.toNat r' := by
          show upd s.kids.maps p.toNat _ p'.toNat r' = _
          by_cases hpp : p' = p
          · subst hpp
            rw [upd_same, if_neg fun e => hpr ⟨rfl, e⟩]
          · rw [upd_other _ _ fun e => hpp (UInt32.toNat_inj.1 e)]
        rcases I.maps p' r' with h | ⟨t, v', o, e1, e2, e3, e4, e5⟩
        · exact .inl (e.trans h)
        · exact .inr ⟨t, v', o, e1, e2, e3, e4, hdone t o e5 _⟩
  | done o => exact I

/-- Calm calls that do not cross do not meet. -/
theorem calm_safe {ix : Index} {adds : Nat → Bool} {q : Nat → List Rune}
    (inj : ∀ t u v v' p, v <+: q t → v' <+: q u → walk ix 0 v = some p → walk ix 0 v' = some p → v = v')
    (hcalm : ∀ t, Calm ix (adds t) 0 (q t)) (hx : ∀ t u, t ≠ u → adds t = true → ¬Crosses ix (q t) (q u))
    (sched : List Nat) : ((AState.start ix adds q).run sched).crashed = false := by
  have H : ∀ (sched : List Nat) (s : AState), CalmInv ix adds q s → CalmInv ix adds q (s.run sched) := by
    intro sched
    induction sched with
    | nil => exact fun s h => h
    | cons u sched ih => exact fun s h => ih _ (calm_step inj hx h u)
  refine (H sched (AState.start ix adds q) ⟨rfl, rfl, rfl, fun t => ⟨[], rfl, rfl, hcalm t⟩, fun x hx => by (cases hx), fun p r => .inl ?_, List.nodup_nil⟩).fine
  show ix.getChildrenMap (UInt32.ofNat p.toNat) r = _
  rw [UInt32.ofNat_toNat]

/-- Exactly when calls can meet. -/
theorem races {h : List Op} {ix : Index} (r : Run h ix) (T : Tidy ix) (adds : Nat → Bool) (q : Nat → List Rune)
    (hz : NoReload h ∨ ∀ t, NoLeadingNul (q t)) :
    (∃ sched, ((AState.start ix adds q).run sched).crashed = true) ↔
      ∃ t u, t ≠ u ∧ ((Grows ix (adds t) (q t) ∧ q u ≠ []) ∨ (adds t = true ∧ Crosses ix (q t) (q u))) := by
  constructor
  · rintro ⟨sched, hc⟩
    by_contra hno
    push Not at hno
    have pre : ∀ {v w : List Rune}, v <+: w → NoLeadingNul w → NoLeadingNul v := by
      rintro v w ⟨x, rfl⟩ hw e
      cases v with
      | nil => cases e
      | cons a v => exact hw e
    have : ((AState.start ix adds q).run sched).crashed = false := by
      by_cases hg : ∃ t, Grows ix (adds t) (q t)
      · obtain ⟨t, hg⟩ := hg
        exact alone_safe ix adds q t (fun u hu => (hno t u hu.symm).1 hg) sched
      · push Not at hg
        refine calm_safe ?_ (fun t => T.calm (hg t)) (fun t u htu => (hno t u htu).2) sched
        intro t u v v' p hv hv' h1 h2
        have hi := AInv.start (adds := adds) (q := q) r.trie
        have hn : (AState.start ix adds q).now = ix := AState.start_now ix _ q
        have e1 := hi.walkSpells (v := v) (hz.imp_right fun h => pre hv (h t)) (by rw [hn]; exact h1)
        have e2 := hi.walkSpells (v := v') (hz.imp_right fun h => pre hv' (h u)) (by rw [hn]; exact h2)
        exact Option.some.inj (e1.symm.trans e2)
    rw [this] at hc; cases hc
  · rintro ⟨t, u, htu, ⟨hg, hu⟩ | ⟨ha, hx⟩⟩
    · exact grows_crash ix adds q htu hg hu
    · exact crosses_crash T adds q htu ha hx

end Verif
