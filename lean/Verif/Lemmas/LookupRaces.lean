import Verif.Lemmas.ConcurrentLookup

/-! # Helper lemmas: lookups that write -/

namespace Verif

theorem childrenMap_grows (ix : Index) (p k : ID) (h : (ix.childrenMap k).isSome = true) :
    ((ix.getChildrenIDMap p).1.childrenMap k).isSome = true := by
  show (Index.ensureChildren ix.childrenMap p k).isSome = true
  unfold Index.ensureChildren
  cases hm : ix.childrenMap p with
  | some _ => exact h
  | none =>
    simp only
    split
    · rfl
    · exact h

theorem childrenMap_made (ix : Index) (p : ID) : ((ix.getChildrenIDMap p).1.childrenMap p).isSome = true := by
  obtain ⟨im, h⟩ := ensureChildren_isSome ix.childrenMap p
  show (Index.ensureChildren ix.childrenMap p p).isSome = true
  rw [h]; rfl

theorem fetchFromItem_grows (rs : List Rune) (ix : Index) (p k : ID) (h : (ix.childrenMap k).isSome = true) :
    ((ix.fetchFromItem p rs).1.childrenMap k).isSome = true := by
  induction rs generalizing ix p with
  | nil => exact h
  | cons r rest ih =>
    unfold Index.fetchFromItem
    have hg := childrenMap_grows ix p k h
    cases hc : (ix.getChildrenIDMap p).2 r with
    | none => simp only [hc]; exact hg
    | some n =>
      simp only [hc]
      split
      · exact hg
      · exact ih _ _ hg

/-- A lookup is quiet exactly if it makes no new map. -/
theorem quiet_iff (rs : List Rune) (ix : Index) (p : ID) :
    Quiet ix p rs ↔ (ix.fetchFromItem p rs).1.childrenMap = ix.childrenMap := by
  induction rs generalizing p with
  | nil => exact ⟨fun _ => rfl, fun _ => trivial⟩
  | cons r rest ih =>
    by_cases hm : (ix.childrenMap p).isSome = true
    · have he : (ix.fetchFromItem p (r :: rest)).1.childrenMap = match ix.getChildrenMap p r with
          | none => ix.childrenMap
          | some n => if rest = [] then ix.childrenMap else (ix.fetchFromItem n rest).1.childrenMap := by
        rw [Index.fetchFromItem, getChildrenIDMap_same hm]
        cases hc : ix.getChildrenMap p r with
        | none => simp only [hc]
        | some n =>
          simp only [hc]
          split
          · rfl
          · rfl
      rw [he]
      constructor
      · rintro ⟨-, hq⟩
        cases hc : ix.getChildrenMap p r with
        | none => rfl
        | some n =>
          simp only
          split
          · rfl
          · rename_i hr
            exact (ih n).1 (hq n hc hr)
      · intro h
        refine ⟨hm, fun k hk hr => (ih k).2 ?_⟩
        rw [hk] at h
        simp only [if_neg hr] at h
        exact h
    · refine ⟨fun h => absurd h.1 hm, fun h => ?_⟩
      exfalso
      have h1 : ((ix.fetchFromItem p (r :: rest)).1.childrenMap p).isSome = true := by
        unfold Index.fetchFromItem
        have hg := childrenMap_made ix p
        cases hc : (ix.getChildrenIDMap p).2 r with
        | none => simp only [hc]; exact hg
        | some n =>
          simp only [hc]
          split
          · exact hg
          · exact fetchFromItem_grows _ _ _ _ hg
      rw [h] at h1
      exact hm h1

/-! ## A schedule that crashes -/

theorem LState.step_check {s : LState} {t : Nat} {p : ID} {r : Rune} {rest : List Rune} (hf : s.crashed = false)
    (hi : s.inserting = none) (hp : s.pc t = .check p (r :: rest)) :
    s.step t = s.goto t (if (s.ix.childrenMap p).isSome then .look p (r :: rest) else .insert p (r :: rest)) := by
  unfold LState.step
  simp only [hf, hp, LState.access, hi]
  rfl

theorem LState.step_look {s : LState} {t : Nat} {p : ID} {r : Rune} {rest : List Rune} (hf : s.crashed = false)
    (hi : s.inserting = none) (hp : s.pc t = .look p (r :: rest)) :
    s.step t = (match s.ix.getChildrenMap p r with
      | none => s.goto t (.done ((s.ix.word p).bind fun w => .err (.notFound w r)))
      | some next => if rest = [] then s.goto t (.done (s.ix.get next)) else s.goto t (.check next rest)) := by
  unfold LState.step
  simp only [hf, hp, LState.access, hi]
  rfl

/-- A lookup that is not quiet comes, alone, to the moment when it is inside a map insertion. -/
theorem reaches_inserting (rs : List Rune) (s : LState) (t : Nat) (p : ID) (hf : s.crashed = false)
    (hi : s.inserting = none) (hp : s.pc t = .check p rs) (hq : ¬ Quiet s.ix p rs) :
    ∃ sched, (s.run sched).crashed = false ∧ (s.run sched).inserting = some t ∧
      ∀ u, u ≠ t → (s.run sched).pc u = s.pc u := by
  induction rs generalizing s p with
  | nil => exact absurd trivial hq
  | cons r rest ih =>
    have e1 := LState.step_check hf hi hp
    by_cases hm : (s.ix.childrenMap p).isSome = true
    · rw [if_pos hm] at e1
      have hp1 : (s.step t).pc t = .look p (r :: rest) := by rw [e1]; exact upd_same _ _ _
      have e2 := LState.step_look (s := s.step t) (t := t) (by rw [e1]; exact hf) (by rw [e1]; exact hi) hp1
      have hix : (s.step t).ix = s.ix := by rw [e1]; rfl
      rw [hix] at e2
      have hne : ∃ k, s.ix.getChildrenMap p r = some k ∧ rest ≠ [] ∧ ¬ Quiet s.ix k rest := by
        refine Classical.byContradiction fun hno => hq ⟨hm, fun k hk hr => ?_⟩
        exact Classical.byContradiction fun h => hno ⟨k, hk, hr, h⟩
      obtain ⟨k, hk, hr, hk2⟩ := hne
      simp only [hk, if_neg hr] at e2
      have hix2 : ((s.step t).step t).ix = s.ix := by rw [e2]; exact hix
      obtain ⟨sched, h1, h2, h3⟩ := ih ((s.step t).step t) k (by rw [e2, e1]; exact hf) (by rw [e2, e1]; exact hi)
        (by rw [e2]; exact upd_same _ _ _) (by rw [hix2]; exact hk2)
      refine ⟨t :: t :: sched, h1, h2, fun u hu => ?_⟩
      rw [show (s.run (t :: t :: sched)) = ((s.step t).step t).run sched from rfl, h3 u hu, e2]
      show upd (s.step t).pc t _ u = _
      rw [upd_other _ _ hu, e1]
      exact upd_other _ _ hu
    · rw [if_neg hm] at e1
      have hp1 : (s.step t).pc t = .insert p (r :: rest) := by rw [e1]; exact upd_same _ _ _
      have hf1 : (s.step t).crashed = false := by rw [e1]; exact hf
      have hi1 : (s.step t).inserting = none := by rw [e1]; exact hi
      have e2 : (s.step t).step t = { s.step t with inserting := some t }.goto t (.inserting p (r :: rest)) := by
        rw [LState.step]
        simp only [hf1, hp1, LState.access, hi1]
        rfl
      refine ⟨[t, t], ?_, ?_, fun u hu => ?_⟩
      · show ((s.step t).step t).crashed = false
        rw [e2]; exact hf1
      · show ((s.step t).step t).inserting = some t
        rw [e2]; rfl
      · show ((s.step t).step t).pc u = s.pc u
        rw [e2]
        show upd (s.step t).pc t _ u = _
        rw [upd_other _ _ hu, e1]
        exact upd_other _ _ hu

/-- A lookup that writes, with any other lookup of at least one letter beside it, can end the program. -/
theorem can_crash {ix : Index} {q : Nat → List Rune} {t u : Nat} (hu : u ≠ t) (hq : ¬ Quiet ix 0 (q t))
    (hne : q u ≠ []) : ∃ sched, ((LState.init ix q).run sched).crashed = true := by
  obtain ⟨sched, h1, h2, h3⟩ := reaches_inserting (q t) (LState.init ix q) t 0 rfl rfl rfl hq
  refine ⟨sched ++ [u], ?_⟩
  rw [LState.run, List.foldl_append]
  show (LState.step (LState.run _ sched) u).crashed = true
  have hp : ((LState.init ix q).run sched).pc u = .check 0 (q u) := h3 u hu
  cases hqu : q u with
  | nil => exact absurd hqu hne
  | cons r rest =>
    rw [hqu] at hp
    unfold LState.step
    simp only [h1, hp, LState.access, h2, if_neg (Ne.symm hu)]
    rfl

/-! ## A single lookup beside idle ones -/

/-- Nobody but `t` touches the map. -/
structure Alone (t : Nat) (s : LState) : Prop where
  fine : s.crashed = false
  owner : s.inserting = none ∨ s.inserting = some t
  idle : ∀ u, u ≠ t → (∃ p, s.pc u = .check p []) ∨ ∃ o, s.pc u = .done o

theorem LState.access_alone {t : Nat} {s : LState} (h : Alone t s) (k : LState → LState) : s.access t k = k s := by
  unfold LState.access
  rcases h.owner with e | e
  · rw [e]
  · rw [e]; simp

theorem Alone.goto {t : Nat} {s : LState} (h : Alone t s) (p : LPC) : Alone t (s.goto t p) := by
  refine ⟨h.fine, h.owner, fun u hu => ?_⟩
  have : (s.goto t p).pc u = s.pc u := upd_other _ _ hu
  rw [this]
  exact h.idle u hu

theorem Alone.step {t : Nat} {s : LState} (h : Alone t s) (v : Nat) : Alone t (s.step v) := by
  by_cases hv : v = t
  · subst hv
    unfold LState.step
    rw [if_neg (by rw [h.fine]; exact Bool.false_ne_true)]
    split
    · exact h.goto _
    · rw [LState.access_alone h]; exact h.goto _
    · rw [LState.access_alone h]
      exact Alone.goto (s := { s with inserting := some v }) ⟨h.fine, .inr rfl, h.idle⟩ _
    · rename_i p rs _
      exact Alone.goto (s := s.insertMap p)
        ⟨h.fine, .inl rfl, h.idle⟩ _
    · exact h.goto _
    · rw [LState.access_alone h]
      split
      · exact h.goto _
      · split
        · exact h.goto _
        · exact h.goto _
    · exact h
  · rcases h.idle v hv with ⟨p, hp⟩ | ⟨o, ho⟩
    · have e : s.step v = s.goto v (.done (.err .emptyRunes)) := by
        unfold LState.step; simp only [h.fine, hp]; rfl
      rw [e]
      refine ⟨h.fine, h.owner, fun u hu => ?_⟩
      by_cases huv : u = v
      · subst huv
        exact .inr ⟨_, upd_same _ _ _⟩
      · have : (s.goto v (.done (.err .emptyRunes))).pc u = s.pc u := upd_other _ _ huv
        rw [this]
        exact h.idle u hu
    · have e : s.step v = s := by unfold LState.step; simp only [h.fine, ho]; rfl
      rw [e]; exact h

theorem Alone.run {t : Nat} (sched : List Nat) {s : LState} (h : Alone t s) : Alone t (s.run sched) := by
  induction sched generalizing s with
  | nil => exact h
  | cons v vs ih => exact ih (h.step v)

/-! ## Answers, as long as the program runs -/

theorem fetchFromItem_alone {a b : Index} (h : Index.Obs a b) (rs : List Rune) (p : ID) :
    (b.fetchFromItem p rs).2 = (a.fetchFromItem p rs).2 := by
  induction rs generalizing a b p with
  | nil => rfl
  | cons r rest ih =>
    rw [Index.fetchFromItem, Index.fetchFromItem]
    simp only [getChildrenIDMap_snd, h.children]
    have h' : Index.Obs (a.getChildrenIDMap p).1 (b.getChildrenIDMap p).1 :=
      ⟨h.tags, h.tagSets, h.collectionIdx, h.items,
        ((getChildrenIDMap_obs b p).children.trans h.children).trans (getChildrenIDMap_obs a p).children.symm, h.wordsCount⟩
    cases a.getChildrenMap p r with
    | none => simp only [word_obs h']
    | some k =>
      simp only [get_obs h']
      split
      · rfl
      · exact ih h' k

/-- The rest of a lookup gives the answer `a`. -/
def LPC.Aims (ix : Index) (a : Out ID) : LPC → Prop
  | .check p rs => (ix.fetchFromItem p rs).2 = a
  | .insert p rs => rs ≠ [] ∧ (ix.fetchFromItem p rs).2 = a ∧ ∀ r, ix.getChildrenMap p r = none
  | .inserting p rs => rs ≠ [] ∧ (ix.fetchFromItem p rs).2 = a ∧ ∀ r, ix.getChildrenMap p r = none
  | .look p rs => rs ≠ [] ∧ (ix.fetchFromItem p rs).2 = a
  | .done o => o = a

/-- Steps a lookup still has to make at most, if it writes on the way. -/
def LPC.atMost : LPC → Nat
  | .check _ rs => 4 * rs.length + 1
  | .insert _ rs => 4 * rs.length
  | .inserting _ rs => 4 * rs.length - 1
  | .look _ rs => 4 * rs.length - 2
  | .done _ => 0

structure Aiming (ix : Index) (a : Nat → Out ID) (s : LState) : Prop where
  same : Index.Obs ix s.ix
  aims : ∀ t, (s.pc t).Aims ix (a t)

theorem Aiming.goto {ix : Index} {a : Nat → Out ID} {s : LState} (h : Aiming ix a s) (t : Nat) (p : LPC)
    (hp : p.Aims ix (a t)) : Aiming ix a (s.goto t p) := by
  refine ⟨h.same, fun u => ?_⟩
  show (upd s.pc t p u).Aims ix (a u)
  by_cases e : u = t
  · subst e; rw [upd_same]; exact hp
  · rw [upd_other _ _ e]; exact h.aims u

/-- One step keeps the aims of all, moves only its own thread, and, if the program goes on, makes progress. -/
theorem Aiming.step {ix : Index} {a : Nat → Out ID} {s : LState} (h : Aiming ix a s) (t : Nat) :
    Aiming ix a (s.step t) ∧ (∀ u, u ≠ t → (s.step t).pc u = s.pc u) ∧
      ((s.step t).crashed = false → ((s.step t).pc t).atMost ≤ (s.pc t).atMost - 1) := by
  by_cases hc : s.crashed = true
  · have e : s.step t = s := by unfold LState.step; rw [if_pos hc]
    rw [e]
    exact ⟨h, fun _ _ => rfl, fun hf => by rw [hc] at hf; cases hf⟩
  have go : ∀ (s1 : LState) (p : LPC), Aiming ix a s1 → s1.pc = s.pc → p.Aims ix (a t) →
      p.atMost ≤ (s.pc t).atMost - 1 → s.step t = s1.goto t p →
      Aiming ix a (s.step t) ∧ (∀ u, u ≠ t → (s.step t).pc u = s.pc u) ∧
      ((s.step t).crashed = false → ((s.step t).pc t).atMost ≤ (s.pc t).atMost - 1) := by
    intro s1 p h1 hpc hp hl he
    rw [he]
    refine ⟨h1.goto t p hp, fun u hu => ?_, fun _ => ?_⟩
    · show upd s1.pc t p u = _
      rw [upd_other _ _ hu, hpc]
    · show (upd s1.pc t p t).atMost ≤ _
      rw [upd_same]; exact hl
  have crash : s.step t = { s with crashed := true } →
      Aiming ix a (s.step t) ∧ (∀ u, u ≠ t → (s.step t).pc u = s.pc u) ∧
      ((s.step t).crashed = false → ((s.step t).pc t).atMost ≤ (s.pc t).atMost - 1) := by
    intro he
    rw [he]
    exact ⟨⟨h.same, h.aims⟩, fun _ _ => rfl, fun hf => by cases hf⟩
  have acc : ∀ k : LState → LState, s.access t k = k s ∨ s.access t k = { s with crashed := true } := by
    intro k
    unfold LState.access
    split
    · split
      · exact .inl rfl
      · exact .inr rfl
    · exact .inl rfl
  have hg := h.aims t
  have hstep : ∀ x, (if s.crashed = true then s else x) = x := fun x => if_neg hc
  cases hp : s.pc t with
  | check p rs =>
    rw [hp] at hg go
    cases rs with
    | nil => exact go s (.done (.err .emptyRunes)) h rfl hg (Nat.zero_le _) (by unfold LState.step; rw [hstep, hp])
    | cons r rest =>
      have e : s.step t = s.access t fun s =>
          s.goto t (if (s.ix.childrenMap p).isSome then .look p (r :: rest) else .insert p (r :: rest)) := by
        unfold LState.step; rw [hstep, hp]
      rcases acc (fun s => s.goto t (if (s.ix.childrenMap p).isSome then .look p (r :: rest) else .insert p (r :: rest)))
        with e' | e'
      · rw [e'] at e
        refine go s _ h rfl ?_ ?_ e
        · split
          · exact ⟨by simp, hg⟩
          · rename_i hm
            refine ⟨by simp, hg, fun a => ?_⟩
            rw [← h.same.children]
            unfold Index.getChildrenMap
            rw [Option.not_isSome_iff_eq_none.1 hm]
            rfl
        · split
          · simp only [LPC.atMost, List.length_cons]; omega
          · simp only [LPC.atMost, List.length_cons]; omega
      · rw [e'] at e
        have := crash e
        rwa [hp] at this
  | insert p rs =>
    rw [hp] at hg go
    have e : s.step t = s.access t fun s => { s with inserting := some t }.goto t (.inserting p rs) := by
      unfold LState.step; rw [hstep, hp]
    rcases acc (fun s => { s with inserting := some t }.goto t (.inserting p rs)) with e' | e'
    · rw [e'] at e
      exact go { s with inserting := some t } (.inserting p rs) ⟨h.same, h.aims⟩ rfl hg
        (by simp only [LPC.atMost]; omega) e
    · rw [e'] at e
      have := crash e
      rwa [hp] at this
  | inserting p rs =>
    rw [hp] at hg go
    exact go (s.insertMap p) (.look p rs)
      ⟨⟨h.same.tags, h.same.tagSets, h.same.collectionIdx, h.same.items, by
        rw [← h.same.children]
        funext a r
        show Option.getD (if a = p then some fun _ => none else s.ix.childrenMap a) _ r = _
        split
        · rename_i e
          rw [e, h.same.children, hg.2.2]
          rfl
        · rfl, h.same.wordsCount⟩, h.aims⟩ rfl ⟨hg.1, hg.2.1⟩ (by simp only [LPC.atMost]; omega)
      (by unfold LState.step; rw [hstep, hp])
  | look p rs =>
    rw [hp] at hg go
    obtain ⟨hne, ha⟩ := hg
    cases rs with
    | nil => exact absurd rfl hne
    | cons r rest =>
      have e : s.step t = s.access t fun s => match s.ix.getChildrenMap p r with
          | none => s.goto t (.done ((s.ix.word p).bind fun w => .err (.notFound w r)))
          | some next => if rest = [] then s.goto t (.done (s.ix.get next)) else s.goto t (.check next rest) := by
        unfold LState.step; rw [hstep, hp]; rfl
      rcases acc (fun s => match s.ix.getChildrenMap p r with
          | none => s.goto t (.done ((s.ix.word p).bind fun w => .err (.notFound w r)))
          | some next => if rest = [] then s.goto t (.done (s.ix.get next)) else s.goto t (.check next rest)) with e' | e'
      · rw [e'] at e
        rw [Index.fetchFromItem] at ha
        simp only [getChildrenIDMap_snd] at ha
        simp only [h.same.children] at e
        have ho := getChildrenIDMap_obs ix p
        cases hk : ix.getChildrenMap p r with
        | none =>
          simp only [hk, word_obs ho] at ha
          simp only [hk, word_obs h.same] at e
          exact go s (.done _) h rfl ha (Nat.zero_le _) e
        | some k =>
          simp only [hk] at ha e
          by_cases hr : rest = []
          · rw [if_pos hr] at ha e
            simp only [get_obs ho] at ha
            rw [get_obs h.same] at e
            exact go s (.done _) h rfl ha (Nat.zero_le _) e
          · rw [if_neg hr] at ha e
            rw [fetchFromItem_alone ho] at ha
            exact go s (.check _ _) h rfl ha (by simp only [LPC.atMost, List.length_cons]; omega) e
      · rw [e'] at e
        have := crash e
        rwa [hp] at this
  | done o =>
    have e : s.step t = s := by unfold LState.step; rw [hstep, hp]
    rw [e]
    refine ⟨h, fun _ _ => rfl, fun _ => ?_⟩
    rw [hp]; exact Nat.zero_le _

theorem LState.crashed_step {s : LState} (h : s.crashed = true) (t : Nat) : s.step t = s := by
  unfold LState.step; rw [if_pos h]

theorem LState.crashed_run {s : LState} (h : s.crashed = true) (sched : List Nat) : s.run sched = s := by
  induction sched with
  | nil => rfl
  | cons t ts ih =>
    show (s.step t).run ts = s
    rw [LState.crashed_step h]; exact ih

theorem Aiming.run {ix : Index} {a : Nat → Out ID} (sched : List Nat) {s : LState} (h : Aiming ix a s) :
    Aiming ix a (s.run sched) ∧
      ((s.run sched).crashed = false → ∀ t, ((s.run sched).pc t).atMost ≤ (s.pc t).atMost - sched.count t) := by
  induction sched generalizing s with
  | nil => exact ⟨h, fun _ t => by simp [LState.run]⟩
  | cons u us ih =>
    obtain ⟨h1, h2, h3⟩ := h.step u
    obtain ⟨i1, i2⟩ := ih h1
    refine ⟨i1, fun hf t => ?_⟩
    have hf' : ((s.step u).run us).crashed = false := hf
    have hs : (s.step u).crashed = false := by
      cases hc : (s.step u).crashed with
      | false => rfl
      | true => rw [LState.crashed_run hc, hc] at hf'; cases hf'
    have := i2 hf' t
    show ((LState.run (s.step u) us).pc t).atMost ≤ _
    by_cases e : u = t
    · subst e
      rw [List.count_cons_self]
      have := h3 hs
      omega
    · rw [List.count_cons_of_ne e]
      rw [h2 t (fun h => e h.symm)] at this
      exact this

theorem Aiming.init (ix : Index) (q : Nat → List Rune) :
    Aiming ix (fun t => (ix.fetchRunes (q t)).2) (LState.init ix q) := ⟨.refl _, fun _ => rfl⟩

theorem LPC.done_of_atMost {ix : Index} {a : Out ID} {p : LPC} (hg : p.Aims ix a) (hl : p.atMost = 0) :
    p = .done a := by
  cases p with
  | check p rs => simp [LPC.atMost] at hl
  | done o => exact congrArg _ hg
  | insert p rs | inserting p rs | look p rs =>
    cases rs with
    | nil => exact absurd rfl hg.1
    | cons r rest => simp only [LPC.atMost, List.length_cons] at hl; omega

end Verif
