import Verif.Lemmas.ConcurrentAdd

/-! # Calls one after the other -/

namespace Verif

/-- The call of one thread, alone: `AddToNode` or `FetchFromItem`. -/
def callLoop (a : Bool) (ix : Index) (p : ID) (rs : List Rune) : Index × Out ID :=
  if a then ix.addLoop 0 p rs else ix.fetchFromItem p rs

namespace AState

/-- Nobody is writing, nothing has crashed, and the maps are in order. -/
structure Idle (s : AState) : Prop where
  writing : s.writing = []
  crashed : s.crashed = false
  ok : s.kids.Ok

/-- `t` can go from `a` to `b` in at most `n` steps of its own. -/
def Reach (t : Nat) (n : Nat) (a b : AState) : Prop := ∃ k, k ≤ n ∧ a.run (List.replicate k t) = b

theorem run_append (s : AState) (a b : List Nat) : s.run (a ++ b) = (s.run a).run b := List.foldl_append

theorem Reach.trans {t n m : Nat} {a b c : AState} (h : Reach t n a b) (h' : Reach t m b c) : Reach t (n + m) a c := by
  obtain ⟨k, hk, e⟩ := h
  obtain ⟨k', hk', e'⟩ := h'
  exact ⟨k + k', by omega, by rw [List.replicate_add, run_append, e, e']⟩

theorem Reach.mono {t n m : Nat} {a b : AState} (h : Reach t n a b) (hn : n ≤ m) : Reach t m a b :=
  let ⟨k, hk, e⟩ := h; ⟨k, by omega, e⟩

theorem Reach.one {t : Nat} {a b : AState} (h : a.step t = b) : Reach t 1 a b := ⟨1, Nat.le_refl _, h⟩

theorem upd_upd {α : Type} (f : Nat → α) (i : Nat) (x y : α) : upd (upd f i x) i y = upd f i y := by
  funext j
  unfold upd
  split <;> rfl

/-- `t` runs from `s` to a state with index `ix'` in which it is at `pc'`. -/
def Solo (t n : Nat) (s : AState) (ix' : Index) (pc' : APC) : Prop :=
  ∃ s', Reach t n s s' ∧ s'.Idle ∧ s'.now = ix' ∧ s'.pc = upd s.pc t pc' ∧ s'.adds = s.adds

theorem Solo.trans {t n m : Nat} {s : AState} {ix' ix'' : Index} {pc' pc'' : APC} (h : Solo t n s ix' pc')
    (h' : ∀ s' : AState, s'.Idle → s'.now = ix' → s'.pc t = pc' → s'.adds = s.adds → Solo t m s' ix'' pc'') :
    Solo t (n + m) s ix'' pc'' := by
  obtain ⟨s1, r1, i1, n1, p1, a1⟩ := h
  obtain ⟨s2, r2, i2, n2, p2, a2⟩ := h' s1 i1 n1 (by rw [p1, upd_same]) a1
  exact ⟨s2, r1.trans r2, i2, n2, by rw [p2, p1, upd_upd], a2.trans a1⟩

/-- A step that only moves the program counter, before the rest. -/
theorem Solo.head {t m : Nat} {s : AState} {ix' : Index} {pc pc' : APC} (h : s.step t = s.goto t pc)
    (h' : Solo t m (s.goto t pc) ix' pc') : Solo t (1 + m) s ix' pc' := by
  obtain ⟨s', r, i, n, p, a⟩ := h'
  exact ⟨s', (Reach.one h).trans r, i, n, by rw [p]; exact upd_upd _ _ _ _, a⟩

theorem Solo.mono {t n m : Nat} {s : AState} {ix' : Index} {pc' : APC} (h : Solo t n s ix' pc') (hn : n ≤ m) :
    Solo t m s ix' pc' :=
  let ⟨s', r, x⟩ := h; ⟨s', r.mono hn, x⟩

variable {s : AState}

theorem access_free (hw : s.writing = []) (t : Nat) (m : Option Nat) (s' : AState) : s.access t m s' = s' := by
  unfold access
  rw [if_neg]
  simp [busy, hw]

/-- A step that only moves the program counter. -/
theorem Solo.goto {t : Nat} {pc' : APC} (hi : s.Idle) (h : s.step t = s.goto t pc') : Solo t 1 s s.now pc' :=
  ⟨_, .one h, ⟨hi.writing, hi.crashed, hi.ok⟩, rfl, rfl, rfl⟩

/-- The step of a thread, nobody else writing. -/
theorem Idle.step (hi : s.Idle) {t : Nat} {pc : APC} (hp : s.pc t = pc) : s.step t = match (generalizing := false) pc with
    | .check _ [] => s.goto t (.done (.err .emptyRunes))
    | .check p (r :: rest) =>
      if s.adds t ∧ p ≠ 0 ∧ (s.ix.items.get p).isNone then s.goto t (.done (.err (.noParent 0)))
      else s.goto t (if (s.kids.ref p).isSome then .look p (r :: rest) else .insert p (r :: rest))
    | .insert p rs => { s with writing := (t, none) :: s.writing }.goto t (.inserting p rs)
    | .inserting p rs =>
      { s with writing := s.writing.erase (t, none), kids := s.kids.insert p }.goto t (.look p rs)
    | .look _ [] => s
    | .look p (r :: rest) => match s.kids.ref p with
      | some m => s.goto t (.probe p r rest m)
      | none => s.missing t p r rest
    | .probe p r rest m => match s.kids.maps m r with
      | some c => s.next t c rest
      | none => s.missing t p r rest
    | .make p r rest => match s.ix.items.newChild p r with
      | none => s.goto t (.done .panic)
      | some (its, it) => { s with ix := { s.ix with items := its } }.goto t (.link p r rest it.id)
    | .link p r rest c => match s.kids.ref p with
      | some m => s.goto t (.store p r rest c m)
      | none => s.goto t (.done .panic)
    | .store p r rest c m => { s with writing := (t, some m) :: s.writing }.goto t (.storing p r rest c m)
    | .storing _ r rest c m =>
      { s with writing := s.writing.erase (t, some m), kids := s.kids.store m r c }.next t c rest
    | .done _ => s := by
  subst hp
  unfold AState.step
  rw [if_neg (by rw [hi.crashed]; decide)]
  cases hp : s.pc t with
  | check p rs => cases rs <;> simp only [access_free hi.writing]
  | look p rs => cases rs with
    | nil => rfl
    | cons r rest => simp only [access_free hi.writing]; rfl
  | insert p rs => simp only [access_free hi.writing]
  | probe p r rest m => simp only [access_free hi.writing]; rfl
  | make p r rest => rfl
  | link p r rest c => simp only [access_free hi.writing]; rfl
  | store p r rest c m => simp only [access_free hi.writing]
  | _ => rfl

/-- A missing map is inserted. -/
theorem Solo.insert (hi : s.Idle) {t : Nat} {p : ID} {rs : List Rune} (hp : s.pc t = .insert p rs) (hr : s.kids.ref p = none) :
    Solo t 2 s (s.now.getChildrenIDMap p).1 (.look p rs) := by
  have h1 := hi.step hp
  simp only at h1
  have h2 : (({ s with writing := (t, none) :: s.writing } : AState).goto t (.inserting p rs)).step t =
      { s with kids := s.kids.insert p }.goto t (.look p rs) := by
    unfold AState.step
    simp only [AState.goto, upd_same, hi.crashed]
    simp [upd_upd]
  refine ⟨_, (Reach.one h1).trans (.one h2), ⟨hi.writing, hi.crashed, KidMaps.insert_ok hi.ok p⟩, ?_, rfl, rfl⟩
  have hv : s.kids.view p = none := by simp [KidMaps.view, hr]
  simp only [AState.goto, AState.now, KidMaps.insert_view hi.ok, Index.getChildrenIDMap, Index.ensureChildren, hv]

/-- A new child is stored. -/
theorem Solo.store (hi : s.Idle) {t : Nat} {p : ID} {r : Rune} {rest : List Rune} {c : ID} {m : Nat}
    (hp : s.pc t = .store p r rest c m) (hr : s.kids.ref p = some m) :
    Solo t 2 s { s.now with childrenMap := Index.setChild s.now.childrenMap p r c }
      (if rest = [] then .done (s.ix.get c) else .check c rest) := by
  have h1 := hi.step hp
  simp only at h1
  have h2 : (({ s with writing := (t, some m) :: s.writing } : AState).goto t (.storing p r rest c m)).step t =
      { s with kids := s.kids.store m r c }.goto t (if rest = [] then .done (s.ix.get c) else .check c rest) := by
    unfold AState.step
    simp only [AState.goto, upd_same, hi.crashed]
    rw [if_neg (by decide)]
    simp only [AInv.next_eq, AState.goto, upd_upd, List.erase_cons_head]
  refine ⟨_, (Reach.one h1).trans (.one h2), ⟨hi.writing, hi.crashed, KidMaps.store_ok hi.ok m r c⟩, ?_, rfl, rfl⟩
  simp only [AState.goto, AState.now, KidMaps.store_view hi.ok hr]

/-- One thread alone: the model of the sequential call. -/
theorem solo (t : Nat) (rs : List Rune) : ∀ (s : AState) (p : ID), s.Idle → s.pc t = .check p rs →
    Solo t (9 * rs.length + 1) s (callLoop (s.adds t) s.now p rs).1 (.done (callLoop (s.adds t) s.now p rs).2) := by
  induction rs with
  | nil =>
    intro s p hi hp
    have h := Solo.goto hi (hi.step hp)
    cases ha : s.adds t <;> exact h.mono (by omega)
  | cons r rest ih =>
    intro s p hi hp
    have h1 := hi.step hp
    simp only at h1
    -- the parent is there, or the call is over
    by_cases hnp : s.adds t = true ∧ p ≠ 0 ∧ (s.ix.items.get p).isNone = true
    · rw [if_pos hnp] at h1
      have h := Solo.goto hi h1
      have e : callLoop (s.adds t) s.now p (r :: rest) = (s.now, .err (.noParent 0)) := by
        unfold callLoop Index.addLoop
        rw [if_pos hnp.1]
        exact if_pos hnp.2
      rw [e]
      exact h.mono (by omega)
    rw [if_neg hnp] at h1
    -- reaching the look-up, with the children map present
    have hlook : Solo t 3 s (s.now.getChildrenIDMap p).1 (.look p (r :: rest)) := by
      have g := Solo.goto hi h1
      cases hm : s.kids.ref p with
      | some m =>
        rw [hm] at g
        have hsome : (s.now.childrenMap p).isSome = true := by simp [now, KidMaps.view, hm]
        rw [getChildrenIDMap_same hsome]
        exact g.mono (by omega)
      | none =>
        rw [hm] at g
        refine Solo.trans (m := 2) g fun s' hi' hn' hp' _ => ?_
        have hr' : s'.kids.ref p = none := by
          have : s'.now.childrenMap p = none := by rw [hn']; simp [now, KidMaps.view, hm]
          simpa [now, KidMaps.view] using this
        have := Solo.insert hi' hp' hr'
        rw [hn'] at this
        exact this
    have ho := getChildrenIDMap_obs s.now p
    have hs := getChildrenIDMap_snd s.now p
    have hsm : ((s.now.getChildrenIDMap p).1.childrenMap p).isSome = true := by
      obtain ⟨im, him⟩ := ensureChildren_isSome s.now.childrenMap p
      exact Option.isSome_iff_exists.2 ⟨im, him⟩
    have hpar : ¬(s.adds t = true ∧ p ≠ 0 ∧ (s.now.items.get p).isNone = true) := hnp
    -- the sequential call, unfolded once
    have hcall : callLoop (s.adds t) s.now p (r :: rest) =
        (let ix1 := (s.now.getChildrenIDMap p).1
         match s.now.getChildrenMap p r with
         | some c => if rest = [] then (ix1, ix1.get c) else callLoop (s.adds t) ix1 c rest
         | none => if s.adds t then
             (match ix1.items.newChild p r with
              | none => (ix1, .panic)
              | some (its, it) =>
                let ix2 : Index := { ix1 with items := its, childrenMap := Index.setChild ix1.childrenMap p r it.id }
                if rest = [] then (ix2, ix2.get it.id) else callLoop true ix2 it.id rest)
           else (ix1, (ix1.word p).bind fun w => .err (.notFound w r))) := by
      cases ha : s.adds t with
      | true =>
        have hn : ¬(p ≠ 0 ∧ (s.now.items.get p).isNone = true) := fun x => hnp ⟨ha, x⟩
        simp only [callLoop, if_true]
        conv_lhs => unfold Index.addLoop
        rw [if_neg hn]
        unfold Index.addStep
        generalize hx : s.now.getChildrenIDMap p = x at hs ⊢
        obtain ⟨ix1, cm⟩ := x
        simp only at hs ⊢
        subst hs
        cases s.now.getChildrenMap p r with
        | some c => rfl
        | none =>
          simp only
          cases ix1.items.newChild p r with
          | none => rfl
          | some y => rfl
      | false =>
        simp only [callLoop, Bool.false_eq_true, if_false]
        conv_lhs => unfold Index.fetchFromItem
        generalize hx : s.now.getChildrenIDMap p = x at hs ⊢
        obtain ⟨ix1, cm⟩ := x
        simp only at hs ⊢
        subst hs
        cases s.now.getChildrenMap p r with
        | some c => rfl
        | none => rfl
    rw [hcall]
    generalize hx : (s.now.getChildrenIDMap p).1 = ix1 at ho hsm hlook ⊢
    simp only
    -- what follows once the child is there
    have hres : ∀ (s' : AState) (ix' : Index) (c : ID), s'.Idle → s'.now = ix' →
        s'.pc t = (if rest = [] then .done (ix'.get c) else .check c rest) → s'.adds = s.adds →
        Solo t (9 * rest.length + 1) s' (if rest = [] then (ix', ix'.get c) else callLoop (s.adds t) ix' c rest).1
          (.done (if rest = [] then (ix', ix'.get c) else callLoop (s.adds t) ix' c rest).2) := by
      intro s' ix' c hi' hn' hp' ha'
      by_cases e : rest = []
      · rw [if_pos e] at hp' ⊢
        refine ⟨s', ⟨0, Nat.zero_le _, rfl⟩, hi', hn', ?_, rfl⟩
        funext j
        unfold upd
        split
        · rename_i hj; subst hj; exact hp'
        · rfl
      · rw [if_neg e] at hp' ⊢
        have := ih s' c hi' hp'
        rw [ha', hn'] at this
        exact this
    -- the map is read, then the letter
    have hprobe : ∀ s' : AState, s'.Idle → s'.now = ix1 → s'.pc t = .look p (r :: rest) → s'.adds = s.adds →
        Solo t 2 s' ix1 (match s.now.getChildrenMap p r with
          | some c => if rest = [] then .done (ix1.get c) else .check c rest
          | none => if s.adds t then .make p r rest else .done ((ix1.word p).bind fun w => .err (.notFound w r))) := by
      intro s' hi' hn' hp' ha'
      have hs' : (s'.kids.ref p).isSome = true := by
        rw [← hn'] at hsm
        simpa [now, KidMaps.view] using hsm
      obtain ⟨m, hm⟩ := Option.isSome_iff_exists.1 hs'
      have h2 := hi'.step hp'
      simp only [hm] at h2
      refine Solo.head (m := 1) h2 ?_
      have hi2 : (s'.goto t (.probe p r rest m)).Idle := ⟨hi'.writing, hi'.crashed, hi'.ok⟩
      have h3 := hi2.step (t := t) (pc := .probe p r rest m) (upd_same _ _ _)
      have hmr : (s'.goto t (.probe p r rest m)).kids.maps m r = s.now.getChildrenMap p r := by
        have e : s'.now.getChildrenMap p r = s'.kids.maps m r := now_of_ref hm r
        rw [hn', ho.children] at e
        exact e.symm
      simp only [hmr] at h3
      subst hn'
      cases hc : s.now.getChildrenMap p r with
      | some c =>
        rw [hc] at h3
        simp only [AInv.next_eq] at h3
        exact Solo.goto hi2 h3
      | none =>
        rw [hc] at h3
        simp only [missing] at h3
        have ha2 : (s'.goto t (.probe p r rest m)).adds t = s.adds t := congrFun ha' t
        rw [ha2] at h3
        simp only
        cases ha : s.adds t with
        | true => rw [ha, if_pos rfl] at h3; exact Solo.goto hi2 h3
        | false => rw [ha, if_neg (by decide)] at h3; exact Solo.goto hi2 h3
    have hat := hlook.trans hprobe
    cases hc : s.now.getChildrenMap p r with
    | some c =>
      simp only [hc] at hat ⊢
      exact (hat.trans fun s' hi' hn' hp' ha' => hres s' ix1 c hi' hn' hp' ha').mono (by simp only [List.length_cons]; omega)
    | none =>
      simp only [hc] at hat ⊢
      cases ha : s.adds t with
      | false =>
        rw [ha, if_neg (by decide)] at hat
        rw [if_neg (by decide)]
        exact hat.mono (by simp only [List.length_cons]; omega)
      | true =>
        rw [ha, if_pos rfl] at hat
        rw [if_pos rfl]
        cases hn : ix1.items.newChild p r with
        | none =>
          simp only
          refine (hat.trans (m := 1) fun s' hi' hn' hp' ha' => ?_).mono (by simp only [List.length_cons]; omega)
          have h4 := hi'.step hp'
          have e : s'.ix.items.newChild p r = none := by
            have : s'.now.items.newChild p r = none := by rw [hn']; exact hn
            exact this
          simp only [e] at h4
          rw [← hn']
          exact Solo.goto hi' h4
        | some y =>
          obtain ⟨its, it⟩ := y
          simp only
          refine (hat.trans (m := 4 + (9 * rest.length + 1)) fun s' hi' hn' hp' ha' => ?_).mono
            (by simp only [List.length_cons]; omega)
          have e : s'.ix.items.newChild p r = some (its, it) := by
            have : s'.now.items.newChild p r = some (its, it) := by rw [hn']; exact hn
            exact this
          have h4 := hi'.step hp'
          simp only [e] at h4
          have hs' : (s'.kids.ref p).isSome = true := by
            rw [← hn'] at hsm
            simpa [now, KidMaps.view] using hsm
          obtain ⟨m, hm⟩ := Option.isSome_iff_exists.1 hs'
          have hmake : Solo t 4 s' { ix1 with items := its, childrenMap := Index.setChild ix1.childrenMap p r it.id }
              (if rest = [] then .done ((show Index from { ix1 with items := its, childrenMap := Index.setChild ix1.childrenMap p r it.id }).get it.id)
                else .check it.id rest) := by
            let s2 : AState := { s' with ix := { s'.ix with items := its } }.goto t (.link p r rest it.id)
            have hi2 : s2.Idle := ⟨hi'.writing, hi'.crashed, hi'.ok⟩
            have h5 := hi2.step (t := t) (pc := .link p r rest it.id) (upd_same _ _ _)
            have hm2 : s2.kids.ref p = some m := hm
            simp only [hm2] at h5
            have hi3 : (s2.goto t (.store p r rest it.id m)).Idle := ⟨hi2.writing, hi2.crashed, hi2.ok⟩
            obtain ⟨s3, r3, i3, n3, p3, a3⟩ := Solo.head h5 (Solo.store hi3 (t := t) (upd_same _ _ _) hm2)
            refine ⟨s3, (Reach.one h4).trans r3, i3, ?_, ?_, a3⟩
            · rw [n3, ← hn']; rfl
            · rw [p3]
              show upd (upd s'.pc t _) t _ = _
              rw [upd_upd]; rfl
          refine hmake.trans fun s4 hi4 hn4 hp4 ha4 => ?_
          have := hres s4 _ it.id hi4 hn4 hp4 (ha4.trans ha')
          rw [ha] at this
          exact this

theorem step_done (t : Nat) (o : Out ID) (h : s.pc t = .done o) : s.step t = s := by
  unfold step
  split
  · rfl
  · rw [h]

theorem run_done (t k : Nat) (o : Out ID) (h : s.pc t = .done o) : s.run (List.replicate k t) = s := by
  induction k with
  | zero => rfl
  | succ k ih =>
    rw [List.replicate_succ]
    show (s.step t).run _ = s
    rw [step_done t o h]; exact ih

/-- Enough steps of one thread, nobody else writing: the sequential call. -/
theorem alone (t : Nat) (rs : List Rune) (hi : s.Idle) (hp : s.pc t = .check 0 rs) (k : Nat) (hk : 9 * rs.length + 1 ≤ k) :
    let s' := s.run (List.replicate k t)
    s'.Idle ∧ s'.now = (callLoop (s.adds t) s.now 0 rs).1 ∧
      s'.pc = upd s.pc t (.done (callLoop (s.adds t) s.now 0 rs).2) ∧ s'.adds = s.adds := by
  obtain ⟨s', ⟨n, hn, he⟩, i, nw, pc, ad⟩ := solo t rs s 0 hi hp
  obtain ⟨m, rfl⟩ := Nat.exists_eq_add_of_le (Nat.le_trans hn hk)
  rw [List.replicate_add, run_append, he, run_done t m _ (by rw [pc, upd_same])]
  exact ⟨i, nw, pc, ad⟩

end AState

end Verif
