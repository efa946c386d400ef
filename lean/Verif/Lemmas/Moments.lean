import Verif.Lemmas.ConcurrentFacts
import Verif.Spec.Moments

/-! # Lookups beside additions, as of a moment -/

namespace Verif

/-- A lookup that stops at node `p` for want of the letter `r`. -/
theorem fetch_stops (v : List Rune) : ∀ (ix : Index) (p0 p : ID) (r : Rune) (rest : List Rune) (w : Str),
    walk ix p0 v = some p → ix.getChildrenMap p r = none → ix.word p = .ok w →
    (ix.fetchFromItem p0 (v ++ r :: rest)).2 = .err (.notFound w r) := by
  induction v with
  | nil =>
    intro ix p0 p r rest w hw hn hok
    obtain rfl := Option.some.inj hw
    have ho := getChildrenIDMap_obs ix p0
    simp only [List.nil_append]
    unfold Index.fetchFromItem
    simp only [getChildrenIDMap_snd, hn, word_obs ho, hok]
    rfl
  | cons a v ih =>
    intro ix p0 p r rest w hw hn hok
    have ho := getChildrenIDMap_obs ix p0
    simp only [walk] at hw
    cases hc : ix.getChildrenMap p0 a with
    | none => rw [hc] at hw; cases hw
    | some c =>
      rw [hc] at hw
      simp only [List.cons_append]
      unfold Index.fetchFromItem
      simp only [getChildrenIDMap_snd, hc]
      rw [if_neg (by simp)]
      refine ih _ c p r rest w ?_ ?_ ?_
      · rw [walk_congr ho.children]; exact hw
      · rw [ho.children]; exact hn
      · rw [word_obs ho]; exact hok

theorem AState.run_snoc (s : AState) (l : List Nat) (u : Nat) : s.run (l ++ [u]) = (s.run l).step u := by
  simp [AState.run]

theorem AState.AsOf.more {s : AState} {l : List Nat} {t : Nat} {w : List Rune} {o : Out ID} (h : s.AsOf l t w o)
    (l' : List Nat) : s.AsOf (l ++ l') t w o := by
  obtain ⟨pre, post, rfl, h⟩ := h
  exact ⟨pre, post ++ l', by simp, h⟩

theorem AState.run_fine {s : AState} {l l' : List Nat} (hc : (s.run (l ++ l')).crashed = false) :
    (s.run l).crashed = false := by
  rw [AState.run_append] at hc
  cases e : (s.run l).crashed with
  | false => rfl
  | true => rw [AInv.crashed_run _ e, e] at hc; cases hc

/-- A thread without a step is where it was. -/
theorem AState.run_still (s : AState) (t : Nat) (l : List Nat) (hc : (s.run l).crashed = false) (h : t ∉ l) :
    (s.run l).pc t = s.pc t := by
  induction l using List.reverseRecOn with
  | nil => rfl
  | append_singleton l u ih =>
    simp only [List.mem_append, List.mem_singleton, not_or] at h
    have hf := AState.run_fine hc
    rw [AState.run_snoc] at hc ⊢
    rw [((s.run l).step_left u hc).2 t h.2]
    exact ih hf h.1

section
variable {h : List Op} {ix : Index} {adds : Nat → Bool} {q : Nat → List Rune} {s : AState} {ns : List (List Rune)}
  {D : ID → Prop} {nul : Bool}

/-- If nothing was forgotten, a call is at a node reached by what it has read. -/
theorem AInv.reached (hi : AInv ix (dictOf h) adds q s ns) (hD : ForgetInv nul s D) (hno : ∀ k, ¬D k) {t : Nat} {p : ID}
    {v : List Rune} (hp : (s.pc t).node = some p) (hv : ns[p.toNat]? = some v) : walk s.now 0 v = some p :=
  hD.found hi.ok hi.spells _ p v rfl (hD.place t p hp) hv fun a _ => hno a

end

section
variable {s : AState} {t : Nat}

theorem step_look {p : ID} {r : Rune} {rest : List Rune} {m : Nat} (hc : (s.step t).crashed = false)
    (hp : s.pc t = .look p (r :: rest)) (hr : s.kids.ref p = some m) : s.step t = s.goto t (.probe p r rest m) := by
  have hf : s.crashed = false := by
    cases e : s.crashed with
    | false => rfl
    | true => rw [AInv.crashed_step t e, e] at hc; cases hc
  have e : s.step t = s.access t none (s.goto t (.probe p r rest m)) := by
    unfold AState.step
    rw [hf, hp]
    simp only [hr]
    rfl
  rw [e] at hc ⊢
  exact AInv.access hc

theorem step_probe {p : ID} {r : Rune} {rest : List Rune} {m : Nat} (hc : (s.step t).crashed = false)
    (hp : s.pc t = .probe p r rest m) : s.step t = match s.kids.maps m r with
      | some c => s.next t c rest
      | none => s.missing t p r rest := by
  have hf : s.crashed = false := by
    cases e : s.crashed with
    | false => rfl
    | true => rw [AInv.crashed_step t e, e] at hc; cases hc
  have e : s.step t = s.access t (some m) (match s.kids.maps m r with
      | some c => s.next t c rest
      | none => s.missing t p r rest) := by
    unfold AState.step
    rw [hf, hp]
    rfl
  rw [e] at hc ⊢
  exact AInv.access hc

/-- Steps that stay inside a call, or are those of an addition. -/
def APC.Finder : APC → Prop
  | .make _ _ _ | .link _ _ _ _ | .store _ _ _ _ _ | .storing _ _ _ _ _ => False
  | _ => True

theorem APC.Good.finder {C : Prop} {ix0 ix : Index} {k : KidMaps} {ns : List (List Rune)} {w : List Rune} {pc : APC}
    (h : pc.Good C ix0 ix k false ns w) : pc.Finder := by
  cases pc <;> first | trivial | exact absurd h.1.add (by simp)

/-- What a step of a lookup can lead to. -/
theorem finder_step {C : Prop} {ix0 : Index} {ns : List (List Rune)} {w : List Rune} (ha : s.adds t = false)
    (hc : (s.step t).crashed = false) (hg : (s.pc t).Good C ix0 s.now s.kids false ns w) (hw : w ≠ []) :
    (∀ p r rest m, (s.step t).pc t = .probe p r rest m → s.kids.ref p = some m ∧ (s.step t).kids = s.kids) ∧
    (∀ o, (s.step t).pc t = .done o → s.pc t = .done o ∨
      ∃ p r rest m, s.pc t = .probe p r rest m ∧ (s.step t).kids = s.kids ∧ (s.step t).ix = s.ix ∧
        ((s.kids.maps m r = none ∧ o = (s.ix.word p).bind fun w => .err (.notFound w r)) ∨
          ∃ c, s.kids.maps m r = some c ∧ rest = [] ∧ o = s.ix.get c)) := by
  have hf : s.crashed = false := by
    cases e : s.crashed with
    | false => rfl
    | true => rw [AInv.crashed_step t e, e] at hc; cases hc
  have other : ∀ pc', (s.step t).pc t = pc' → (∀ p r rest m, pc' ≠ .probe p r rest m) → (∀ o, pc' ≠ .done o) →
      (∀ p r rest m, (s.step t).pc t = .probe p r rest m → s.kids.ref p = some m ∧ (s.step t).kids = s.kids) ∧
      (∀ o, (s.step t).pc t = .done o → s.pc t = .done o ∨
        ∃ p r rest m, s.pc t = .probe p r rest m ∧ (s.step t).kids = s.kids ∧ (s.step t).ix = s.ix ∧
          ((s.kids.maps m r = none ∧ o = (s.ix.word p).bind fun w => .err (.notFound w r)) ∨
            ∃ c, s.kids.maps m r = some c ∧ rest = [] ∧ o = s.ix.get c)) := by
    intro pc' e h1 h2
    exact ⟨fun p r rest m h => absurd (e.symm.trans h) (h1 p r rest m), fun o h => absurd (e.symm.trans h) (h2 o)⟩
  have acc : ∀ {m : Option Nat} {s' : AState}, s.step t = s.access t m s' → s.step t = s' := by
    intro m s' e
    rw [e] at hc ⊢
    exact AInv.access hc
  cases hp : s.pc t with
  | check p rs =>
    rw [hp] at hg
    cases rs with
    | nil => exact absurd (hg.1 rfl) hw
    | cons r rest =>
      have e : s.step t = s.goto t (if (s.kids.ref p).isSome then .look p (r :: rest) else .insert p (r :: rest)) := by
        refine acc (m := none) ?_
        unfold AState.step
        simp only [hf, hp, ha, Bool.false_eq_true, false_and, if_false]
      rw [← hp]
      refine other (if (s.kids.ref p).isSome then .look p (r :: rest) else .insert p (r :: rest))
        (by rw [e]; exact upd_same _ _ _) ?_ ?_
      · intro p' r' rest' m; split <;> simp
      · intro o; split <;> simp
  | insert p rs =>
    have e : s.step t = { s with writing := (t, none) :: s.writing }.goto t (.inserting p rs) := by
      refine acc (m := none) ?_
      unfold AState.step
      rw [hf, hp]
      rfl
    rw [← hp]
    exact other (.inserting p rs) (by rw [e]; exact upd_same _ _ _) (by simp) (by simp)
  | inserting p rs =>
    rw [← hp]
    exact other (.look p rs) (by rw [ForgetInv.step_inserting hf hp]; exact upd_same _ _ _) (by simp) (by simp)
  | look p rs =>
    rw [hp] at hg
    obtain ⟨hne, hs, _⟩ := hg
    obtain ⟨r, rest, rfl⟩ := List.exists_cons_of_ne_nil hne
    obtain ⟨m, hm⟩ := Option.isSome_iff_exists.1 hs
    rw [step_look hc hp hm]
    have e : (s.goto t (.probe p r rest m)).pc t = .probe p r rest m := upd_same _ _ _
    rw [e]
    refine ⟨fun p' r' rest' m' h => ?_, fun o h => by cases h⟩
    cases h
    exact ⟨hm, rfl⟩
  | probe p r rest m =>
    have e := step_probe hc hp
    cases hm : s.kids.maps m r with
    | none =>
      rw [hm] at e
      simp only [AState.missing, ha] at e
      have e' : s.step t = s.goto t (.done ((s.ix.word p).bind fun w => .err (.notFound w r))) := e
      rw [e']
      have e2 : (s.goto t (.done ((s.ix.word p).bind fun w => .err (.notFound w r)))).pc t = _ := upd_same _ _ _
      rw [e2]
      refine ⟨fun p' r' rest' m' h => by (cases h), fun o h => .inr ⟨p, r, rest, m, rfl, rfl, rfl, .inl ⟨hm, ?_⟩⟩⟩
      cases h; rfl
    | some c =>
      rw [hm] at e
      simp only [AInv.next_eq] at e
      rw [e]
      have e2 : (s.goto t (if rest = [] then APC.done (s.ix.get c) else .check c rest)).pc t = _ := upd_same _ _ _
      rw [e2]
      split
      · rename_i hr
        refine ⟨fun p' r' rest' m' h => by (cases h), fun o h => .inr ⟨p, r, rest, m, rfl, rfl, rfl, .inr ⟨c, hm, hr, ?_⟩⟩⟩
        cases h; rfl
      · exact ⟨fun p' r' rest' m' h => by (cases h), fun o h => by cases h⟩
  | make p r rest => rw [hp] at hg; exact hg.finder.elim
  | link p r rest c => rw [hp] at hg; exact hg.finder.elim
  | store p r rest c m => rw [hp] at hg; exact hg.finder.elim
  | storing p r rest c m => rw [hp] at hg; exact hg.finder.elim
  | done o =>
    have e : s.step t = s := by unfold AState.step; rw [hf, hp]; rfl
    rw [e, hp]
    exact ⟨fun p' r' rest' m' h => by (cases h), fun o' h => .inl h⟩

/-- A map that is no longer in use after a step of another thread was replaced by an empty one. -/
theorem step_ref (hok : s.kids.Ok) {u : Nat} {p : ID} {m : Nat} (hr : s.kids.ref p = some m) :
    (s.step u).kids.ref p = some m ∨ ∀ r, (s.step u).now.getChildrenMap p r = none := by
  by_cases hf : s.crashed = true
  · rw [AInv.crashed_step u hf]; exact .inl hr
  replace hf : s.crashed = false := by simpa using hf
  by_cases h1 : ∃ p' rs, s.pc u = .inserting p' rs
  · obtain ⟨p', rs, hp⟩ := h1
    rw [ForgetInv.step_inserting hf hp]
    by_cases e : p = p'
    · subst e
      right
      intro r
      show (show AState from { s with kids := s.kids.insert p }).now.getChildrenMap p r = none
      simp [AState.now, Index.getChildrenMap, KidMaps.insert_view hok]
    · left
      show (s.kids.insert p').ref p = _
      simp [KidMaps.insert, e, hr]
  · by_cases h2 : ∃ p' r rest c m', s.pc u = .storing p' r rest c m'
    · obtain ⟨p', r, rest, c, m', hp⟩ := h2
      rw [ForgetInv.step_storing hf hp, AInv.next_eq]
      exact .inl hr
    · left
      rw [ForgetInv.step_kids s u (fun p' rs h => h1 ⟨p', rs, h⟩) fun p' r rest c m' h => h2 ⟨p', r, rest, c, m', h⟩]
      exact hr

end

/-- **Lookups answer as of a moment**, if nothing is forgotten. -/
theorem moments {h : List Op} {ix : Index} (r : Run h ix) (adds : Nat → Bool) (q : Nat → List Rune) (sched : List Nat)
    (hz : NoReload h ∨ ∀ t, NoLeadingNul (q t)) (hcap : ix.nodesCount + 1 + sched.length < 4294967296)
    (hc : ((AState.start ix adds q).run sched).crashed = false)
    (hno : ∀ k, ¬(AState.start ix adds q).WasForgotten sched k) (t : Nat) (ht : adds t = false) (hq : q t ≠ []) :
    let s := (AState.start ix adds q).run sched
    (∀ p a rest m v, s.pc t = .probe p a rest m → q t = v ++ a :: rest → s.kids.ref p = some m ∨
      (AState.start ix adds q).AsOf sched t (q t) (.err (.notFound (encodeRunes v) a))) ∧
    ∀ o, s.pc t = .done o → (AState.start ix adds q).AsOf sched t (q t) o := by
  induction sched using List.reverseRecOn with
  | nil => exact ⟨fun _ _ _ _ _ hp => by (cases hp), fun _ hp => by cases hp⟩
  | append_singleton l u ih =>
    have hcap' : ix.nodesCount + 1 + l.length < 4294967296 := by
      simp only [List.length_append, List.length_singleton] at hcap; omega
    have hf := AState.run_fine hc
    have hno' : ∀ k, ¬(AState.start ix adds q).WasForgotten l k := by
      rintro k ⟨pre, v, post, rfl, hk⟩
      exact hno k ⟨pre, v, post ++ [u], by simp, hk⟩
    obtain ⟨i1, i2⟩ := ih hcap' hf hno'
    obtain ⟨ns, hi, hD⟩ := r.concurrent adds q l hz hcap' hf
    obtain ⟨ns', hi', hD'⟩ := r.concurrent adds q (l ++ [u]) hz hcap hc
    rw [AState.run_snoc] at hc hi' hD' ⊢
    have mem : ∀ pc', ((AState.start ix adds q).run l).pc t = pc' → (∀ rs, pc' ≠ .check 0 rs) → t ∈ l := by
      intro pc' e hne
      by_contra hm
      exact hne _ (e.symm.trans (AState.run_still _ t l hf hm))
    generalize hs : (AState.start ix adds q).run l = s at *
    have hg := hi.good t
    have hg' := hi'.good t
    rw [ht] at hg hg'
    by_cases hut : t = u
    · subst hut
      obtain ⟨f1, f2⟩ := finder_step (by rw [hi.adds_eq]; exact ht) hc hg hq
      refine ⟨fun p a rest m v hp hv => .inl ?_, fun o ho => ?_⟩
      · obtain ⟨e1, e2⟩ := f1 p a rest m hp
        rw [e2]; exact e1
      · rcases f2 o ho with e | ⟨p, a, rest, m, hp, hk, hx, hcase⟩
        · exact (i2 o e).more _
        · have htm : t ∈ l := mem _ hp (by simp)
          have hnd : ∀ x, s.pc t ≠ .done x := by intro x; rw [hp]; simp
          rw [hp] at hg
          obtain ⟨_, _, v, hv⟩ := hg
          rcases hcase with ⟨hm, rfl⟩ | ⟨c, hm, rfl, rfl⟩
          · have ho : ((s.ix.word p).bind fun w => Out.err (.notFound w a) : Out ID) = .err (.notFound (encodeRunes v) a) := by
              rw [hi.spells.word_eq hv.node]; rfl
            rw [ho]
            rcases i1 p a rest m v hp hv.word with hr | has
            · refine ⟨l, [t], rfl, htm, by rw [hs]; exact hnd, ?_⟩
              rw [hs, hv.word]
              refine fetch_stops v s.now 0 p a rest _ (hi.reached hD hno' (by rw [hp]; rfl) hv.node) ?_
                (hi.spells.word_eq (ix := s.now) hv.node)
              rw [AState.now_of_ref hr]; exact hm
            · exact has.more _
          · refine ⟨l, [t], rfl, htm, by rw [hs]; exact hnd, ?_⟩
            rw [hs]
            have hnow : (s.step t).now = s.now := by unfold AState.now; rw [hk, hx]
            rw [ho] at hg'
            rcases hg' with ⟨e, _⟩ | ⟨id, e1, e2, e3, _⟩ | ⟨_, _, _, _, _, e, _⟩
            · exact absurd e hq
            · have hw := hi'.reached hD' hno (t := t) (p := id) (by rw [ho, e1]; rfl) e3
              rw [hnow] at hw
              rw [e1]
              refine (fetch_walk s.now 0 id (q t) e2).2 ⟨hw, ?_⟩
              have hlt := ItemsSpell.lt e3
              rw [← hi'.spells.next, hx] at hlt
              exact hlt
            · exfalso
              unfold Index.get at e
              split at e
              · cases e
              · cases e
    · have hpc : (s.step u).pc t = s.pc t := (s.step_left u hc).2 t hut
      simp only [hpc]
      refine ⟨fun p a rest m v hp hv => ?_, fun o ho => (i2 o ho).more _⟩
      rcases i1 p a rest m v hp hv with hr | has
      · rcases step_ref hi.ok (u := u) hr with hr' | hnone
        · exact .inl hr'
        · right
          refine ⟨l ++ [u], [], by simp, by simp [mem _ hp (by simp)], ?_, ?_⟩
          · intro x
            rw [AState.run_snoc, hs, hpc, hp]; simp
          · rw [AState.run_snoc, hs, hv]
            rw [hpc, hp] at hg'
            obtain ⟨_, _, v', hv'⟩ := hg'
            have ev : v' = v := by
              have := hv'.word.symm.trans hv
              exact (List.append_inj' this rfl).1
            subst ev
            exact fetch_stops v' (s.step u).now 0 p a rest _ (hi'.reached hD' hno (by rw [hpc, hp]; rfl) hv'.node)
              (hnone a) (hi'.spells.word_eq (ix := (s.step u).now) hv'.node)
      · exact .inr (has.more _)

/-- Words that may be added and looked up at the same time: no step forgets anything. -/
theorem AInv.keeps {h : List Op} {ix : Index} {adds : Nat → Bool} {q : Nat → List Rune} {s : AState}
    {ns : List (List Rune)} (hi : AInv ix (dictOf h) adds q s ns) (C : Compat ix adds q) (t : Nat) (k : ID) :
    ¬s.Forgets t k := by
  by_cases hf : s.crashed = true
  · rintro (⟨h1, h2⟩ | ⟨p, r, rest, m, hp, hr⟩)
    · rw [AInv.crashed_step t hf] at h2; exact h2 h1
    · have hg := hi.good t
      rw [hp] at hg
      exact hr (hg.2.1.cur ⟨C, hg.1.add⟩)
  replace hf : s.crashed = false := by simpa using hf
  rintro (⟨h1, h2⟩ | ⟨p, r, rest, m, hp, hr⟩)
  · refine h2 ?_
    by_cases e1 : ∃ p rs, s.pc t = .inserting p rs
    · obtain ⟨p, rs, hp⟩ := e1
      have hg := hi.good t
      rw [hp] at hg
      obtain ⟨a, b, hab⟩ := h1
      refine ⟨a, b, ?_⟩
      rw [ForgetInv.step_inserting hf hp]
      have hne : a ≠ p := by
        rintro rfl
        rw [hg.1.free C b] at hab; cases hab
      show (show AState from { s with kids := s.kids.insert p }).now.getChildrenMap a b = some k
      simp only [AState.now, Index.getChildrenMap, KidMaps.insert_view hi.ok, if_neg hne]
      exact hab
    · by_cases e2 : ∃ p r rest c m, s.pc t = .storing p r rest c m
      · obtain ⟨p, r, rest, c, m, hp⟩ := e2
        have hg := hi.good t
        rw [hp] at hg
        obtain ⟨hm, hh, _⟩ := hg
        obtain ⟨a, b, hab⟩ := h1
        refine ⟨a, b, ?_⟩
        rw [ForgetInv.step_storing hf hp, AInv.next_eq]
        show (show AState from { s with kids := s.kids.store m r c }).now.getChildrenMap a b = some k
        obtain ⟨m', hm', hk⟩ := AState.now_some hab
        rw [AState.now_of_ref (s := (show AState from { s with kids := s.kids.store m r c })) (m := m') hm' b]
        show (s.kids.store m r c).maps m' b = some k
        rw [KidMaps.store_maps, if_neg]
        · exact hk
        · rintro ⟨rfl, rfl⟩
          have := hm.free C
          rw [AState.now_of_ref (hh.cur ⟨C, hm.add⟩), hk] at this
          cases this
      · refine AState.Shows.of (ForgetInv.step_kids s t ?_ ?_) h1
        · exact fun p rs e => e1 ⟨p, rs, e⟩
        · exact fun p r rest c m e => e2 ⟨p, r, rest, c, m, e⟩
  · have hg := hi.good t
    rw [hp] at hg
    exact hr (hg.2.1.cur ⟨C, hg.1.add⟩)

theorem Run.keeps {h : List Op} {ix : Index} (r : Run h ix) (adds : Nat → Bool) (q : Nat → List Rune) (sched : List Nat)
    (hz : NoReload h ∨ ∀ t, NoLeadingNul (q t)) (hcap : ix.nodesCount + 1 + sched.length < 4294967296)
    (hc : ((AState.start ix adds q).run sched).crashed = false) (C : Compat ix adds q) (k : ID) :
    ¬(AState.start ix adds q).WasForgotten sched k := by
  rintro ⟨pre, t, post, rfl, hk⟩
  obtain ⟨ns, hi, _⟩ := r.concurrent adds q pre hz
    (by simp only [List.length_append, List.length_cons] at hcap; omega) (AState.run_fine hc)
  exact hi.keeps C t k hk

end Verif
