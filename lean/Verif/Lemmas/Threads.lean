import Verif.Spec.Threads
import Mathlib.Data.List.Induction

/-! # Interleavings without a data race -/

namespace Verif

variable {Loc : Type} {Val : Loc → Type} {ρ σ : Type} [DecidableEq Loc]

theorem Cells.set_same (m : Cells Loc Val) (l : Loc) (v : Val l) : m.set l v l = v := by
  unfold Cells.set; rw [dif_pos rfl]

theorem Cells.set_other (m : Cells Loc Val) {l a : Loc} (v : Val l) (h : l ≠ a) : m.set l v a = m a := by
  unfold Cells.set; rw [dif_neg h]

namespace Prog

theorem alone_bind (p : Prog Loc Val ρ) (f : ρ → Prog Loc Val σ) : ∀ m : Cells Loc Val,
    (p.bind f).alone m = (f (p.alone m).2).alone (p.alone m).1 := by
  induction p with
  | done r => intro m; rfl
  | read l k ih => intro m; exact ih _ m
  | write l v k ih => intro m; exact ih _

theorem accesses_bind (p : Prog Loc Val ρ) (f : ρ → Prog Loc Val σ) : ∀ m : Cells Loc Val,
    (p.bind f).accesses m = p.accesses m ++ (f (p.alone m).2).accesses (p.alone m).1 := by
  induction p with
  | done r => intro m; rfl
  | read l k ih => intro m; show _ :: _ = _ :: _; rw [ih]; rfl
  | write l v k ih => intro m; show _ :: _ = _ :: _; rw [ih]; rfl

/-- What a program does not write stays. -/
theorem alone_other (p : Prog Loc Val ρ) : ∀ (m : Cells Loc Val) (l : Loc), (l, true) ∉ p.accesses m → (p.alone m).1 l = m l := by
  induction p with
  | done r => intro m l _; rfl
  | read a k ih => intro m l h; exact ih _ m l fun h' => h (List.mem_cons_of_mem _ h')
  | write a v k ih =>
    intro m l h
    refine (ih (m.set a v) l fun h' => h (List.mem_cons_of_mem _ h')).trans (Cells.set_other m v ?_)
    rintro rfl
    exact h List.mem_cons_self

/-- A program depends on the cells it uses only. -/
theorem alone_congr (p : Prog Loc Val ρ) : ∀ (m m' : Cells Loc Val), (∀ l w, (l, w) ∈ p.accesses m → m' l = m l) →
    p.accesses m' = p.accesses m ∧ (p.alone m').2 = (p.alone m).2 ∧
      ∀ l, (l, true) ∈ p.accesses m → (p.alone m').1 l = (p.alone m).1 l := by
  induction p with
  | done r => intro m m' _; exact ⟨rfl, rfl, fun l h => (by cases h)⟩
  | read a k ih =>
    intro m m' h
    have e : m' a = m a := h a false List.mem_cons_self
    obtain ⟨h1, h2, h3⟩ := ih (m a) m m' fun l w hw => h l w (List.mem_cons_of_mem _ hw)
    refine ⟨?_, ?_, ?_⟩
    · show _ :: _ = _ :: _; rw [e, h1]
    · show ((k (m' a)).alone m').2 = _; rw [e]; exact h2
    · intro l hl
      show ((k (m' a)).alone m').1 l = _
      rw [e]
      rcases List.mem_cons.1 hl with hl | hl
      · cases hl
      · exact h3 l hl
  | write a v k ih =>
    intro m m' h
    have hs : ∀ l w, (l, w) ∈ k.accesses (m.set a v) → m'.set a v l = m.set a v l := by
      intro l w hw
      by_cases hal : a = l
      · subst hal; rw [Cells.set_same, Cells.set_same]
      · rw [Cells.set_other _ _ hal, Cells.set_other _ _ hal]
        exact h l w (List.mem_cons_of_mem _ hw)
    obtain ⟨h1, h2, h3⟩ := ih (m.set a v) (m'.set a v) hs
    refine ⟨?_, h2, ?_⟩
    · show _ :: _ = _ :: _; rw [h1]
    · intro l hl
      by_cases hw : (l, true) ∈ k.accesses (m.set a v)
      · exact h3 l hw
      · show (k.alone (m'.set a v)).1 l = (k.alone (m.set a v)).1 l
        rw [alone_other _ _ _ hw, alone_other _ _ _ (by rw [h1]; exact hw)]
        rcases List.mem_cons.1 hl with hl | hl
        · cases hl
          rw [Cells.set_same, Cells.set_same]
        · exact absurd hl hw

end Prog

/-- The accesses of one goroutine. -/
def own (t : Nat) (log : List (Nat × Loc × Bool)) : List (Loc × Bool) :=
  log.filterMap fun e => if e.1 = t then some e.2 else none

omit [DecidableEq Loc] in
theorem mem_own {t : Nat} {log : List (Nat × Loc × Bool)} {e : Loc × Bool} : e ∈ own t log ↔ (t, e) ∈ log := by
  unfold own
  rw [List.mem_filterMap]
  constructor
  · rintro ⟨⟨u, x⟩, hm, he⟩
    simp only at he
    split at he
    · rename_i hu
      subst hu
      obtain rfl := Option.some.inj he
      exact hm
    · cases he
  · intro h
    exact ⟨(t, e), h, by rw [if_pos rfl]⟩

omit [DecidableEq Loc] in
theorem own_append (t u : Nat) (log : List (Nat × Loc × Bool)) (e : Loc × Bool) :
    own t (log ++ [(u, e)]) = if u = t then own t log ++ [e] else own t log := by
  unfold own
  rw [List.filterMap_append]
  by_cases h : u = t
  · rw [if_pos h]; simp [h]
  · rw [if_neg h]; simp [h]

/-- In an execution so far without a race, every goroutine has done the beginning of what it does alone, in a memory of its
own that agrees with the shared one where no other goroutine wrote. -/
structure Apart (m : Cells Loc Val) (q : Nat → Prog Loc Val ρ) (s : Threads Loc Val ρ) (view : Nat → Cells Loc Val) : Prop where
  acc : ∀ t, (q t).accesses m = own t s.log ++ (s.prog t).accesses (view t)
  end' : ∀ t, (q t).alone m = (s.prog t).alone (view t)
  mem : ∀ t l, (∀ u, u ≠ t → (u, l, true) ∉ s.log) → s.mem l = view t l
  old : ∀ t l, (t, l, true) ∉ s.log → view t l = m l

namespace Apart

variable {m : Cells Loc Val} {q : Nat → Prog Loc Val ρ} {s : Threads Loc Val ρ} {view : Nat → Cells Loc Val}

theorem start : Apart m q (.start m q) (fun _ => m) where
  acc _ := rfl
  end' _ := rfl
  mem _ _ _ := rfl
  old _ _ _ := rfl

theorem step (a : Apart m q s view) (t : Nat) (h : ¬ DataRace (s.step t).log) : ∃ view', Apart m q (s.step t) view' := by
  unfold Threads.step at h ⊢
  split
  · exact ⟨view, a⟩
  · rename_i l k hp
    rw [hp] at h
    simp only at h
    have hl : s.mem l = view t l := a.mem t l fun u hu hm => h ⟨u, t, l, false, hu,
      List.mem_append_left _ hm, List.mem_append_right _ (List.mem_singleton.2 rfl)⟩
    refine ⟨view, ?_, ?_, ?_, ?_⟩
    · intro u
      simp only
      rw [own_append]
      by_cases hu : t = u
      · subst hu
        rw [if_pos rfl, a.acc t, hp, hl]
        unfold upd
        rw [if_pos rfl]
        show _ ++ _ :: _ = _
        rw [List.append_assoc]
        rfl
      · rw [if_neg hu, a.acc u]
        unfold upd
        rw [if_neg fun e => hu e.symm]
    · intro u
      simp only
      by_cases hu : t = u
      · subst hu
        rw [a.end' t, hp, hl]
        unfold upd
        rw [if_pos rfl]
        rfl
      · rw [a.end' u]
        unfold upd
        rw [if_neg fun e => hu e.symm]
    · intro u l' hn
      exact a.mem u l' fun v hv hm => hn v hv (List.mem_append_left _ hm)
    · intro u l' hn
      exact a.old u l' fun hm => hn (List.mem_append_left _ hm)
  · rename_i l v k hp
    rw [hp] at h
    simp only at h
    refine ⟨upd view t ((view t).set l v), ?_, ?_, ?_, ?_⟩
    · intro u
      simp only
      rw [own_append]
      by_cases hu : t = u
      · subst hu
        rw [if_pos rfl, a.acc t, hp]
        unfold upd
        rw [if_pos rfl, if_pos rfl]
        show _ ++ _ :: _ = _
        rw [List.append_assoc]
        rfl
      · rw [if_neg hu, a.acc u]
        unfold upd
        rw [if_neg fun e => hu e.symm, if_neg fun e => hu e.symm]
    · intro u
      simp only
      by_cases hu : t = u
      · subst hu
        rw [a.end' t, hp]
        unfold upd
        rw [if_pos rfl, if_pos rfl]
        rfl
      · rw [a.end' u]
        unfold upd
        rw [if_neg fun e => hu e.symm, if_neg fun e => hu e.symm]
    · intro u l' hn
      have hold := a.mem u l' fun v hv hm => hn v hv (List.mem_append_left _ hm)
      simp only
      by_cases hu : t = u
      · subst hu
        unfold upd
        rw [if_pos rfl]
        by_cases hl : l = l'
        · subst hl
          rw [Cells.set_same, Cells.set_same]
        · rw [Cells.set_other _ _ hl, Cells.set_other _ _ hl, hold]
      · have hl : l ≠ l' := by
          rintro rfl
          exact hn t hu (List.mem_append_right _ (List.mem_singleton.2 rfl))
        unfold upd
        rw [if_neg fun e => hu e.symm, Cells.set_other _ _ hl, hold]
    · intro u l' hn
      have hold := a.old u l' fun hm => hn (List.mem_append_left _ hm)
      by_cases hu : t = u
      · subst hu
        have hl : l ≠ l' := by
          rintro rfl
          exact hn (List.mem_append_right _ (List.mem_singleton.2 rfl))
        unfold upd
        rw [if_pos rfl, Cells.set_other _ _ hl, hold]
      · unfold upd
        rw [if_neg fun e => hu e.symm, hold]

/-- Without a clash the next access makes no race. -/
theorem noRace (a : Apart m q s view) (hc : ∀ t u, t ≠ u → ¬ Clash ((q t).accesses m) ((q u).accesses m))
    (t : Nat) : ¬ DataRace (s.step t).log := by
  have sub : ∀ u l w, (u, l, w) ∈ (s.step t).log → (l, w) ∈ (q u).accesses m := by
    intro u l w hm
    unfold Threads.step at hm
    have old : (u, l, w) ∈ s.log → (l, w) ∈ (q u).accesses m := fun h => by
      rw [a.acc u]; exact List.mem_append_left _ (mem_own.2 h)
    split at hm
    · exact old hm
    · rename_i l' k hp
      rcases List.mem_append.1 hm with hm | hm
      · exact old hm
      · have := List.mem_singleton.1 hm
        cases this
        rw [a.acc t, hp]
        exact List.mem_append_right _ List.mem_cons_self
    · rename_i l' v k hp
      rcases List.mem_append.1 hm with hm | hm
      · exact old hm
      · have := List.mem_singleton.1 hm
        cases this
        rw [a.acc t, hp]
        exact List.mem_append_right _ List.mem_cons_self
  rintro ⟨u, v, l, w, huv, h1, h2⟩
  exact hc u v huv ⟨l, w, sub _ _ _ h1, sub _ _ _ h2⟩

end Apart

omit [DecidableEq Loc] in
theorem DataRace.mono {a b : List (Nat × Loc × Bool)} (h : DataRace a) (hs : ∀ e ∈ a, e ∈ b) : DataRace b := by
  obtain ⟨t, u, l, w, h1, h2, h3⟩ := h
  exact ⟨t, u, l, w, h1, hs _ h2, hs _ h3⟩

theorem step_log (s : Threads Loc Val ρ) (t : Nat) : ∀ e ∈ s.log, e ∈ (s.step t).log := by
  intro e he
  unfold Threads.step
  split
  · exact he
  · exact List.mem_append_left _ he
  · exact List.mem_append_left _ he

theorem run_log (sched : List Nat) : ∀ (s : Threads Loc Val ρ), ∀ e ∈ s.log, e ∈ (s.run sched).log := by
  induction sched with
  | nil => intro s e he; exact he
  | cons t sched ih => intro s e he; exact ih (s.step t) e (step_log s t e he)

theorem Apart.run {m : Cells Loc Val} {q : Nat → Prog Loc Val ρ} (sched : List Nat) :
    ∀ {s : Threads Loc Val ρ} {view : Nat → Cells Loc Val}, Apart m q s view → ¬ DataRace (s.run sched).log →
      ∃ view', Apart m q (s.run sched) view' := by
  induction sched with
  | nil => intro s view a _; exact ⟨view, a⟩
  | cons t sched ih =>
    intro s view a h
    obtain ⟨view', a'⟩ := a.step t fun hr => h (hr.mono (run_log sched (s.step t)))
    exact ih a' h

theorem Apart.safe {m : Cells Loc Val} {q : Nat → Prog Loc Val ρ}
    (hc : ∀ t u, t ≠ u → ¬ Clash ((q t).accesses m) ((q u).accesses m)) (sched : List Nat) :
    ∀ {s : Threads Loc Val ρ} {view : Nat → Cells Loc Val}, Apart m q s view → ¬ DataRace s.log →
      ¬ DataRace (s.run sched).log := by
  induction sched with
  | nil => intro s view _ h; exact h
  | cons t sched ih =>
    intro s view a _
    obtain ⟨view', a'⟩ := a.step t (a.noRace hc t)
    exact ih a' (a.noRace hc t)

omit [DecidableEq Loc] in
theorem noRace_nil : ¬ DataRace ([] : List (Nat × Loc × Bool)) := by
  rintro ⟨_, _, _, _, _, h, _⟩
  cases h

/-- Programs that do not clash never race. -/
theorem safe_of_noClash {m : Cells Loc Val} {q : Nat → Prog Loc Val ρ}
    (hc : ∀ t u, t ≠ u → ¬ Clash ((q t).accesses m) ((q u).accesses m)) (sched : List Nat) :
    ¬ DataRace ((Threads.start m q).run sched).log := Apart.safe hc sched Apart.start noRace_nil

/-- Whether an execution to the end has a race does not depend on the schedule. -/
theorem race_iff {m : Cells Loc Val} {q : Nat → Prog Loc Val ρ} {sched : List Nat}
    (hd : ((Threads.start m q).run sched).AllDone) :
    DataRace ((Threads.start m q).run sched).log ↔ ∃ t u, t ≠ u ∧ Clash ((q t).accesses m) ((q u).accesses m) := by
  constructor
  · intro h
    by_contra hn
    exact safe_of_noClash (fun t u htu hc => hn ⟨t, u, htu, hc⟩) sched h
  · rintro ⟨t, u, htu, l, w, h1, h2⟩
    by_contra hr
    obtain ⟨view, a⟩ := Apart.start.run sched hr
    have key : ∀ v e, e ∈ (q v).accesses m → (v, e) ∈ ((Threads.start m q).run sched).log := by
      intro v e he
      rw [a.acc v] at he
      obtain ⟨r, hp⟩ := hd v
      rw [hp] at he
      rcases List.mem_append.1 he with he | he
      · exact mem_own.1 he
      · cases he
    exact hr ⟨t, u, l, w, htu, key _ _ h1, key _ _ h2⟩

/-- Without a race every answer is that of the program alone, and every cell holds what the program that writes it leaves
there alone. -/
theorem result_of_noRace {m : Cells Loc Val} {q : Nat → Prog Loc Val ρ} {sched : List Nat}
    (hr : ¬ DataRace ((Threads.start m q).run sched).log) :
    (∀ t r, ((Threads.start m q).run sched).prog t = .done r → r = ((q t).alone m).2) ∧
    (((Threads.start m q).run sched).AllDone → ∀ l,
      (∀ t, (l, true) ∈ (q t).accesses m → ((Threads.start m q).run sched).mem l = ((q t).alone m).1 l) ∧
      ((∀ t, (l, true) ∉ (q t).accesses m) → ((Threads.start m q).run sched).mem l = m l)) := by
  obtain ⟨view, a⟩ := Apart.start.run sched hr
  constructor
  · intro t r h
    rw [a.end' t, h]
    rfl
  · intro hd l
    have inlog : ∀ v e, (v, e) ∈ ((Threads.start m q).run sched).log → e ∈ (q v).accesses m := by
      intro v e he
      rw [a.acc v]
      exact List.mem_append_left _ (mem_own.2 he)
    constructor
    · intro t ht
      have hin : (t, l, true) ∈ ((Threads.start m q).run sched).log := by
        have := ht
        rw [a.acc t] at this
        obtain ⟨r, hp⟩ := hd t
        rw [hp] at this
        rcases List.mem_append.1 this with he | he
        · exact mem_own.1 he
        · cases he
      rw [a.mem t l fun u hu hm => hr ⟨u, t, l, true, hu, hm, hin⟩, a.end' t]
      obtain ⟨r, hp⟩ := hd t
      rw [hp]
      rfl
    · intro hn
      rw [a.mem 0 l fun u _ hm => hn u (inlog u _ hm), a.old 0 l fun hm => hn 0 (inlog 0 _ hm)]

/-- One program after the other. -/
def inTurn (q : Nat → Prog Loc Val ρ) (m : Cells Loc Val) (ts : List Nat) : Cells Loc Val :=
  ts.foldl (fun m t => ((q t).alone m).1) m

/-- Without a clash, running the programs one after the other, in any order, leaves in every cell what the program that
writes it leaves there alone; and each gives the answer it gives alone. -/
theorem inTurn_of_noClash {m : Cells Loc Val} {q : Nat → Prog Loc Val ρ}
    (hc : ∀ t u, t ≠ u → ¬ Clash ((q t).accesses m) ((q u).accesses m)) (ts : List Nat) (hnd : ts.Nodup) :
    (∀ t ∉ ts, ((q t).alone (inTurn q m ts)).2 = ((q t).alone m).2) ∧
    ∀ l, (∀ t ∈ ts, (l, true) ∈ (q t).accesses m → inTurn q m ts l = ((q t).alone m).1 l) ∧
      ((∀ t ∈ ts, (l, true) ∉ (q t).accesses m) → inTurn q m ts l = m l) := by
  induction ts using List.reverseRecOn with
  | nil => exact ⟨fun t _ => rfl, fun l => ⟨fun t h => (by cases h), fun _ => rfl⟩⟩
  | append_singleton ts u ih =>
    rw [List.nodup_append] at hnd
    obtain ⟨ih1, ih2⟩ := ih hnd.1
    have hu : u ∉ ts := fun h => hnd.2.2 u h u (List.mem_singleton.2 rfl) rfl
    have e : inTurn q m (ts ++ [u]) = ((q u).alone (inTurn q m ts)).1 := by
      unfold inTurn; rw [List.foldl_append]; rfl
    have same : ∀ v ∉ ts, ∀ l w, (l, w) ∈ (q v).accesses m → inTurn q m ts l = m l := by
      intro v hv l w hw
      refine (ih2 l).2 fun t ht hl => ?_
      exact hc t v (fun e => hv (e ▸ ht)) ⟨l, w, hl, hw⟩
    obtain ⟨c1, c2, c3⟩ := (q u).alone_congr m (inTurn q m ts) (same u hu)
    have out : ∀ l, (∀ t ∈ ts ++ [u], (l, true) ∈ (q t).accesses m → inTurn q m (ts ++ [u]) l = ((q t).alone m).1 l) ∧
        ((∀ t ∈ ts ++ [u], (l, true) ∉ (q t).accesses m) → inTurn q m (ts ++ [u]) l = m l) := by
      intro l
      rw [e]
      constructor
      · intro t ht hl
        rcases List.mem_append.1 ht with ht | ht
        · have hne : t ≠ u := fun e => hu (e ▸ ht)
          rw [(q u).alone_other _ l (by rw [c1]; exact fun h => hc t u hne ⟨l, true, hl, h⟩)]
          exact (ih2 l).1 t ht hl
        · obtain rfl := List.mem_singleton.1 ht
          exact c3 l hl
      · intro hn
        rw [(q u).alone_other _ l (by rw [c1]; exact hn u (List.mem_append_right _ (List.mem_singleton.2 rfl)))]
        exact (ih2 l).2 fun t ht => hn t (List.mem_append_left _ ht)
    refine ⟨fun t ht => ?_, out⟩
    refine ((q t).alone_congr m _ fun l w hw => ?_).2.1
    refine (out l).2 fun v hv hl => ?_
    exact hc v t (fun e => ht (e ▸ hv)) ⟨l, w, hl, hw⟩

theorem step_other (s : Threads Loc Val ρ) {t u : Nat} (h : u ≠ t) : (s.step t).prog u = s.prog u := by
  unfold Threads.step
  split
  · rfl
  · exact if_neg h
  · exact if_neg h

theorem run_other (sched : List Nat) : ∀ (s : Threads Loc Val ρ) {u : Nat}, u ∉ sched → (s.run sched).prog u = s.prog u := by
  induction sched with
  | nil => intro s u _; rfl
  | cons t sched ih =>
    intro s u h
    rw [List.mem_cons, not_or] at h
    exact (ih (s.step t) h.2).trans (step_other s h.1)

/-- A goroutine left alone comes to its end. -/
theorem run_to_end (t : Nat) (p : Prog Loc Val ρ) : ∀ s : Threads Loc Val ρ, s.prog t = p →
    ∃ n r, (s.run (List.replicate n t)).prog t = .done r := by
  induction p with
  | done r => intro s h; exact ⟨0, r, h⟩
  | read l k ih =>
    intro s h
    obtain ⟨n, r, hn⟩ := ih (s.mem l) (s.step t) (by unfold Threads.step; rw [h]; unfold upd; exact if_pos rfl)
    exact ⟨n + 1, r, hn⟩
  | write l v k ih =>
    intro s h
    obtain ⟨n, r, hn⟩ := ih (s.step t) (by unfold Threads.step; rw [h]; unfold upd; exact if_pos rfl)
    exact ⟨n + 1, r, hn⟩

theorem run_append (s : Threads Loc Val ρ) (a b : List Nat) : s.run (a ++ b) = (s.run a).run b := List.foldl_append

/-- Every beginning can be completed. -/
theorem completes (n : Nat) : ∀ s : Threads Loc Val ρ, (∀ t, n ≤ t → ∃ r, s.prog t = .done r) →
    ∃ more, (s.run more).AllDone := by
  induction n with
  | zero => intro s h; exact ⟨[], fun t => h t (Nat.zero_le _)⟩
  | succ n ih =>
    intro s h
    obtain ⟨k, r, hk⟩ := run_to_end n _ s rfl
    obtain ⟨more, hm⟩ := ih (s.run (List.replicate k n)) fun t ht => by
      by_cases e : t = n
      · subst e; exact ⟨r, hk⟩
      · rw [run_other _ _ fun hmem => e (List.eq_of_mem_replicate hmem)]
        exact h t (by omega)
    exact ⟨List.replicate k n ++ more, by rw [run_append]; exact hm⟩

/-- What has come to its end stays. -/
theorem run_done (sched : List Nat) : ∀ (s : Threads Loc Val ρ) {t : Nat} {r : ρ}, s.prog t = .done r →
    (s.run sched).prog t = .done r := by
  induction sched with
  | nil => intro s t r h; exact h
  | cons u sched ih =>
    intro s t r h
    refine ih (s.step u) ?_
    by_cases e : t = u
    · subst e; unfold Threads.step; rw [h]; exact h
    · rw [step_other s e]; exact h

end Verif
