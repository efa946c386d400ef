import Verif.Spec.TimedImport
import Mathlib.Order.Basic
import Mathlib.Order.Monotone.Defs

/-! # Lemmas about the import with its clock -/

namespace Verif

theorem withoutReports_append (a b : List TimedLine) : withoutReports (a ++ b) = withoutReports a ++ withoutReports b :=
  List.filterMap_append

theorem averages_append (a b : List TimedLine) : averages (a ++ b) = averages a ++ averages b := List.filterMap_append

theorem withoutReports_plain (l : List ParseLine) : withoutReports (l.map .plain) = l := by
  induction l with
  | nil => rfl
  | cons a l ih => exact congrArg (a :: ·) ih

theorem averages_plain (l : List ParseLine) : averages (l.map .plain) = [] := by
  induction l with
  | nil => rfl
  | cons a l ih => exact ih

/-- After `k` reports: the clock was read at least twice, and the next report is due ten seconds after the last reading or
earlier, but not before `k + 1` times ten seconds are over. -/
structure TimeInv (clock : Nat → Nat) (t : TState) (k : Nat) : Prop where
  started : t.started = clock 0
  read : 1 ≤ t.reads
  due : clock 0 + (k * 10000000000 + 10000000000) ≤ t.reportAfter
  soon : t.reportAfter ≤ clock (t.reads - 1) + 10000000000

theorem timeInv_init {clock : Nat → Nat} (hm : Monotone clock) (ix : Index) (max : Int) :
    TimeInv clock (TState.init clock ix max) 0 where
  started := rfl
  read := by show 1 ≤ 2; omega
  due := by
    have : clock 0 ≤ clock 1 := hm (by omega)
    show clock 0 + _ ≤ clock 1 + 1000000000 * 10
    omega
  soon := by show clock 1 + 1000000000 * 10 ≤ clock 1 + _; omega

/-- The number of lemmas in a report is that after the token. -/
theorem lemmaEnds_count {fo : Str → Bool} {s : PState} {x : XTok} (h : s.lemmaEnds x = true) :
    (∃ n, x = .stop n) ∧ (s.onEnd .lem).1.parsedLemmas = (s.token fo x).1.parsedLemmas := by
  cases x with
  | start n as => cases h
  | chars d => cases h
  | other => cases h
  | stop n =>
    refine ⟨⟨n, rfl⟩, ?_⟩
    simp only [PState.lemmaEnds, Bool.and_eq_true, decide_eq_true_eq] at h
    show _ = (s.endElement n).1.parsedLemmas
    unfold PState.endElement
    rw [h.1]
    simp only
    split <;> rfl

theorem due_ten {a A B R k : Nat} (hd : a + (k * 10000000000 + 10000000000) ≤ R) (hr : R < A) (h : A ≤ B) :
    10 * 1000000000 ≤ B - a := by
  have e : (10 * 1000000000 : Nat) = 10000000000 := rfl
  rw [e]
  generalize (10000000000 : Nat) = T at *
  generalize k * T = x at *
  omega

theorem due_next {a A C R k : Nat} (hd : a + (k * 10000000000 + 10000000000) ≤ R) (hr : R < A) (h : A ≤ C) :
    a + ((k + 1) * 10000000000 + 10000000000) ≤ C + 1000000000 * 10 := by
  have e : (1000000000 * 10 : Nat) = 10000000000 := rfl
  rw [e]
  generalize (10000000000 : Nat) = T at *
  rw [Nat.add_mul, Nat.one_mul]
  generalize k * T = x at *
  omega

theorem due_soon (C : Nat) : C + 1000000000 * 10 ≤ C + 10000000000 := by omega

theorem token_timed {fo : Str → Bool} {clock : Nat → Nat} (hm : Monotone clock) {t : TState} {k : Nat} (i : TimeInv clock t k)
    (x : XTok) : ∃ t' lines, t.token fo clock x =
        (t', (t.s.tokenLog x).map .plain ++ lines, (t.s.token fo x).2.map .parser) ∧
      t'.s = (t.s.token fo x).1 ∧
      ((lines = [] ∧ TimeInv clock t' k) ∨
        ∃ v, lines = [.speed v] ∧ ((∃ n, x = .stop n) ∧ t.s.lemmaEnds x = true) ∧ SpeedOf clock v (t.s.token fo x).1.parsedLemmas ∧
          TimeInv clock t' (k + 1)) := by
  unfold TState.token
  by_cases hl : t.s.lemmaEnds x = true
  · simp only
    rw [if_pos hl]
    obtain ⟨hx, hn⟩ := lemmaEnds_count (fo := fo) hl
    rw [hn]
    clear hn
    unfold TState.report
    by_cases hr : t.reportAfter < clock t.reads
    · rw [if_pos hr]
      have h1 : clock t.reads ≤ clock (t.reads + 1) := hm (by omega)
      have h2 : clock t.reads ≤ clock (t.reads + 2) := hm (by omega)
      have hd := i.due
      have h10 : 10 ≤ (clock (t.reads + 1) - t.started) / second := by
        rw [second, Nat.le_div_iff_mul_le (by decide), i.started]
        exact due_ten hd hr h1
      simp only
      rw [if_neg (by omega)]
      refine ⟨_, _, rfl, rfl, .inr ⟨_, rfl, ⟨hx, hl⟩, ⟨t.reads + 1, _, by rw [i.started]; rfl, h10, rfl⟩, i.started, ?_, ?_, ?_⟩⟩
      · show 1 ≤ t.reads + 3; omega
      · exact due_next hd hr h2
      · exact due_soon _
    · rw [if_neg hr]
      refine ⟨_, [], rfl, rfl, .inl ⟨rfl, i.started, ?_, i.due, ?_⟩⟩
      · show 1 ≤ t.reads + 1; omega
      · show t.reportAfter ≤ clock (t.reads + 1 - 1) + _
        have := i.soon
        have : clock (t.reads - 1) ≤ clock t.reads := hm (by omega)
        rw [Nat.add_sub_cancel]
        omega
  · simp only
    rw [if_neg hl]
    exact ⟨{ t with s := (t.s.token fo x).1 }, [], by rw [List.append_nil], rfl, .inl ⟨rfl, i.started, i.read, i.due, i.soon⟩⟩

/-- The import with its clock, beside the import without. -/
structure TimedRun (fo : Str → Bool) (clock : Nat → Nat) (s : PState) (k : Nat) (ts : List XTok)
    (r : TState × List TimedLine × Option TErr) : Prop where
  state : r.1.s = (s.run fo ts).1
  error : r.2.2 = (s.run fo ts).2.map .parser
  log : withoutReports r.2.1 = s.runLog fo ts
  inv : TimeInv clock r.1 (k + (averages r.2.1).length)
  places : ∀ a v b, r.2.1 = a ++ .speed v :: b → ∃ p n q, ts = p ++ .stop n :: q ∧
    ((s.run fo p).2 = none ∧ (s.run fo p).1.lemmaEnds (.stop n) = true) ∧
    withoutReports a = s.runLog fo (p ++ [.stop n]) ∧ SpeedOf clock v (s.run fo (p ++ [.stop n])).1.parsedLemmas

theorem run_timed {fo : Str → Bool} {clock : Nat → Nat} (hm : Monotone clock) : ∀ (ts : List XTok) {t : TState} {k : Nat},
    TimeInv clock t k → TimedRun fo clock t.s k ts (t.run fo clock ts) := by
  intro ts
  induction ts with
  | nil =>
    intro t k i
    refine ⟨rfl, rfl, rfl, i, fun a v b h => ?_⟩
    have : ([] : List TimedLine) = a ++ .speed v :: b := h
    simp at this
  | cons x ts ih =>
    intro t k i
    obtain ⟨t', lines, e, hs, hk⟩ := token_timed (fo := fo) hm i x
    -- a report after this token
    have hhere : ∀ a v b, (t.s.tokenLog x).map TimedLine.plain ++ lines = a ++ .speed v :: b →
        a = (t.s.tokenLog x).map .plain ∧ ((∃ n, x = .stop n) ∧ t.s.lemmaEnds x = true) ∧ SpeedOf clock v (t.s.token fo x).1.parsedLemmas := by
      intro a v b h
      have hno : ∀ u, TimedLine.speed u ∉ (t.s.tokenLog x).map TimedLine.plain := by simp
      rcases hk with ⟨rfl, -⟩ | ⟨u, rfl, hx, hu, -⟩
      · exfalso
        rw [List.append_nil] at h
        exact hno v (by rw [h]; simp)
      · rcases List.append_eq_append_iff.1 h with ⟨c, h1, h2⟩ | ⟨c, h1, h2⟩
        · cases c with
          | nil =>
            simp only [List.append_nil] at h1
            simp only [List.nil_append, List.cons.injEq, TimedLine.speed.injEq] at h2
            obtain ⟨rfl, -⟩ := h2
            exact ⟨h1, hx, hu⟩
          | cons y c =>
            simp at h2
        · cases c with
          | nil =>
            simp only [List.append_nil] at h1
            simp only [List.nil_append, List.cons.injEq, TimedLine.speed.injEq] at h2
            obtain ⟨rfl, -⟩ := h2
            exact ⟨h1.symm, hx, hu⟩
          | cons y c =>
            exfalso
            simp only [List.cons_append, List.cons.injEq] at h2
            exact hno v (by rw [h1, ← h2.1]; simp)
    have hwl : withoutReports lines = [] := by
      rcases hk with ⟨rfl, -⟩ | ⟨u, rfl, -⟩ <;> rfl
    cases ht : t.s.token fo x with
    | mk s1 err =>
      rw [ht] at e hs hhere hk
      have hone : t.s.runLog fo [x] = t.s.tokenLog x ∧ (t.s.run fo [x]).1 = s1 := by
        constructor
        · unfold PState.runLog
          rw [ht]
          cases err <;> simp [PState.runLog]
        · unfold PState.run
          rw [ht]
          cases err <;> rfl
      cases err with
      | some er =>
        have hrun : TState.run fo clock t (x :: ts) =
            (t', (t.s.tokenLog x).map .plain ++ lines, some (.parser er)) := by
          unfold TState.run
          rw [e]
          rfl
        have h1 : t.s.run fo (x :: ts) = (s1, some er) := by
          unfold PState.run
          rw [ht]
        have h2 : t.s.runLog fo (x :: ts) = t.s.tokenLog x := by
          unfold PState.runLog
          rw [ht]
          exact List.append_nil _
        rw [hrun]
        refine ⟨by rw [h1]; exact hs, by rw [h1]; rfl, ?_, ?_, fun a v b h => ?_⟩
        · show withoutReports (_ ++ lines) = _
          rw [withoutReports_append, withoutReports_plain, hwl, List.append_nil, h2]
        · show TimeInv clock t' (k + (averages (_ ++ lines)).length)
          rw [averages_append, averages_plain]
          rcases hk with ⟨rfl, hi⟩ | ⟨u, rfl, -, -, hi⟩ <;> exact hi
        · obtain ⟨rfl, ⟨⟨n, rfl⟩, hend⟩, hv⟩ := hhere a v b h
          exact ⟨[], n, ts, rfl, ⟨rfl, hend⟩, by rw [withoutReports_plain]; exact hone.1.symm,
            by rw [List.nil_append, hone.2]; exact hv⟩
      | none =>
        simp only at hs
        have h1 : t.s.run fo (x :: ts) = s1.run fo ts := by
          conv => lhs; unfold PState.run
          rw [ht]
        have hcons : ∀ p, t.s.run fo (x :: p) = s1.run fo p := by
          intro p
          conv => lhs; unfold PState.run
          rw [ht]
        have h2 : t.s.runLog fo (x :: ts) = t.s.tokenLog x ++ s1.runLog fo ts := by
          conv => lhs; unfold PState.runLog
          rw [ht]
        have hi' : TimeInv clock t' (k + (averages lines).length) := by
          rcases hk with ⟨rfl, hi⟩ | ⟨u, rfl, -, -, hi⟩ <;> exact hi
        have hrec := ih hi'
        cases hrun : TState.run fo clock t' ts with
        | mk t2 rest =>
          obtain ⟨log2, e2⟩ := rest
          have hall : TState.run fo clock t (x :: ts) = (t2, (t.s.tokenLog x).map .plain ++ lines ++ log2, e2) := by
            conv => lhs; unfold TState.run
            rw [e]
            show (match TState.run fo clock t' ts with | (t', log', e) => (t', _ ++ log', e)) = _
            rw [hrun]
          rw [hrun, hs] at hrec
          rw [hall]
          refine ⟨by rw [h1]; exact hrec.state, by rw [h1]; exact hrec.error, ?_, ?_, fun a v b h => ?_⟩
          · show withoutReports (_ ++ lines ++ log2) = _
            rw [withoutReports_append, withoutReports_append, withoutReports_plain, hwl, List.append_nil, h2]
            exact congrArg (_ ++ ·) hrec.log
          · show TimeInv clock t2 (k + (averages (_ ++ lines ++ log2)).length)
            rw [averages_append, averages_append, averages_plain, List.nil_append, List.length_append, ← Nat.add_assoc]
            exact hrec.inv
          · have h' : (t.s.tokenLog x).map TimedLine.plain ++ lines ++ log2 = a ++ .speed v :: b := h
            rcases List.append_eq_append_iff.1 h' with ⟨c, h1, h2⟩ | ⟨c, h1, h2⟩
            · -- in the rest
              obtain ⟨p, n, q, hq, hend, hw, hv⟩ := hrec.places c v b h2
              refine ⟨x :: p, n, q, by rw [hq]; rfl, by rw [hcons]; exact hend, ?_, ?_⟩
              · rw [h1, withoutReports_append, withoutReports_append, withoutReports_plain, hwl, List.append_nil, hw]
                show _ = PState.runLog fo t.s (x :: (p ++ [.stop n]))
                conv => rhs; unfold PState.runLog
                rw [ht]
              · show SpeedOf clock v (PState.run fo t.s (x :: (p ++ [.stop n]))).1.parsedLemmas
                unfold PState.run
                rw [ht]
                exact hv
            · cases c with
              | nil =>
                simp only [List.nil_append, List.append_nil] at h1 h2
                obtain ⟨p, n, q, hq, hend, hw, hv⟩ := hrec.places [] v b (by rw [← h2]; rfl)
                refine ⟨x :: p, n, q, by rw [hq]; rfl, by rw [hcons]; exact hend, ?_, ?_⟩
                · rw [← h1, withoutReports_append, withoutReports_plain, hwl, List.append_nil]
                  show _ = PState.runLog fo t.s (x :: (p ++ [.stop n]))
                  conv => rhs; unfold PState.runLog
                  rw [ht]
                  show _ = _ ++ PState.runLog fo s1 (p ++ [.stop n])
                  rw [← hw]
                  exact (List.append_nil _).symm
                · show SpeedOf clock v (PState.run fo t.s (x :: (p ++ [.stop n]))).1.parsedLemmas
                  unfold PState.run
                  rw [ht]
                  exact hv
              | cons y c =>
                simp only [List.cons_append, List.cons.injEq] at h2
                obtain ⟨rfl, -⟩ := h2
                obtain ⟨rfl, ⟨⟨n, rfl⟩, hend⟩, hv⟩ := hhere a v c h1
                exact ⟨[], n, ts, rfl, ⟨rfl, hend⟩, by rw [withoutReports_plain]; exact hone.1.symm,
                  by rw [List.nil_append, hone.2]; exact hv⟩

end Verif
