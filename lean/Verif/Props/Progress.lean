import Verif.Model.Progress
import Mathlib.Order.Basic
import Mathlib.Order.Monotone.Defs

/-!
# C85: progress reports do not disturb an import

The clock is any clock that does not go backwards.
-/

namespace Verif

theorem Progress.run_ok {clock : Nat → Nat} (hm : Monotone clock) (max : Int) : ∀ (n : Nat) (p : Progress),
    p.started = clock 0 → p.started + 10 * 1000000000 ≤ p.reportAfter →
    ∃ rs, p.run clock max n = .ok rs ∧
      (∀ r ∈ rs, 10 ≤ r.seconds ∧ p.reportAfter < r.time ∧ p.lemmas < r.lemmas ∧ r.lemmas ≤ p.lemmas + n ∧
        r.average = r.lemmas / r.seconds ∧
        ∃ k, r.time = clock k ∧ r.seconds = (clock (k + 1) - clock 0) / 1000000000) ∧
      rs.Pairwise fun a b => a.time + 10 * 1000000000 < b.time ∧ a.lemmas < b.lemmas := by
  intro n
  induction n with
  | zero => exact fun p _ _ => ⟨[], rfl, by simp, List.Pairwise.nil⟩
  | succ n ih =>
    intro p hs hr
    unfold Progress.run Progress.lemmaDone
    split
    · exact ⟨[], rfl, by simp, List.Pairwise.nil⟩
    · split
      · rename_i hlt
        have h1 : clock p.reads ≤ clock (p.reads + 1) := hm (by omega)
        have h2 : clock p.reads ≤ clock (p.reads + 2) := hm (by omega)
        have h10 : 10 ≤ (clock (p.reads + 1) - p.started) / second := by
          rw [second, Nat.le_div_iff_mul_le (by decide)]
          omega
        simp only
        rw [if_neg (by omega)]
        obtain ⟨rs, e, hrs, hp⟩ := ih { p with
          reads := p.reads + 3, lemmas := p.lemmas + 1, reportAfter := clock (p.reads + 2) + second * logEach } hs
          (by show p.started + _ ≤ clock (p.reads + 2) + 1000000000 * 10
              omega)
        simp only [Out.bind, e]
        refine ⟨_, rfl, ?_, ?_⟩
        · intro r hr'
          rcases List.mem_append.1 hr' with h | h
          · rw [List.mem_singleton.1 h]
            refine ⟨h10, hlt, by simp, by simp, rfl, p.reads, rfl, ?_⟩
            simp only [hs, second]
          · obtain ⟨a1, a2, a3, a4, a5, a6⟩ := hrs r h
            simp only [second, logEach] at a2 a3 a4
            exact ⟨a1, by omega, by omega, by omega, a5, a6⟩
        · refine List.pairwise_cons.2 ⟨?_, hp⟩
          intro b hb
          obtain ⟨_, a2, a3, _⟩ := hrs b hb
          simp only [second, logEach] at a2 a3
          exact ⟨by simp only; omega, a3⟩
      · obtain ⟨rs, e, hrs, hp⟩ := ih { p with reads := p.reads + 1, lemmas := p.lemmas + 1 } hs hr
        simp only [Out.bind, e]
        refine ⟨_, rfl, ?_, hp⟩
        intro r hr'
        obtain ⟨a1, a2, a3, a4, a5, a6⟩ := hrs r hr'
        simp only at a2 a3 a4
        exact ⟨a1, a2, by omega, by omega, a5, a6⟩

/-- C85. Whatever a clock that does not go backwards says, for any number of lemmas and any limit, the reports do not stop the
import (no division by zero): every report divides the number of lemmas so far by the whole seconds since the start, which are at
least ten, and two reports are more than ten seconds apart. -/
theorem C85 (clock : Nat → Nat) (hm : Monotone clock) (max : Int) (n : Nat) :
    ∃ rs, (Progress.init clock).run clock max n = .ok rs ∧
      (∀ r ∈ rs, 10 ≤ r.seconds ∧ 1 ≤ r.lemmas ∧ r.lemmas ≤ n ∧ r.average = r.lemmas / r.seconds ∧
        ∃ k, r.time = clock k ∧ r.seconds = (clock (k + 1) - clock 0) / 1000000000) ∧
      rs.Pairwise fun a b => a.time + 10 * 1000000000 < b.time ∧ a.lemmas < b.lemmas := by
  obtain ⟨rs, e, hrs, hp⟩ := Progress.run_ok hm max n (Progress.init clock) rfl (by
    show clock 0 + _ ≤ clock 1 + 1000000000 * 10
    have : clock 0 ≤ clock 1 := hm (by omega)
    omega)
  refine ⟨rs, e, fun r hr => ?_, hp⟩
  obtain ⟨a1, _, a3, a4, a5, a6⟩ := hrs r hr
  exact ⟨a1, by omega, by rw [show (Progress.init clock).lemmas = 0 from rfl] at a4; omega, a5, a6⟩

/-- C85, the other direction: a lemma that ends when more than ten seconds have passed since the start or the last report, is
reported. Here for the first report. -/
theorem C85_reports (clock : Nat → Nat) (max : Int) (p : Progress) (hl : ¬ (0 < max ∧ max ≤ ((p.lemmas + 1 : Nat) : Int)))
    (hm : Monotone clock) (hs : p.started + 10 * 1000000000 ≤ p.reportAfter) (ht : p.reportAfter < clock p.reads) :
    ∃ p' r, p.lemmaDone clock max = .ok (some (p', [r])) ∧ r.lemmas = p.lemmas + 1 ∧
      p'.reportAfter = clock (p.reads + 2) + 10 * 1000000000 := by
  have h1 : clock p.reads ≤ clock (p.reads + 1) := hm (by omega)
  have h10 : 10 ≤ (clock (p.reads + 1) - p.started) / second := by
    rw [second, Nat.le_div_iff_mul_le (by decide)]
    omega
  unfold Progress.lemmaDone
  rw [if_neg hl, if_pos ht]
  simp only
  rw [if_neg (by omega)]
  exact ⟨_, _, rfl, rfl, rfl⟩

/-! ## The hypotheses are met -/

/-- A clock that advances by 0.3 seconds at each reading: there are reports. -/
example : Monotone (fun k => 300000000 * k) ∧
    ((Progress.init fun k => 300000000 * k).run (fun k => 300000000 * k) 0 70).bind
      (fun rs => .ok (rs.map fun r => (r.seconds, r.lemmas, r.average))) = .ok [(10, 34, 3), (21, 68, 3)] :=
  ⟨fun a b h => Nat.mul_le_mul_left _ h, by decide⟩

end Verif
