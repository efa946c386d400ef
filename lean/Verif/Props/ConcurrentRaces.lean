import Verif.Lemmas.Stray
import Verif.Props.ConcurrentMixed

/-!
# C90 — exactly which calls can meet in a map

Thread `t` calls `AddRunes (q t)`, if `adds t`, else `FetchRunes (q t)`. A state is `crashed` if two goroutines touched the
same Go map at the same time, one of them writing.
-/

namespace Verif

/-- **C90, exactly which calls can end in the fatal error**: after any history (in which lookups below a node were made
below the root only), let any threads add or look up any words. Some schedule ends in the fatal error if and only if there
are two threads such that either the first one's call, made alone, gives some node a map of children it did not have and
the second one's word is not empty; or the first one adds a word that is not there and the second one's word passes the
place of its last letter. -/
theorem C90_race_exact {h : List Op} {ix : Index} (r : Run h ix)
    (hh : ∀ id rs, .fetchFromItem id rs ∈ h ∨ .fetchItemFromParent id rs ∈ h → id = 0)
    (adds : Nat → Bool) (q : Nat → List Rune) (hz : NoReload h ∨ ∀ t, NoLeadingNul (q t))
    (hcap : ix.nodesCount + 2 < 4294967296) :
    (∃ sched, ((AState.start ix adds q).run sched).crashed = true) ↔
      ∃ t u, t ≠ u ∧ ((Grows ix (adds t) (q t) ∧ q u ≠ []) ∨ (adds t = true ∧ Crosses ix (q t) (q u))) :=
  races r (r.tidy hh hcap) adds q hz

/-- C90 for calls that cannot meet: if no two threads are as in `C90_race_exact`, then no schedule ends in the fatal
error, every word added is found afterwards under the node returned, and each lookup answers as of some moment during the
call. -/
theorem C90_safe_partial {h : List Op} {ix : Index} (r : Run h ix)
    (hh : ∀ id rs, .fetchFromItem id rs ∈ h ∨ .fetchItemFromParent id rs ∈ h → id = 0)
    (adds : Nat → Bool) (q : Nat → List Rune) (sched : List Nat) (hz : NoReload h ∨ ∀ t, NoLeadingNul (q t))
    (hcap : ix.nodesCount + 2 + sched.length < 4294967296)
    (hno : ∀ t u, t ≠ u → ¬(Grows ix (adds t) (q t) ∧ q u ≠ []) ∧ ¬(adds t = true ∧ Crosses ix (q t) (q u))) :
    let s := (AState.start ix adds q).run sched
    s.crashed = false ∧ (∀ t id, s.pc t = .done (.ok id) → (s.now.fetchRunes (q t)).2 = .ok id) ∧
    ∀ t o, adds t = false → q t ≠ [] → s.pc t = .done o → (AState.start ix adds q).AsOf sched t (q t) o := by
  have T := r.tidy hh (by omega)
  have hc : ((AState.start ix adds q).run sched).crashed = false := by
    cases e : ((AState.start ix adds q).run sched).crashed with
    | false => rfl
    | true =>
      obtain ⟨t, u, htu, h1 | h1⟩ := (C90_race_exact r hh adds q hz (by omega)).1 ⟨sched, e⟩
      · exact absurd h1 (hno t u htu).1
      · exact absurd h1 (hno t u htu).2
  exact ⟨hc, C90_known_partial r adds q sched hz (by omega) (compat_of_safe T hno) hc⟩

/-! ## The hypotheses on concrete cases -/

/-- Thread 0 adds "ac", thread 1 looks up "b", the others an empty word. -/
def acB : Nat → List Rune := fun t => if t = 0 then [97, 99] else if t = 1 then [98] else []

/-- No two of these calls can meet on an index with "ad" and "b". -/
example : ∃ ix, Run [.addRunes [97, 100], .addRunes [98]] ix ∧ ∀ t u, t ≠ u →
    ¬(Grows ix (onlyFirst t) (acB t) ∧ acB u ≠ []) ∧ ¬(onlyFirst t = true ∧ Crosses ix (acB t) (acB u)) := by
  refine ⟨execAll [.addRunes [97, 100], .addRunes [98]], small_runs _ (by decide), fun t u htu => ⟨?_, ?_⟩⟩
  · rintro ⟨⟨p, h0, h1⟩, _⟩
    by_cases t0 : t = 0
    · subst t0
      by_cases hp : p = 1
      · subst hp
        have : ((execAll [.addRunes [97, 100], .addRunes [98]]).childrenMap 1).isSome = true := by decide
        rw [h0] at this; cases this
      · exact h1 (Eq.trans (if_neg hp) h0)
    · by_cases t1 : t = 1
      · subst t1; exact h1 h0
      · refine h1 ?_
        simp only [onlyFirst, acB, t0, t1, decide_false, Bool.false_eq_true, if_false]
        exact h0
  · rintro ⟨ht, _, v, a, b, h1, h2⟩
    have t0 : t = 0 := of_decide_eq_true ht
    subst t0
    have hv : v = [97] := by
      have h1 : [97, 99] = v ++ [a] := h1
      match v with
      | [] => simp at h1
      | [x] => simp at h1; rw [h1.1]
      | x :: y :: v => simp at h1
    subst hv
    have := h2.length_le
    have hu : u ≠ 0 := fun e => htu e.symm
    by_cases u1 : u = 1
    · subst u1; simp [acB] at this
    · simp [acB, hu, u1] at this

/-- An index with "ad" and "b": adding "ac" makes no new map, and no lookup of "b" passes its place; a lookup of "ax"
does. -/
example : ∃ ix, Run [.addRunes [97, 100], .addRunes [98]] ix ∧ ¬Grows ix true [97, 99] ∧ ¬Grows ix false [98] ∧
    ¬Crosses ix [97, 99] [98] ∧ Crosses ix [97, 99] [97, 120] ∧ Grows ix false [98, 99] := by
  refine ⟨execAll [.addRunes [97, 100], .addRunes [98]], small_runs _ (by decide), ?_, ?_, ?_, ?_, ?_⟩
  · rintro ⟨p, h0, h1⟩
    by_cases hp : p = 1
    · subst hp
      have : ((execAll [.addRunes [97, 100], .addRunes [98]]).childrenMap 1).isSome = true := by decide
      rw [h0] at this; cases this
    · exact h1 (Eq.trans (if_neg hp) h0)
  · rintro ⟨p, h0, h1⟩
    exact h1 h0
  · rintro ⟨_, v, a, b, h1, h2⟩
    cases v with
    | nil => simp at h1
    | cons x v => 
      have := h2.length_le
      simp at this
  · refine ⟨?_, [97], 99, 120, rfl, List.prefix_refl _⟩
    have : ((execAll [.addRunes [97, 100], .addRunes [98]]).fetchRunes [97, 99]).2 = .err (.notFound [97] 99) := by decide
    intro id
    rw [this]
    exact fun h => by cases h
  · refine ⟨3, by decide, ?_⟩
    have : (((execAll [.addRunes [97, 100], .addRunes [98]]).fetchRunes [98, 99]).1.childrenMap 3).isSome = true := by decide
    intro h
    simp only [Bool.false_eq_true, if_false] at h
    rw [h] at this; cases this

end Verif
