import Verif.Lemmas.LookupRaces
import Verif.Lemmas.Runs
import Verif.Props.Concurrent

/-! # C39 — exactly which lookups may run side by side -/

namespace Verif

/-- Looking up `rs` on `ix`, alone, writes to the index: the maps are not what they were. -/
def LookupWrites (ix : Index) (rs : List Rune) : Prop := (ix.fetchRunes rs).1.childrenMap ≠ ix.childrenMap

/-- C39, exactly: whatever the index and whatever is looked up by however many goroutines, the program can end in Go's
fatal error exactly if one of the lookups is one that writes and some other goroutine looks up at least one letter. -/
theorem C39_exact (ix : Index) (q : Nat → List Rune) :
    (∃ sched, ((LState.init ix q).run sched).crashed = true) ↔ ∃ t u, u ≠ t ∧ LookupWrites ix (q t) ∧ q u ≠ [] := by
  constructor
  · rintro ⟨sched, hs⟩
    refine Classical.byContradiction fun hno => ?_
    by_cases hall : ∀ t, Quiet ix 0 (q t)
    · rw [(lookups_sequential hall sched).1] at hs; cases hs
    · obtain ⟨t, ht⟩ := Classical.not_forall.1 hall
      have hidle : ∀ u, u ≠ t → q u = [] := fun u hu => Classical.byContradiction fun hne =>
        hno ⟨t, u, hu, fun e => ht ((quiet_iff _ _ _).2 e), hne⟩
      have h0 : Alone t (LState.init ix q) :=
        ⟨rfl, .inl rfl, fun u hu => .inl ⟨0, by show LPC.check 0 (q u) = _; rw [hidle u hu]⟩⟩
      rw [(h0.run sched).fine] at hs; cases hs
  · rintro ⟨t, u, hu, hw, hne⟩
    exact can_crash hu (fun h => hw ((quiet_iff _ _ _).1 h)) hne

/-- C39, the rest: as long as the program has not ended, also lookups that write give the answers of the sequential
lookups and finish, and the index has the same nodes, the same tags and readings and the same children as before. -/
theorem C39_answers_partial (ix : Index) (q : Nat → List Rune) (sched : List Nat)
    (hc : ((LState.init ix q).run sched).crashed = false) :
    let s := (LState.init ix q).run sched
    (∀ t o, s.pc t = .done o → o = (ix.fetchRunes (q t)).2) ∧
    (∀ t, 4 * (q t).length + 1 ≤ sched.count t → s.pc t = .done (ix.fetchRunes (q t)).2) ∧
    s.ix.items = ix.items ∧ s.ix.tags = ix.tags ∧ s.ix.tagSets = ix.tagSets ∧ s.ix.collectionIdx = ix.collectionIdx ∧
    s.ix.getChildrenMap = ix.getChildrenMap ∧ s.ix.wordsCount = ix.wordsCount := by
  obtain ⟨h1, h2⟩ := (Aiming.init ix q).run sched
  refine ⟨fun t o ho => ?_, fun t ht => ?_, h1.same.items, h1.same.tags, h1.same.tagSets, h1.same.collectionIdx,
    h1.same.children, h1.same.wordsCount⟩
  · have := h1.aims t
    rw [ho] at this
    exact this
  · refine LPC.done_of_atMost (h1.aims t) ?_
    have := h2 hc t
    have e : ((LState.init ix q).pc t).atMost = 4 * (q t).length + 1 := rfl
    omega

/-- On an index with the one word "a", looking for "ab" writes, looking for "b" does not. -/
example : ∃ ix, Run [.addRunes [97]] ix ∧ LookupWrites ix [97, 98] ∧ ¬ LookupWrites ix [98] := by
  refine ⟨_, small_runs [.addRunes [97]] (by decide), fun h => ?_, fun h => ?_⟩
  · have := congrArg Option.isSome (congrFun h 1)
    revert this
    decide
  · exact h ((quiet_iff _ _ _).1 ⟨by decide, fun k hk => by
      rw [show (execAll [.addRunes [97]]).getChildrenMap 0 98 = none by decide] at hk; cases hk⟩)

/-- Two lookups that write, one after the other: no crash, and both get their answers. -/
example : ∃ ix, Run [.addRunes [97]] ix ∧
    ((LState.init ix fun _ => [97, 98]).run [0, 0, 0, 0, 0, 0, 0, 0, 0, 1, 1, 1, 1, 1, 1, 1, 1, 1]).crashed = false :=
  ⟨_, small_runs [.addRunes [97]] (by decide), by decide⟩

end Verif
