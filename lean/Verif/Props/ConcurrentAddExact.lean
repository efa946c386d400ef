import Verif.Props.ConcurrentAdd

/-!
# C73 — exactly which added words are lost

A word added by a call that succeeded is lost exactly if, at some moment, the index forgot the returned node or one of the
nodes above it: another call entered a new child in its place, or put a new map in the place of the map it was in, or the
map it was entered into was no longer in use.
-/

namespace Verif

/-- **C73, exactly**: after any history, let any threads add any words, in any schedule that does not end in the fatal
error. A call that returned a node finds it again under its word if and only if neither that node nor a node above it was
forgotten at some moment of the schedule. -/
theorem C73_exact {h : List Op} {ix : Index} (r : Run h ix) (q : Nat → List Rune) (sched : List Nat)
    (hz : NoReload h ∨ ∀ t, NoLeadingNul (q t)) (hcap : ix.nodesCount + 1 + sched.length < 4294967296)
    (hc : ((AState.init ix q).run sched).crashed = false) (t : Nat) (id : ID)
    (hd : ((AState.init ix q).run sched).pc t = .done (.ok id)) :
    let s := (AState.init ix q).run sched
    (s.now.fetchRunes (q t)).2 = .ok id ↔
      ¬∃ a, Above s.now.items a id ∧ (AState.init ix q).WasForgotten sched a := by
  obtain ⟨ns, hi, hD⟩ := r.concurrent (fun _ => true) q sched hz hcap hc
  exact hi.foundIff hD hd

/-- In the schedule of `not_C73_lost` it is the node 1, made for the "a" of "ab", that is forgotten when node 2 is entered
in its place, and node 3, returned for "ab", is below it. -/
example : let s := (AState.init Index.new abAc).run lostSched;
    s.crashed = false ∧ s.pc 0 = .done (.ok 3) ∧ Above s.now.items 1 3 ∧
      (AState.init Index.new abAc).WasForgotten lostSched 1 := by
  refine ⟨by decide, rfl, .up (it := { parent := 1, id := 3, letter := 98, variants := 0 }) (by decide) (.self 1),
    List.replicate 6 0 ++ List.replicate 4 1 ++ List.replicate 16 0 ++ List.replicate 2 1, 1, List.replicate 13 1,
    by decide, .inl ⟨⟨0, 97, by decide⟩, ?_⟩⟩
  rintro ⟨p, r, hs⟩
  obtain ⟨m, h1, h2⟩ := AState.now_some hs
  have hk : (((AState.init Index.new abAc).run
        (List.replicate 6 0 ++ List.replicate 4 1 ++ List.replicate 16 0 ++ List.replicate 2 1)).step 1).kids =
      (((((KidMaps.ofIndex Index.new).insert 0).store 4294967296 97 1).insert 1).store 4294967297 98 3).store
        4294967296 97 2 := rfl
  rw [hk] at h1 h2
  by_cases e1 : p = 1
  · subst e1
    obtain rfl : 4294967297 = m := Option.some.inj h1
    by_cases e2 : r = 98
    · subst e2; cases h2
    · simp [KidMaps.store, KidMaps.insert, KidMaps.ofIndex, upd, e2] at h2
  · by_cases e0 : p = 0
    · subst e0
      obtain rfl : 4294967296 = m := Option.some.inj h1
      by_cases e2 : r = 97
      · subst e2; cases h2
      · simp [KidMaps.store, KidMaps.insert, KidMaps.ofIndex, upd, e2] at h2
    · simp [KidMaps.store, KidMaps.insert, KidMaps.ofIndex, e0, e1, Index.new] at h1

end Verif
