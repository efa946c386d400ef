import Verif.Lemmas.ConcurrentFacts

/-!
# C73 — adding words from several goroutines

Thread `t` calls `AddRunes (q t)`; a schedule is an arbitrary list of thread numbers, each entry one step. A state is
`crashed` if two goroutines touched the same Go map at the same time, one of them writing: Go ends the program then.
`now` is the index as a call running alone would find it.
-/

namespace Verif

/-- Thread 0 adds "ab", thread 1 adds "ac". -/
def abAc : Nat → List Rune := fun t => if t = 0 then [97, 98] else [97, 99]

/-- C73 is false, first reason: two additions to a new index can end the program with Go's fatal error for concurrent
map access. -/
theorem not_C73_crash : ∃ sched, ((AState.init Index.new abAc).run sched).crashed = true :=
  ⟨[0, 1, 0, 1], by decide⟩

/-- The schedule of `not_C73_lost`. -/
def lostSched : List Nat := List.replicate 6 0 ++ List.replicate 4 1 ++ List.replicate 16 0 ++ List.replicate 16 1

/-- C73 is false, second reason, without any two accesses of a map at the same time: both goroutines find no child
"a", each creates one, and the second store replaces the first. Both calls succeed, yet afterwards the word "ab" cannot
be found, and "a" has two nodes: `NodesCount` is 4, where the two words have three beginnings. -/
theorem not_C73_lost : let s := (AState.init Index.new abAc).run lostSched;
    s.crashed = false ∧ s.pc 0 = .done (.ok 3) ∧ s.pc 1 = .done (.ok 4) ∧
    (s.now.fetchRunes [97, 99]).2 = .ok 4 ∧ (∀ id, (s.now.fetchRunes [97, 98]).2 ≠ .ok id) ∧ s.now.nodesCount = 4 := by
  refine ⟨by decide, rfl, rfl, by decide, ?_, by decide⟩
  intro id
  have : (((AState.init Index.new abAc).run lostSched).now.fetchRunes [97, 98]).2 = .err (.notFound [97] 98) := by decide
  rw [this]
  exact fun h => by cases h

/-- The schedule of `not_C73_wiped`: thread 1 has found that "a" has no map of children, then thread 0 runs to its end,
then thread 1 goes on. -/
def wipeSched : List Nat := List.replicate 4 1 ++ List.replicate 20 0 ++ List.replicate 16 1

/-- C73 is false, third reason, again without any two accesses of a map at the same time, and although the common
beginning "a" is in the index already: both goroutines find that "a" has no map of children, the first makes one, enters
"ab" and returns, and then the second puts a new, empty map in its place. Both calls succeed, yet "ab" cannot be found. -/
theorem not_C73_wiped : ∃ ix, Run [.addRunes [97]] ix ∧ let s := (AState.init ix abAc).run wipeSched;
    s.crashed = false ∧ s.pc 0 = .done (.ok 2) ∧ s.pc 1 = .done (.ok 3) ∧
    (s.now.fetchRunes [97, 99]).2 = .ok 3 ∧ ∀ id, (s.now.fetchRunes [97, 98]).2 ≠ .ok id := by
  refine ⟨execAll [.addRunes [97]], small_runs [.addRunes [97]] (by decide), by decide, rfl, rfl, by decide, ?_⟩
  intro id
  have : (((AState.init (execAll [.addRunes [97]]) abAc).run wipeSched).now.fetchRunes [97, 98]).2 =
      .err (.notFound [97] 98) := by decide
  rw [this]
  exact fun h => by cases h

/-- C73, what holds in every schedule that does not end in the fatal error: after any history, let any threads add any
words. Every call that was given enough steps has returned a node (unless its word is empty); every returned node spells
the word of its call; every word that was there before is found under the same node, and the nodes spell what they did;
and nothing is found that was not there and is not a beginning of an added word. Missing: that the added words are
found. -/
theorem C73_partial {h : List Op} {ix : Index} (r : Run h ix) (q : Nat → List Rune) (sched : List Nat)
    (hz : NoReload h ∨ ∀ t, NoLeadingNul (q t)) (hcap : ix.nodesCount + 1 + sched.length < 4294967296)
    (hc : ((AState.init ix q).run sched).crashed = false) :
    let s := (AState.init ix q).run sched
    (∀ t id, s.pc t = .done (.ok id) → s.now.word id = .ok (encodeRunes (q t))) ∧
    (∀ t, q t ≠ [] → 9 * (q t).length + 1 ≤ sched.count t → ∃ id, s.pc t = .done (.ok id)) ∧
    (∀ v id, (ix.fetchRunes v).2 = .ok id → (s.now.fetchRunes v).2 = .ok id ∧ s.now.word id = ix.word id) ∧
    (∀ v id, NoReload h ∨ NoLeadingNul v → (s.now.fetchRunes v).2 = .ok id →
      (∃ id', (ix.fetchRunes v).2 = .ok id') ∨ ∃ t, v <+: q t) := by
  obtain ⟨ns, hi, _⟩ := r.concurrent (fun _ => true) q sched hz hcap hc
  refine ⟨fun t id ht => hi.wordOf ht, fun t hq hk => ?_, fun v id hv => hi.keepsOld r hv, fun v id hzv hv => ?_⟩
  · obtain ⟨o, ho, hok⟩ := AInv.returns hi hc (t := t) rfl hk
    obtain ⟨id, rfl⟩ := hok hq rfl
    exact ⟨id, ho⟩
  · exact (hi.nothingElse r hzv hv).imp_right fun ⟨t, _, ht⟩ => ⟨t, ht⟩

/-- C73 for words that share only known beginnings that already go on: if every common beginning of two of the words is
in the index already, and the index has some word going on from it wherever the two words do (in particular if the index
is not empty and no two of the words start alike), then in every schedule that does not end in the fatal error each
returned node is the one found for its word. -/
theorem C73_known_partial {h : List Op} {ix : Index} (r : Run h ix) (q : Nat → List Rune) (sched : List Nat)
    (hz : NoReload h ∨ ∀ t, NoLeadingNul (q t)) (hcap : ix.nodesCount + 1 + sched.length < 4294967296)
    (hk : Compat ix (fun _ => true) q) (hc : ((AState.init ix q).run sched).crashed = false) :
    let s := (AState.init ix q).run sched
    ∀ t id, s.pc t = .done (.ok id) → (s.now.fetchRunes (q t)).2 = .ok id := by
  obtain ⟨ns, hi, _⟩ := r.concurrent (fun _ => true) q sched hz hcap hc
  exact fun t id ht => hi.findsKnown hk ht

/-- C73 for calls that do not overlap (each thread runs to the end before the next one starts, as under a mutex): no
data race, and the results and the index are those of the sequential calls. -/
theorem C73_serial_partial (ix : Index) (q : Nat → List Rune) (ts : List Nat) (hnd : ts.Nodup) :
    let s := (AState.init ix q).run (ts.flatMap fun t => List.replicate (9 * (q t).length + 1) t)
    s.crashed = false ∧ s.now = addInOrder ix q ts ∧
      ∀ pre t post, ts = pre ++ t :: post → s.pc t = .done ((addInOrder ix q pre).addRunes (q t)).2 := by
  have hi : (AState.init ix q).Idle := ⟨rfl, rfl, KidMaps.ofIndex_ok ix⟩
  have hn : (AState.init ix q).now = ix := AState.start_now ix _ q
  obtain ⟨h1, h2, _, h4⟩ := AState.serial ts hnd (AState.init ix q) hi fun _ _ => rfl
  rw [hn] at h2 h4
  exact ⟨h1, h2, h4⟩

/-! ## The hypotheses on concrete cases -/

/-- Two goroutines, overlapping, no race: `C73_partial` applies, the second call overtakes the first. -/
example : ∃ ix, Run [.addRunes [98]] ix ∧
    let s := (AState.init ix abAc).run (List.replicate 3 0 ++ List.replicate 18 1 ++ List.replicate 18 0);
    s.crashed = false ∧ s.pc 0 = .done (.ok 5) ∧ s.pc 1 = .done (.ok 3) :=
  ⟨_, small_runs [.addRunes [98]] (by decide), by decide, rfl, rfl⟩

/-- With the word "ad" in the index, the same overlapping calls lose nothing: `C73_known_partial` applies. -/
example : ∃ ix, Run [.addRunes [97, 100]] ix ∧
    Compat ix (fun _ => true) (fun t => if t = 0 then [97, 98] else if t = 1 then [97, 99] else []) ∧
    let s := (AState.init ix (fun t => if t = 0 then [97, 98] else if t = 1 then [97, 99] else [])).run
      (List.replicate 5 0 ++ List.replicate 5 1 ++ List.replicate 12 0 ++ List.replicate 12 1);
    s.crashed = false ∧ s.pc 0 = .done (.ok 3) ∧ s.pc 1 = .done (.ok 4) := by
  refine ⟨_, small_runs [.addRunes [97, 100]] (by decide), ⟨?_, ?_⟩, by decide, rfl, rfl⟩
  · intro t u htu _ _ v hv h1 h2
    have hp : ∀ x : Rune, v <+: [97, x] → v = [97] ∨ v = [97, x] := by
      intro x hx
      rcases v with _ | ⟨a, _ | ⟨b, v⟩⟩
      · exact absurd rfl hv
      · simp only [List.cons_prefix_cons] at hx; rw [hx.1]; exact .inl rfl
      · simp only [List.cons_prefix_cons, List.prefix_nil] at hx
        rw [hx.1, hx.2.1, hx.2.2]; exact .inr rfl
    have hn : ¬ v <+: [] := fun h => hv (List.prefix_nil.1 h)
    have main : v <+: [97, 98] → v <+: [97, 99] → ∃ id, ((execAll [.addRunes [97, 100]]).fetchRunes v).2 = .ok id := by
      intro h1 h2
      rcases hp 98 h1 with rfl | rfl
      · exact ⟨1, by decide⟩
      · simp at h2
    by_cases t0 : t = 0
    · subst t0
      have h1 : v <+: [97, 98] := h1
      by_cases u1 : u = 1
      · subst u1; exact main h1 h2
      · simp only [if_neg (Ne.symm htu), if_neg u1] at h2; exact absurd h2 hn
    · by_cases t1 : t = 1
      · subst t1
        by_cases u0 : u = 0
        · subst u0; exact main h2 h1
        · simp only [if_neg u0, if_neg (Ne.symm htu)] at h2; exact absurd h2 hn
      · simp only [if_neg t0, if_neg t1] at h1; exact absurd h1 hn
  · intro t u _ _ v a b h1 _
    have key : ∀ x : Rune, v ++ [a] <+: [97, x] → ∃ r id, ((execAll [.addRunes [97, 100]]).fetchRunes (v ++ [r])).2 = .ok id := by
      intro x hx
      have hl := hx.length_le
      simp only [List.length_append, List.length_cons, List.length_nil] at hl
      rcases v with _ | ⟨c, _ | ⟨d, v⟩⟩
      · exact ⟨97, 1, by decide⟩
      · simp only [List.cons_append, List.cons_prefix_cons] at hx
        rw [hx.1]
        exact ⟨100, 2, by decide⟩
      · simp only [List.length_cons] at hl; omega
    by_cases t0 : t = 0
    · subst t0; exact key 98 h1
    · by_cases t1 : t = 1
      · subst t1; exact key 99 h1
      · simp only [if_neg t0, if_neg t1] at h1
        have := h1.length_le
        simp at this

end Verif
