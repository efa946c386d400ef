import Verif.Lemmas.Moments
import Verif.Props.ConcurrentAdd

/-!
# C90 — looking words up while others are added

Thread `t` calls `AddRunes (q t)`, if `adds t`, else `FetchRunes (q t)`; a schedule is an arbitrary list of thread numbers,
each entry one step. A state is `crashed` if two goroutines touched the same Go map at the same time, one of them writing.
`now` is the index as a call running alone would find it.
-/

namespace Verif

/-- Thread 0 adds "ab", thread 1 looks up "ac". -/
def onlyFirst : Nat → Bool := fun t => t = 0

/-- C90 is false, first reason: one addition and one lookup on a new index can end the program with Go's fatal error for
concurrent map access. -/
theorem not_C90_crash : ∃ sched, ((AState.start Index.new onlyFirst abAc).run sched).crashed = true :=
  ⟨[0, 1, 0, 0, 0, 0, 0, 0, 0, 0, 0, 1, 0, 0, 1], by decide⟩

/-- The schedule of `not_C90_wiped`: the lookup has found that "a" has no map of children, then the addition runs to its
end, then the lookup goes on. -/
def wipedBySearch : List Nat := List.replicate 4 1 ++ List.replicate 20 0 ++ List.replicate 16 1

/-- C90 is false, second reason, without any two accesses of a map at the same time and with a single goroutine that
adds: an index with the word "a"; one goroutine adds "ab", and the call succeeds; another one looks up "ac". Afterwards
"ab" cannot be found: the lookup has put an empty map in the place of the one "ab" was in. -/
theorem not_C90_wiped : ∃ ix, Run [.addRunes [97]] ix ∧ let s := (AState.start ix onlyFirst abAc).run wipedBySearch;
    s.crashed = false ∧ s.pc 0 = .done (.ok 2) ∧ s.pc 1 = .done (.err (.notFound [97] 99)) ∧
    ∀ id, (s.now.fetchRunes [97, 98]).2 ≠ .ok id := by
  refine ⟨execAll [.addRunes [97]], small_runs [.addRunes [97]] (by decide), by decide, rfl, rfl, ?_⟩
  intro id
  have : (((AState.start (execAll [.addRunes [97]]) onlyFirst abAc).run wipedBySearch).now.fetchRunes [97, 98]).2 =
      .err (.notFound [97] 98) := by decide
  rw [this]
  exact fun h => by cases h

/-- C90, what holds in every schedule that does not end in the fatal error: after any history, let any threads add or look
up any words. A node that a lookup returned spells the word, and the word was there or is a beginning of an added one. A
word that was there is found, under its node. A lookup that failed names a letter at which the word was not there before.
Every call that was given enough steps has returned. Every word that was there still is. Missing: that the added words
are found, see `C90_exact`, and the moment as of which a lookup answers, see `C90_moment_partial`. -/
theorem C90_partial {h : List Op} {ix : Index} (r : Run h ix) (adds : Nat → Bool) (q : Nat → List Rune) (sched : List Nat)
    (hz : NoReload h ∨ ∀ t, NoLeadingNul (q t)) (hcap : ix.nodesCount + 1 + sched.length < 4294967296)
    (hc : ((AState.start ix adds q).run sched).crashed = false) :
    let s := (AState.start ix adds q).run sched
    (∀ t id, s.pc t = .done (.ok id) → s.now.word id = .ok (encodeRunes (q t)) ∧
      ((∃ id', (ix.fetchRunes (q t)).2 = .ok id') ∨ ∃ u, adds u = true ∧ q t <+: q u)) ∧
    (∀ t o id, s.pc t = .done o → (ix.fetchRunes (q t)).2 = .ok id → o = .ok id) ∧
    (∀ t, q t ≠ [] → ∀ o, s.pc t = .done o → (∃ id, o = .ok id) ∨ adds t = false ∧
      ∃ v a rest, q t = v ++ a :: rest ∧ o = .err (.notFound (encodeRunes v) a) ∧
        ∀ id, (ix.fetchRunes (v ++ [a])).2 ≠ .ok id) ∧
    (∀ t, 9 * (q t).length + 1 ≤ sched.count t → ∃ o, s.pc t = .done o) ∧
    (∀ v id, (ix.fetchRunes v).2 = .ok id → (s.now.fetchRunes v).2 = .ok id ∧ s.now.word id = ix.word id) ∧
    (∀ v id, NoReload h ∨ NoLeadingNul v → (s.now.fetchRunes v).2 = .ok id →
      (∃ id', (ix.fetchRunes v).2 = .ok id') ∨ ∃ u, adds u = true ∧ v <+: q u) := by
  obtain ⟨ns, hi, _⟩ := r.concurrent adds q sched hz hcap hc
  refine ⟨fun t id ht => ⟨hi.wordOf ht, ?_⟩, fun t o id ht hid => ?_, fun t hq o ht => ?_, fun t hk => ?_,
    fun v id hv => hi.keepsOld r hv, fun v id hzv hv => hi.nothingElse r hzv hv⟩
  · have hg := hi.good t
    rw [ht] at hg
    rcases hg with ⟨_, hg⟩ | ⟨id', h1, h2, h3, _⟩ | ⟨_, _, _, _, _, hg, _⟩
    · cases hg
    · exact hi.fromWhere r h2 (hz.imp_right fun hh => hh t) h3
    · cases hg
  · have hq : q t ≠ [] := by
      intro e
      rw [e] at hid; cases hid
    have hw := ((fetch_walk ix 0 id (q t) hq).1 hid).1
    have hg := hi.good t
    rw [ht] at hg
    rcases hg with ⟨e, _⟩ | ⟨id', h1, _, _, _, h5⟩ | ⟨_, v, a, rest, e, _, hn⟩
    · exact absurd e hq
    · rw [h1, h5 id hw]
    · rw [e, show v ++ a :: rest = (v ++ [a]) ++ rest by simp, walk_append, hn] at hw
      cases hw
  · have hg := hi.good t
    rw [ht] at hg
    rcases hg with ⟨e, _⟩ | ⟨id', h1, _⟩ | ⟨ha, v, a, rest, e, ho, hn⟩
    · exact absurd e hq
    · exact .inl ⟨id', h1⟩
    · refine .inr ⟨ha, v, a, rest, e, ho, fun id hid => ?_⟩
      have := ((fetch_walk ix 0 id (v ++ [a]) (by simp)).1 hid).1
      rw [hn] at this; cases this
  · obtain ⟨o, ho, _⟩ := AInv.returns hi hc (t := t) rfl hk
    exact ⟨o, ho⟩

/-- C90, as of a moment: if in a schedule nothing was forgotten, then each lookup of a word that has returned answered
what a lookup made at one stroke would have answered at some moment during the call. -/
theorem C90_moment_partial {h : List Op} {ix : Index} (r : Run h ix) (adds : Nat → Bool) (q : Nat → List Rune)
    (sched : List Nat) (hz : NoReload h ∨ ∀ t, NoLeadingNul (q t))
    (hcap : ix.nodesCount + 1 + sched.length < 4294967296)
    (hc : ((AState.start ix adds q).run sched).crashed = false)
    (hno : ∀ k, ¬(AState.start ix adds q).WasForgotten sched k) :
    ∀ t o, adds t = false → q t ≠ [] → ((AState.start ix adds q).run sched).pc t = .done o →
      (AState.start ix adds q).AsOf sched t (q t) o :=
  fun t o ha hq ho => (moments r adds q sched hz hcap hc hno t ha hq).2 o ho

/-- C90 for words that go well together (`Compat`): in every schedule that does not end in the fatal error nothing is
forgotten, so that each added word is found under the node returned, and each lookup answers as of some moment during the
call. -/
theorem C90_known_partial {h : List Op} {ix : Index} (r : Run h ix) (adds : Nat → Bool) (q : Nat → List Rune)
    (sched : List Nat) (hz : NoReload h ∨ ∀ t, NoLeadingNul (q t))
    (hcap : ix.nodesCount + 1 + sched.length < 4294967296) (hk : Compat ix adds q)
    (hc : ((AState.start ix adds q).run sched).crashed = false) :
    let s := (AState.start ix adds q).run sched
    (∀ t id, s.pc t = .done (.ok id) → (s.now.fetchRunes (q t)).2 = .ok id) ∧
    ∀ t o, adds t = false → q t ≠ [] → s.pc t = .done o → (AState.start ix adds q).AsOf sched t (q t) o := by
  obtain ⟨ns, hi, _⟩ := r.concurrent adds q sched hz hcap hc
  exact ⟨fun t id ht => hi.findsKnown hk ht,
    C90_moment_partial r adds q sched hz hcap hc (r.keeps adds q sched hz hcap hc hk)⟩

/-- C90 for a single goroutine that adds, beside any number of others that look up words that are there: in every
schedule that does not end in the fatal error the word added is found under the node returned, and the lookups give the
nodes they gave before. -/
theorem C90_one_writer_partial {h : List Op} {ix : Index} (r : Run h ix) (w : Nat) (q : Nat → List Rune)
    (sched : List Nat) (hz : NoReload h ∨ ∀ t, NoLeadingNul (q t))
    (hcap : ix.nodesCount + 1 + sched.length < 4294967296)
    (hk : ∀ t, t ≠ w → q t = [] ∨ ∃ id, (ix.fetchRunes (q t)).2 = .ok id)
    (hc : ((AState.start ix (fun t => t = w) q).run sched).crashed = false) :
    let s := (AState.start ix (fun t => t = w) q).run sched
    (∀ id, s.pc w = .done (.ok id) → (s.now.fetchRunes (q w)).2 = .ok id) ∧
    ∀ t, t ≠ w → ∀ o, s.pc t = .done o → o = (ix.fetchRunes (q t)).2 := by
  obtain ⟨ns, hi, _⟩ := r.concurrent (fun t => decide (t = w)) q sched hz hcap hc
  have hC : Compat ix (fun t => decide (t = w)) q := by
    refine ⟨fun t u htu ha hb => ?_, fun t u htu ha v a b h1 h2 => ?_⟩
    · exact absurd ((of_decide_eq_true ha).trans (of_decide_eq_true hb).symm) htu
    · have hu : u ≠ w := fun e => htu ((of_decide_eq_true ha).trans e.symm)
      rcases hk u hu with e | ⟨id, hid⟩
      · rw [e] at h2
        have := h2.length_le
        simp at this
      · have hq : q u ≠ [] := by
          intro e
          rw [e] at hid; cases hid
        have hw := ((fetch_walk ix 0 id (q u) hq).1 hid).1
        obtain ⟨rest, e⟩ := h2
        rw [← e, walk_append] at hw
        cases hvb : walk ix 0 (v ++ [b]) with
        | none => rw [hvb] at hw; cases hw
        | some p =>
          refine ⟨b, p, (fetch_walk ix 0 p (v ++ [b]) (by simp)).2 ⟨hvb, ?_⟩⟩
          rw [walk_append] at hvb
          cases hv : walk ix 0 v with
          | none => rw [hv] at hvb; cases hvb
          | some p' =>
            rw [hv] at hvb
            simp only [Option.bind_some, walk] at hvb
            cases hcm : ix.getChildrenMap p' b with
            | none => rw [hcm] at hvb; cases hvb
            | some c =>
              rw [hcm] at hvb
              obtain rfl := Option.some.inj hvb
              have hn := r.trie.next
              have hl := r.trie.length_pos
              rcases (r.trie.child p' b c).1 hcm with ⟨_, _, hcn⟩ | ⟨_, _, _, e0⟩
              · have := ItemsSpell.lt hcn
                omega
              · rw [e0, hn]; exact hl
  refine ⟨fun id ht => hi.findsKnown hC ht, fun t ht o ho => ?_⟩
  rcases hk t ht with e | ⟨id, hid⟩
  · have hg := hi.good t
    rw [ho] at hg
    rcases hg with ⟨_, e'⟩ | ⟨_, _, e', _⟩ | ⟨_, _, _, _, e', _⟩
    · rw [e', e]; rfl
    · exact absurd e e'
    · rw [e] at e'; simp at e'
  · rw [hid]
    exact (C90_partial r (fun t => decide (t = w)) q sched hz hcap hc).2.1 t o id ho hid

/-- **C90, exactly which words are lost**: after any history, let any threads add or look up any words, in any schedule
that does not end in the fatal error. A node returned, by an addition or by a lookup, is found under the word if and only
if neither that node nor a node above it was forgotten at some moment of the schedule. -/
theorem C90_exact {h : List Op} {ix : Index} (r : Run h ix) (adds : Nat → Bool) (q : Nat → List Rune) (sched : List Nat)
    (hz : NoReload h ∨ ∀ t, NoLeadingNul (q t)) (hcap : ix.nodesCount + 1 + sched.length < 4294967296)
    (hc : ((AState.start ix adds q).run sched).crashed = false) (t : Nat) (id : ID)
    (hd : ((AState.start ix adds q).run sched).pc t = .done (.ok id)) :
    let s := (AState.start ix adds q).run sched
    (s.now.fetchRunes (q t)).2 = .ok id ↔
      ¬∃ a, Above s.now.items a id ∧ (AState.start ix adds q).WasForgotten sched a := by
  obtain ⟨ns, hi, hD⟩ := r.concurrent adds q sched hz hcap hc
  exact hi.foundIff hD hd

/-- C90 for calls that do not overlap (each runs to its end before the next one starts, as under a mutex): no data race,
and the results and the index are those of the sequential calls. -/
theorem C90_serial_partial (ix : Index) (adds : Nat → Bool) (q : Nat → List Rune) (ts : List Nat) (hnd : ts.Nodup) :
    let s := (AState.start ix adds q).run (ts.flatMap fun t => List.replicate (9 * (q t).length + 1) t)
    s.crashed = false ∧ s.now = callInOrder ix adds q ts ∧
      ∀ pre t post, ts = pre ++ t :: post → s.pc t = .done (if adds t then
        ((callInOrder ix adds q pre).addRunes (q t)).2 else ((callInOrder ix adds q pre).fetchRunes (q t)).2) := by
  have hi : (AState.start ix adds q).Idle := ⟨rfl, rfl, KidMaps.ofIndex_ok ix⟩
  have hn : (AState.start ix adds q).now = ix := AState.start_now ix _ q
  obtain ⟨h1, h2, _, h4⟩ := AState.serial ts hnd (AState.start ix adds q) hi fun _ _ => rfl
  have e : (fun (ix : Index) (t : Nat) => (callLoop (adds t) ix 0 (q t)).1) =
      fun ix t => if adds t then (ix.addRunes (q t)).1 else (ix.fetchRunes (q t)).1 := by
    funext ix t
    unfold callLoop
    cases adds t <;> rfl
  have ea : (AState.start ix adds q).adds = adds := rfl
  simp only [hn, ea, e] at h2 h4
  refine ⟨h1, h2, fun pre t post he => ?_⟩
  rw [h4 pre t post he]
  unfold callLoop callInOrder
  cases adds t <;> rfl

/-! ## The hypotheses on concrete cases -/

/-- One addition and one lookup, overlapping: the lookup of "ad", which is there, goes on while "ab" is added. -/
example : ∃ ix, Run [.addRunes [97, 100]] ix ∧
    (∀ t, t ≠ 0 → (if t = 0 then [97, 98] else if t = 1 then [97, 100] else []) = [] ∨
      ∃ id, (ix.fetchRunes (if t = 0 then [97, 98] else if t = 1 then [97, 100] else [])).2 = .ok id) ∧
    let s := (AState.start ix (fun t => t = 0) (fun t => if t = 0 then [97, 98] else if t = 1 then [97, 100] else [])).run
      (List.replicate 5 0 ++ List.replicate 4 1 ++ List.replicate 12 0 ++ List.replicate 12 1);
    s.crashed = false ∧ s.pc 0 = .done (.ok 3) ∧ s.pc 1 = .done (.ok 2) := by
  refine ⟨_, small_runs [.addRunes [97, 100]] (by decide), ?_, by decide, rfl, rfl⟩
  intro t ht
  by_cases h1 : t = 1
  · subst h1; exact .inr ⟨2, by decide⟩
  · simp [ht, h1]

/-- Nothing need be forgotten: the addition of "ab" beside the lookup of "ab", which finds the word only once it is there.
Before, as of the moments it sees, it would not be found. -/
example : ∃ ix, Run [.addRunes [97, 100]] ix ∧
    let q : Nat → List Rune := fun t => if t = 0 then [97, 98] else if t = 1 then [97, 98] else []
    let s := (AState.start ix onlyFirst q).run (List.replicate 12 0 ++ List.replicate 12 1);
    let s' := (AState.start ix onlyFirst q).run (List.replicate 6 1 ++ List.replicate 12 0 ++ List.replicate 3 1);
    s.crashed = false ∧ s.pc 0 = .done (.ok 3) ∧ s.pc 1 = .done (.ok 3) ∧
    s'.crashed = false ∧ s'.pc 0 = .done (.ok 3) ∧ s'.pc 1 = .done (.err (.notFound [97] 98)) :=
  ⟨_, small_runs [.addRunes [97, 100]] (by decide), by decide, rfl, rfl, by decide, rfl, rfl⟩

end Verif
