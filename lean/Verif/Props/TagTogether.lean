import Verif.Lemmas.TagTogether
import Verif.Props.Capacity

/-!
# C92 — calls at the same time that make no nodes: tagging, asking, looking up

The property, "calls made at the same time answer, and leave the dictionary, as if they had been made one after the other",
does not hold (`not_C92`): `AddTagSet` and `TagID` search a table and append to it without any lock. Exactly those calls race
of which one writes what the other one uses (`C92_race_exact`), whatever the schedule; calls of which no two meet so are safe
in every schedule (`C92_safe_partial`); and so are, for example, all questions, and the tagging of different words with
readings as other words have them (`C92_quiet_partial`). A word's first tagging meets every other word's first tagging
(`C92_first`).
-/

namespace Verif

open TCall

/-- Whether calls made at the same time race does not depend on the schedule: two of them meet. -/
theorem C92_race_exact (ix : Index) (calls : List TCall) (sched : List Nat) (hd : (ix.together calls sched).AllDone) :
    DataRace (ix.together calls sched).log ↔
      ∃ (t u : Nat) (a b : TCall), t ≠ u ∧ calls[t]? = some a ∧ calls[u]? = some b ∧ Meet ix a b :=
  (race_iff hd).trans (ix.exists_clash calls)

/-- Every execution can be completed. -/
theorem C92_ends (ix : Index) (calls : List TCall) (sched : List Nat) :
    ∃ more, (ix.together calls (sched ++ more)).AllDone := by
  obtain ⟨more, h⟩ := completes calls.length (ix.together calls sched) fun t ht => by
    refine ⟨none, run_done sched _ ?_⟩
    show goroutine ix calls t = _
    unfold goroutine
    rw [List.getElem?_eq_none ht]
  exact ⟨more, by unfold Index.together at h ⊢; rw [run_append]; exact h⟩

/-- Calls of which no two meet: no data race; every call that has come to its end has given its answer; and when all have, it
is as if they had been made one after the other, in whatever order, and all later calls answer so. -/
theorem C92_safe_partial (ix : Index) (calls : List TCall)
    (hno : ∀ (t u : Nat) (a b : TCall), t ≠ u → calls[t]? = some a → calls[u]? = some b → ¬ Meet ix a b) (sched : List Nat) :
    ¬ DataRace (ix.together calls sched).log ∧
    (∀ (t : Nat) c a, calls[t]? = some c → (ix.together calls sched).prog t = .done a → a = some (ix.does c).2) ∧
    ((ix.together calls sched).AllDone → ∀ order : List Nat, order.Perm (List.range calls.length) →
      (ix.together calls sched).mem = memOf (ix.inOrder calls order) ∧
      (∀ pre t post c, order = pre ++ t :: post → calls[t]? = some c →
        (ix.together calls sched).prog t = .done (some ((ix.inOrder calls pre).does c).2)) ∧
      ∀ c, ((TProg.call ix c).alone (ix.together calls sched).mem).2 = ((ix.inOrder calls order).does c).2) := by
  have hc : ∀ t u, t ≠ u → ¬ Clash ((goroutine ix calls t).accesses (memOf ix)) ((goroutine ix calls u).accesses (memOf ix)) := by
    intro t u htu h
    obtain ⟨t', u', a, b, h1, h2, h3, h4⟩ := (ix.exists_clash calls).1 ⟨t, u, htu, h⟩
    exact hno t' u' a b h1 h2 h3 h4
  have hr : ¬ DataRace (ix.together calls sched).log := safe_of_noClash hc sched
  obtain ⟨res1, res2⟩ := result_of_noRace (sched := sched) hr
  have ans : ∀ (t : Nat) c a, calls[t]? = some c → (ix.together calls sched).prog t = .done a → a = some (ix.does c).2 := by
    intro t c a ht h
    have := res1 t a h
    rw [ix.alone_goroutine, ht] at this
    exact this
  refine ⟨hr, ans, fun hd order hp => ?_⟩
  have hnd : order.Nodup := hp.nodup_iff.2 List.nodup_range
  have hmem : (ix.together calls sched).mem = memOf (ix.inOrder calls order) := by
    rw [← Index.inTurn_goroutine]
    obtain ⟨-, s2⟩ := inTurn_of_noClash hc order hnd
    funext l
    obtain ⟨a1, a2⟩ := res2 hd l
    obtain ⟨b1, b2⟩ := s2 l
    by_cases hw : ∃ t, (l, true) ∈ (goroutine ix calls t).accesses (memOf ix)
    · obtain ⟨t, ht⟩ := hw
      have hin : t ∈ order := by
        rw [hp.mem_iff, List.mem_range]
        by_contra hge
        rw [ix.accesses_goroutine, List.getElem?_eq_none (by omega)] at ht
        cases ht
      rw [show (ix.together calls sched).mem l = _ from a1 t ht, b1 t hin ht]
    · have hw' : ∀ t, (l, true) ∉ (goroutine ix calls t).accesses (memOf ix) := fun t ht => hw ⟨t, ht⟩
      rw [show (ix.together calls sched).mem l = _ from a2 hw', b2 fun t _ => hw' t]
  refine ⟨hmem, ?_, ?_⟩
  · rintro pre t post c rfl ht
    obtain ⟨a, ha⟩ := hd t
    rw [ha, ans t c a ht ha]
    have hnd' := List.nodup_append.1 hnd
    obtain ⟨s1, -⟩ := inTurn_of_noClash hc pre hnd'.1
    have hnot : t ∉ pre := fun hm => hnd'.2.2 t hm t List.mem_cons_self rfl
    have e := s1 t hnot
    rw [Index.inTurn_goroutine, ← Index.goroutine_alike (Index.inOrder_alike calls pre ix), Index.alone_goroutine, ht,
      Index.goroutine_alike (Index.inOrder_alike calls pre ix), Index.alone_goroutine, ht] at e
    have e' : ((ix.inOrder calls pre).does c).2 = (ix.does c).2 := Option.some.inj e
    rw [e']
  · intro c
    rw [hmem, ← (Index.inOrder_alike calls order ix).call, TProg.alone_call]

/-- Such calls never meet. -/
theorem C92_quiet_partial {h : List Op} {ix : Index} (r : Run h ix) (calls : List TCall) (hq : KeepApart h ix calls)
    (t u : Nat) (a b : TCall) (htu : t ≠ u) (ha : calls[t]? = some a) (hb : calls[u]? = some b) : ¬ Meet ix a b := by
  obtain ⟨h1, h2⟩ := hq
  have wr : ∀ (t : Nat) c l, calls[t]? = some c → Writes ix c l → ∃ id names, c = .addTagSet id names ∧ l = .variants id := by
    intro t c l hc hw
    have hq := h1 c (List.mem_of_getElem? hc)
    cases c with
    | tagID name parent =>
      cases hw with
      | tag hn =>
        obtain ⟨i, hi⟩ := hasTag_iff.1 hq
        rw [r.tag.tags, hi] at hn
        cases hn
    | addTagSet id names =>
      refine ⟨id, names, rfl, ?_⟩
      rcases hq with hq | hq
      · exfalso
        have bad : ∀ s item c, ¬ Tags ix id names s item c := by
          intro s item c ht
          obtain ⟨g1, g2, g3⟩ := r.tags_inv ht
          rcases hq with hq | hq | hq
          · rw [hq] at g1; cases g1
          · omega
          · omega
        cases hw with
        | node t => exact bad _ _ _ t
        | count t => exact bad _ _ _ t
        | sets t => exact bad _ _ _ t
        | setTables t => exact bad _ _ _ t
        | set t => exact bad _ _ _ t
        | colls t => exact bad _ _ _ t
        | collTables t => exact bad _ _ _ t
        | coll t => exact bad _ _ _ t
      · exact r.writes_own hq hw
    | fetchRunes rs =>
      cases hw with
      | lookup hp hn => exact absurd hn (hq _ hp)
    | tagSets id => cases hw
    | wordsCount => cases hw
    | childrenMap id => cases hw
  have key : ∀ (t u : Nat) a b l, t ≠ u → calls[t]? = some a → calls[u]? = some b → ¬ (Writes ix a l ∧ Uses ix b l) := by
    rintro t u a b l htu ha hb ⟨hw, hu⟩
    obtain ⟨id, names, rfl, rfl⟩ := wr t a l ha hw
    obtain ⟨g1, g2⟩ := h2 t u id names htu ha
    have own : Uses ix b (.variants id) → b = .tagSets id ∨ ∃ names', b = .addTagSet id names' := by
      intro hu
      cases hu with
      | writes hw' =>
        cases hw' with
        | node t => exact .inr ⟨_, rfl⟩
      | node _ _ => exact .inr ⟨_, rfl⟩
      | nodeOf _ => exact .inl rfl
    rcases own hu with rfl | ⟨names', rfl⟩
    · exact g1 hb
    · exact g2 names' hb
  rintro ⟨l, hl | hl⟩
  · exact key t u a b l htu ha hb hl
  · exact key u t b a l (Ne.symm htu) hb ha hl

/-- The first tagging of a word meets the first tagging of every other word, and the question how many words there are. -/
theorem C92_first {h : List Op} {ix : Index} (r : Run h ix) (id id' : ID) (names names' : List Str)
    (hn : names.all (dictOf h).hasTag = true) (h0 : 0 < id.toNat) (h1 : id.toNat < (dictOf h).nodes.length)
    (hu : ∀ n, (id.toNat, n) ∉ (dictOf h).readings)
    (hn' : names'.all (dictOf h).hasTag = true) (h0' : 0 < id'.toNat) (h1' : id'.toNat < (dictOf h).nodes.length)
    (hu' : ∀ n, (id'.toNat, n) ∉ (dictOf h).readings) :
    Meet ix (.addTagSet id names) (.addTagSet id' names') ∧ Meet ix (.addTagSet id names) .wordsCount := by
  obtain ⟨s, item, c, t, _⟩ := r.tags hn h0 h1
  obtain ⟨s', item', c', t', _⟩ := r.tags hn' h0' h1'
  exact ⟨⟨.count, .inl ⟨.count t ((r.untagged_iff t).2 hu), .writes (.count t' ((r.untagged_iff t').2 hu'))⟩⟩,
    ⟨.count, .inl ⟨.count t ((r.untagged_iff t).2 hu), .count⟩⟩⟩

/-- The tagging of a word meets every other tagging of it and every question after its readings. -/
theorem C92_same_word {h : List Op} {ix : Index} (r : Run h ix) (id : ID) (names names' : List Str)
    (hn : names.all (dictOf h).hasTag = true) (hn' : names'.all (dictOf h).hasTag = true) (h0 : 0 < id.toNat)
    (h1 : id.toNat < (dictOf h).nodes.length) :
    Meet ix (.addTagSet id names) (.addTagSet id names') ∧ Meet ix (.addTagSet id names) (.tagSets id) := by
  obtain ⟨s, item, c, t, _⟩ := r.tags hn h0 h1
  obtain ⟨s', item', c', t', _⟩ := r.tags hn' h0 h1
  exact ⟨⟨.variants id, .inl ⟨.node t, .node t'.names t'.node⟩⟩, ⟨.variants id, .inl ⟨.node t, .nodeOf t.node⟩⟩⟩

/-- A new tag meets every `TagID` and every `AddTagSet` with names. -/
theorem C92_new_tag {h : List Op} {ix : Index} (r : Run h ix) (name parent : Str) (hn : (dictOf h).hasTag name = false)
    (name' parent' : Str) (id : ID) (names : List Str) (hne : names ≠ []) :
    Meet ix (.tagID name parent) (.tagID name' parent') ∧ Meet ix (.tagID name parent) (.addTagSet id names) := by
  have hf : tagsFind ix.tags name = none := by
    rw [r.tag.tags]
    cases hf : tagsFind (dictOf h).tags name with
    | none => rfl
    | some i =>
      rw [hasTag_iff.2 ⟨i, hf⟩] at hn
      cases hn
  exact ⟨⟨.tags, .inl ⟨.tag hf, .tag⟩⟩, ⟨.tags, .inl ⟨.tag hf, .names hne⟩⟩⟩

/-! ## Two words tagged at the same time -/

/-- Three tags "aaaa", "bbbb", "cccc" and three words; the third word has the reading "cccc". -/
def threeTagged : List Op :=
  [.tagID [97, 97, 97, 97] [], .tagID [98, 98, 98, 98] [], .tagID [99, 99, 99, 99] [], .addRunes [97], .addRunes [98],
    .addRunes [99], .addTagSet 3 [[99, 99, 99, 99]]]

/-- The first two words are tagged at the same time, the first with "aaaa", the second with "bbbb". -/
def twoTaggings : List TCall := [.addTagSet 1 [[97, 97, 97, 97]], .addTagSet 2 [[98, 98, 98, 98]]]

/-- Both look at the length of the table of tag sets, then both append. -/
def bothAppend : List Nat := List.replicate 7 0 ++ List.replicate 7 1 ++ List.replicate 30 0 ++ List.replicate 30 1

/-- The names in an answer. -/
def TAns.names : TAns → Option (List (List Str))
  | .readings (.ok l) => some (l.map (·.map (·.name)))
  | _ => none

set_option maxRecDepth 8000 in
/-- After the two calls the second word has the reading "aaaa", which it was never given, in every later answer; and no call
has reported an error. One after the other, in whichever order, the calls give it "bbbb". -/
theorem not_C92 : Run threeTagged (execAll threeTagged) ∧
    ((execAll threeTagged).together twoTaggings bothAppend).AllDone ∧
    ((TProg.call (execAll threeTagged) (.tagSets 2)).alone ((execAll threeTagged).together twoTaggings bothAppend).mem).2.names
      = some [[[97, 97, 97, 97]]] ∧
    (∀ order : List Nat, order.Perm (List.range 2) →
      (((execAll threeTagged).inOrder twoTaggings order).does (.tagSets 2)).2.names = some [[[98, 98, 98, 98]]]) ∧
    ¬ (execAll threeTagged).AsInSomeOrder twoTaggings ((execAll threeTagged).together twoTaggings bothAppend) := by
  have hr : Run threeTagged (execAll threeTagged) := small_runs _ (by decide)
  have hbad : ((TProg.call (execAll threeTagged) (.tagSets 2)).alone
      ((execAll threeTagged).together twoTaggings bothAppend).mem).2.names = some [[[97, 97, 97, 97]]] := by decide
  have hgood : ∀ order : List Nat, order.Perm (List.range 2) →
      (((execAll threeTagged).inOrder twoTaggings order).does (.tagSets 2)).2.names = some [[[98, 98, 98, 98]]] := by
    intro order hp
    have hl : order.length = 2 := hp.length_eq
    have hnd : order.Nodup := hp.nodup_iff.2 List.nodup_range
    match order, hl with
    | [a, b], _ =>
      have ha : a < 2 := List.mem_range.1 (hp.mem_iff.1 List.mem_cons_self)
      have hb : b < 2 := List.mem_range.1 (hp.mem_iff.1 (List.mem_cons_of_mem _ List.mem_cons_self))
      match a, b, ha, hb with
      | 0, 1, _, _ => decide
      | 1, 0, _, _ => decide
      | 0, 0, _, _ => simp at hnd
      | 1, 1, _, _ => simp at hnd
  refine ⟨hr, ?_, hbad, hgood, ?_⟩
  · intro t
    match t with
    | 0 => exact ⟨some (.added (.ok ())), by rfl⟩
    | 1 => exact ⟨some (.added (.ok ())), by rfl⟩
    | t + 2 =>
      refine ⟨none, (run_other _ _ ?_).trans ?_⟩
      · intro hm
        simp [bothAppend] at hm
      · rfl
  · rintro ⟨order, hp, hm, -⟩
    rw [hm, ← (Index.inOrder_alike twoTaggings order _).call, TProg.alone_call] at hbad
    rw [hgood order hp] at hbad
    revert hbad
    decide

/-! ## The hypotheses are met -/

/-- Two tags; the first two words have the reading "aaaa", the third has "aaaa" and "bbbb". -/
def likeTheThird : List Op :=
  [.tagID [97, 97, 97, 97] [], .tagID [98, 98, 98, 98] [], .addRunes [97], .addRunes [98], .addRunes [99],
    .addTagSet 1 [[97, 97, 97, 97]], .addTagSet 2 [[97, 97, 97, 97]], .addTagSet 3 [[97, 97, 97, 97]],
    .addTagSet 3 [[98, 98, 98, 98]]]

/-- The first two words get the reading "bbbb" as well, at the same time; beside this the third is looked up and asked for,
a known tag is asked for, the words are counted, and somebody tries to tag a word that is not there with an unknown tag. -/
def quietCalls : List TCall :=
  [.addTagSet 1 [[98, 98, 98, 98]], .addTagSet 2 [[98, 98, 98, 98]], .tagSets 3, .fetchRunes [99], .wordsCount,
    .addTagSet 4 [[120]], .tagID [98, 98, 98, 98] [], .childrenMap 0]

set_option maxRecDepth 8000 in
example : Run likeTheThird (execAll likeTheThird) ∧ KeepApart likeTheThird (execAll likeTheThird) quietCalls := by
  have hr : (dictOf likeTheThird).readings = [(1, [[97, 97, 97, 97]]), (2, [[97, 97, 97, 97]]), (3, [[97, 97, 97, 97]]),
      (3, [[98, 98, 98, 98]])] := by decide
  have hs : ∀ k, k = 1 ∨ k = 2 → (dictOf likeTheThird).Seen k [[98, 98, 98, 98]] := by
    intro k hk
    refine ⟨⟨[[97, 97, 97, 97]], ?_⟩, 3, fun n => ?_⟩
    · rw [hr]; rcases hk with rfl | rfl <;> decide
    · unfold Dict.Reads
      rw [hr]
      rcases hk with rfl | rfl <;> simp [List.perm_comm]
  refine ⟨small_runs _ (by decide), ?_, ?_⟩
  · intro c hc
    simp only [quietCalls, List.mem_cons, List.not_mem_nil, or_false] at hc
    rcases hc with rfl | rfl | rfl | rfl | rfl | rfl | rfl | rfl
    · exact .inr (hs 1 (.inl rfl))
    · exact .inr (hs 2 (.inr rfl))
    · trivial
    · show ∀ p ∈ visited _ 0 [99], _
      intro p hp
      have : p = 0 := by
        revert hp
        show p ∈ [(0 : ID)] → p = 0
        exact List.mem_singleton.1
      subst this
      intro hn
      have : ((execAll likeTheThird).childrenMap 0).isSome = true := by decide
      rw [hn] at this
      cases this
    · trivial
    · exact .inl (.inl (by decide))
    · show (dictOf likeTheThird).hasTag _ = true
      decide
    · trivial
  · intro t u id names htu ht
    have e : ∀ (t : Nat) id names, quietCalls[t]? = some (.addTagSet id names) →
        (t = 0 ∧ id = 1) ∨ (t = 1 ∧ id = 2) ∨ (t = 5 ∧ id = 4) := by
      intro t id names ht
      match t with
      | 0 => cases ht; simp
      | 1 => cases ht; simp
      | 5 => cases ht; simp
      | 2 | 3 | 4 | 6 | 7 => cases ht
      | _ + 8 => cases ht
    have e' : ∀ (u : Nat) id, quietCalls[u]? = some (.tagSets id) → id = 3 := by
      intro t id ht
      match t with
      | 2 => cases ht; rfl
      | 0 | 1 | 3 | 4 | 5 | 6 | 7 => cases ht
      | _ + 8 => cases ht
    refine ⟨fun hu => ?_, fun names' hu => ?_⟩
    · have := e' u id hu
      subst this
      rcases e t 3 names ht with ⟨-, h⟩ | ⟨-, h⟩ | ⟨-, h⟩ <;> exact absurd h (by decide)
    · rcases e t id names ht with ⟨rfl, rfl⟩ | ⟨rfl, rfl⟩ | ⟨rfl, rfl⟩ <;>
        rcases e u _ names' hu with ⟨rfl, h⟩ | ⟨rfl, h⟩ | ⟨rfl, h⟩ <;>
        first | exact htu rfl | exact absurd h (by decide)

set_option maxRecDepth 8000 in
/-- `C92_first`, `C92_same_word` and `C92_new_tag` speak of such words and names. -/
example : (dictOf threeTagged).hasTag [97, 97, 97, 97] = true ∧ (dictOf threeTagged).hasTag [120] = false ∧
    2 < (dictOf threeTagged).nodes.length ∧ (∀ n, (1, n) ∉ (dictOf threeTagged).readings) ∧
    ∀ n, (2, n) ∉ (dictOf threeTagged).readings := by
  have hr : (dictOf threeTagged).readings = [(3, [[99, 99, 99, 99]])] := by decide
  refine ⟨by decide, by decide, by decide, fun n => ?_, fun n => ?_⟩ <;> rw [hr] <;> simp

end Verif
