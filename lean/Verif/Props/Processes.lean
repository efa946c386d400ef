import Verif.Lemmas.Processes
import Verif.Lemmas.Loader
import Verif.Props.Reload

/-!
# C101 — several processes can use one data directory

`SaveIndex` and `LoadIndex` of several processes, in any order of their calls (`Model/Processes.lean`). A file read to its
end is given to `Index.new.load`, as in `LoadIndex`; with C17 a complete file gives an index with the same answers.
-/

namespace Verif

/-! ## One process saves while others load -/

/-- C101, readers: while one process saves `n` over the index `o`, another one that loads gets an error or the whole of
one of the two, provided it opens the file after the saving has begun, or is done before that, or what is saved is what
was there. Missing: reading that begins before and ends after the file is emptied (`C101_exact`, `not_C101_mixed`). -/
theorem C101_partial {o n : Index} (ho : o.InLimits) (hn : n.InLimits) {jobs : Nat → FileJob} {w i : Nat}
    (hj : OneSaves jobs w n.save.bytes) (pre post : List FileEv) {got : Str}
    (hw : ((Shared.start (some o.save.bytes)).run jobs pre).proc w = .idle)
    (hc : ((Shared.start (some o.save.bytes)).run jobs (pre ++ [.step w])).proc i = .idle ∨
      ((Shared.start (some o.save.bytes)).run jobs pre).proc i = .read got ∨ o.save.bytes = n.save.bytes)
    (hr : ((Shared.start (some o.save.bytes)).run jobs (pre ++ .step w :: post)).proc i = .read got) :
    (∃ e, Index.new.load got = .err e) ∨ (got = o.save.bytes ∧ o.save.err = none) ∨
      (got = n.save.bytes ∧ n.save.err = none) := by
  obtain ⟨s1, s2⟩ := start_ok (some o.save.bytes) n.save.bytes w
  have newcase : got <+: n.save.bytes → (∃ e, Index.new.load got = .err e) ∨ (got = o.save.bytes ∧ o.save.err = none) ∨
      (got = n.save.bytes ∧ n.save.err = none) := fun hp => (prefix_cases hn hp).imp id Or.inr
  obtain ⟨b, _, a1, a2⟩ := reads_run hj pre s1 s2
  have hb : b = false := by
    cases hb : b with
    | false => rfl
    | true => exact absurd hw (a1.after hb).2.1
  subst hb
  rcases hc with hc | hc | hc
  · apply newcase
    obtain ⟨b', _, c1, c2, _⟩ := reads_next a1 a2 hj (.step w)
    have hst : (Shared.start (some o.save.bytes)).run jobs (pre ++ [.step w]) =
        ((Shared.start (some o.save.bytes)).run jobs pre).next jobs (.step w) := by rw [shared_run_append]; rfl
    have hb' : b' = true := by
      cases hb : b' with
      | true => rfl
      | false =>
        have := (c1.before hb).2.2
        change ((Shared.step (jobs w) _ w).proc w = .idle ∨ (Shared.step (jobs w) _ w).proc w = .notSaved ∨
          (Shared.step (jobs w) _ w).proc w = .dead) at this
        rw [hj.1] at this
        unfold Shared.step at this
        simp only [hw] at this
        unfold Shared.create at this
        split at this <;> simp at this
    subst hb'
    rw [shared_run_append, run_cons] at hr
    rw [hst] at hc
    exact fresh_run hj i post c1 (fun g hg => by rw [hc] at hg; cases hg) got (by rw [hr]; rfl)
  · have := (a2 i got (by rw [hc]; rfl)).1 rfl
    exact (prefix_cases ho this).imp id Or.inl
  · obtain ⟨b', _, _, c2⟩ := reads_run hj (pre ++ .step w :: post) s1 s2
    obtain ⟨_, j, h1, _, h3⟩ := c2 i got (by rw [hr]; rfl)
    rw [Option.getD_some, hc, List.take_append_drop] at h3
    exact newcase h3

/-- Before the saving begins, and if it never does, what is loaded is the old index. -/
theorem C101_before {o : Index} (ho : o.InLimits) {new : Str} {jobs : Nat → FileJob} {w i : Nat}
    (hj : OneSaves jobs w new) (sched : List FileEv) {got : Str}
    (hw : ((Shared.start (some o.save.bytes)).run jobs sched).proc w = .idle)
    (hr : ((Shared.start (some o.save.bytes)).run jobs sched).proc i = .read got) :
    (∃ e, Index.new.load got = .err e) ∨ (got = o.save.bytes ∧ o.save.err = none) := by
  obtain ⟨s1, s2⟩ := start_ok (some o.save.bytes) new w
  obtain ⟨b, _, a1, a2⟩ := reads_run hj sched s1 s2
  have hb : b = false := by
    cases hb : b with
    | false => rfl
    | true => exact absurd hw (a1.after hb).2.1
  exact prefix_cases ho ((a2 i got (by rw [hr]; rfl)).1 hb)

/-- Where there was no index file, a process that loads gets an error or the whole of the new one. -/
theorem C101_first {n : Index} (hn : n.InLimits) {jobs : Nat → FileJob} {w i : Nat}
    (hj : OneSaves jobs w n.save.bytes) (sched : List FileEv) {got : Str}
    (hr : ((Shared.start none).run jobs sched).proc i = .read got) :
    (∃ e, Index.new.load got = .err e) ∨ (got = n.save.bytes ∧ n.save.err = none) := by
  obtain ⟨s1, s2⟩ := start_ok none n.save.bytes w
  obtain ⟨b, _, _, a2⟩ := reads_run hj sched s1 s2
  obtain ⟨_, j, h1, _, h3⟩ := a2 i got (by rw [hr]; rfl)
  have hj0 : j = 0 := by simpa using h1
  subst hj0
  simp only [Option.getD_none, List.take_nil, List.drop_zero, List.nil_append] at h3
  exact prefix_cases hn h3

/-- Exactly what can be read while another process saves: the first bytes of the old file and the later bytes of the new
one. -/
theorem C101_exact {old new got : Str} {jobs : Nat → FileJob} {w i : Nat} (hj : OneSaves jobs w new) (hi : i ≠ w) :
    (∃ sched, ((Shared.start (some old)).run jobs sched).proc i = .read got) ↔ Splice old new got := by
  constructor
  · rintro ⟨sched, hr⟩
    obtain ⟨s1, s2⟩ := start_ok (some old) new w
    obtain ⟨b, _, _, a2⟩ := reads_run hj sched s1 s2
    obtain ⟨_, j, h1, _, h3⟩ := a2 i got (by rw [hr]; rfl)
    exact ⟨j, h1, h3⟩
  · exact splice_read hj hi

/-! ## Several processes save -/

/-- C101, writers: if all processes that save, save the same index, and no call of theirs fails, and the last one to begin
is done, then the file is that index; whatever else was done in between, and whether or not others have died. -/
theorem C101_last {c : Str} {jobs : Nat → FileJob} (hj : AllSave jobs c) (f : Option Str) (pre post : List FileEv) {a : Nat}
    (ha : jobs a = .save c) (hw : SavesWork jobs (pre ++ .step a :: post))
    (hi : ((Shared.start f).run jobs pre).proc a = .idle)
    (hl : ∀ i, jobs i = .save c → ((Shared.start f).run jobs (pre ++ [.step a])).proc i = .idle →
      ((Shared.start f).run jobs (pre ++ .step a :: post)).proc i = .idle)
    (hs : ((Shared.start f).run jobs (pre ++ .step a :: post)).proc a = .saved) :
    ((Shared.start f).run jobs (pre ++ .step a :: post)).file = some c := by
  have h1 := someLed_run hj pre (fun i hm => hw i (by simp [hm])) (someLed_start c jobs f)
  have h2 := h1.ok.begin ha hi
  have hst : (Shared.start f).run jobs (pre ++ [.step a]) = ((Shared.start f).run jobs pre).next jobs (.step a) := by
    rw [shared_run_append]; rfl
  rw [hst] at hl
  rw [shared_run_append, run_cons] at hs ⊢
  simp only [shared_run_append, run_cons] at hl
  exact (led_run hj ha post (fun i hm => hw i (by simp [hm])) h2 hl).done hs

/-- If all that have begun are done, the file is what they saved. -/
theorem C101_all {c : Str} {jobs : Nat → FileJob} (hj : AllSave jobs c) (f : Option Str) (sched : List FileEv)
    (hw : SavesWork jobs sched)
    (hd : ∀ i, jobs i = .save c → ((Shared.start f).run jobs sched).proc i = .idle ∨
      ((Shared.start f).run jobs sched).proc i = .saved)
    (hs : ∃ i, jobs i = .save c ∧ ((Shared.start f).run jobs sched).proc i = .saved) :
    ((Shared.start f).run jobs sched).file = some c := by
  obtain ⟨i, hi, hsi⟩ := hs
  rcases someLed_run hj sched hw (someLed_start c jobs f) with h | ⟨a, ha, h⟩
  · have := (h i).1 hi
    rw [hsi] at this
    simp at this
  · refine h.done ((hd a ha).resolve_left fun h0 => ?_)
    obtain ⟨⟨k, _, _, _, hx⟩, _, _⟩ := h
    rcases hx with hx | ⟨_, hx | hx, _⟩
    · rw [h0] at hx; cases hx
    · rw [h0] at hx; cases hx
    · rw [h0] at hx; cases hx.1

/-- C101, after a removal: a process that saves where there is no file leaves exactly what it saves, whoever still writes to
files that were removed before, and whatever they write; provided no other process begins to save, and no call fails, from
then on. -/
theorem C101_alone {c : Str} {jobs : Nat → FileJob} (f : Option Str) (pre post : List FileEv) {a : Nat}
    (ha : jobs a = .save c) (hf : ((Shared.start f).run jobs pre).file = none)
    (hi : ((Shared.start f).run jobs pre).proc a = .idle) (hr : ∀ j, ((Shared.start f).run jobs pre).proc j ≠ .removing)
    (hw : SavesWork jobs post)
    (hl : ∀ i, i ≠ a → jobs i ≠ .load → ((Shared.start f).run jobs pre).proc i = .idle →
      ((Shared.start f).run jobs (pre ++ .step a :: post)).proc i = .idle)
    (hs : ((Shared.start f).run jobs (pre ++ .step a :: post)).proc a = .saved) :
    ((Shared.start f).run jobs (pre ++ .step a :: post)).file = some c := by
  have h1 := SoleWriter.begin (numbered_run pre (numbered_start jobs f)) ha hf hi hr
  rw [shared_run_append, run_cons] at hs ⊢
  simp only [shared_run_append, run_cons] at hl
  obtain ⟨⟨n, e, h2, _⟩, _⟩ := alone_run ha post hw h1 fun i hia hs h0 => hl i hia hs (idle_next h0)
  unfold Shared.file
  rw [e, Option.map_some]
  rcases h2 with ⟨p, h2, _⟩ | ⟨_, h2⟩ | h2
  · rw [hs] at h2; cases h2
  · rw [h2]
  · rw [hs] at h2; cases h2

/-! ## What fails -/

/-- The word "a", a noun. -/
def nounFile : List Op := [.tagID (str "NOUN") [], .addString (str "a"), .addTagSet 1 [str "NOUN"]]
/-- The word "b", a verb. -/
def verbFile : List Op := [.tagID (str "VERB") [], .addString (str "b"), .addTagSet 1 [str "VERB"]]

/-- Process 0 saves, the others load. -/
def zeroSaves (c : Str) (i : Nat) : FileJob := if i = 0 then .save c else .load
/-- Processes 0 and 1 save. -/
def twoSave (c : Str) (i : Nat) : FileJob := if i < 2 then .save c else .load

/-- C101 does not hold for reading under way: the process that loads while the index of "a", noun, is replaced by that of
"b", verb, can get an index in which "b" is a noun. -/
theorem not_C101_mixed : ∃ o n sched got ix, Run nounFile o ∧ Run verbFile n ∧
    ((Shared.start (some o.save.bytes)).run (zeroSaves n.save.bytes) sched).proc 1 = .read got ∧
    Index.new.load got = .ok (ix, []) ∧ (ix.fetchRunes [98]).2 = .ok 1 ∧
    ix.tagSetsOf 1 = .ok [[⟨str "----", str "NOUN"⟩]] ∧
    (∀ id, (o.fetchRunes [98]).2 ≠ .ok id) ∧ n.tagSetsOf 1 = .ok [[⟨str "----", str "VERB"⟩]] := by
  have hj : OneSaves (zeroSaves (execAll verbFile).save.bytes) 0 (execAll verbFile).save.bytes :=
    ⟨rfl, fun i hi => if_neg hi⟩
  obtain ⟨sched, hs⟩ := (C101_exact (old := (execAll nounFile).save.bytes) (i := 1) hj (by decide)).2
    ⟨12, by decide, List.prefix_refl _⟩
  refine ⟨_, _, sched, _, _, small_runs nounFile (by decide), small_runs verbFile (by decide), hs, rfl, by decide, by decide, ?_, by decide⟩
  intro id h
  have : ((execAll nounFile).fetchRunes [98]).2.isOk = false := by decide
  rw [h] at this
  cases this

/-- Two processes save the same index; the one that began last dies after 63 bytes, the other one is content. The file
has a gap where neither has written since it was emptied, and it is loaded without an error: the word "a" is gone. -/
theorem not_C101_died : ∃ n sched file ix, Run nounFile n ∧ SavesWork (twoSave n.save.bytes) sched ∧
    ((Shared.start none).run (twoSave n.save.bytes) sched).proc 0 = .saved ∧
    ((Shared.start none).run (twoSave n.save.bytes) sched).proc 1 = .dead ∧
    ((Shared.start none).run (twoSave n.save.bytes) sched).file = some file ∧ Index.new.load file = .ok (ix, []) ∧
    (n.fetchRunes [97]).2 = .ok 1 ∧ (∀ id, (ix.fetchRunes [97]).2 ≠ .ok id) := by
  refine ⟨_, List.replicate 72 (.step 0) ++ List.replicate 64 (.step 1) ++ [.die 1] ++ List.replicate 5 (.step 0),
    (execAll nounFile).save.bytes.take 63 ++ List.replicate 8 0 ++ (execAll nounFile).save.bytes.drop 71, _,
    small_runs nounFile (by decide), ?_, ?_, ?_, ?_, rfl, by decide, ?_⟩
  · intro i hi
    simp at hi
  · decide +kernel
  · decide +kernel
  · decide +kernel
  · intro id h
    have : ((match Index.new.load ((execAll nounFile).save.bytes.take 63 ++ List.replicate 8 0 ++
      (execAll nounFile).save.bytes.drop 71) with | .ok (ix, _) => (ix.fetchRunes [97]).2.isOk | _ => true) = false) := by decide
    change (Index.fetchRunes _ [97]).2.isOk = false at this
    rw [h] at this
    cases this

/-- Two processes save the same index; one fails and removes the file, the other one is content; there is no file. -/
theorem not_C101_removed : ∃ n sched, Run nounFile n ∧
    ((Shared.start none).run (twoSave n.save.bytes) sched).proc 0 = .saved ∧
    ((Shared.start none).run (twoSave n.save.bytes) sched).proc 1 = .notSaved ∧
    ((Shared.start none).run (twoSave n.save.bytes) sched).file = none := by
  refine ⟨_, [.step 1] ++ List.replicate 77 (.step 0) ++ [.fail 1, .step 1], small_runs nounFile (by decide), ?_, ?_, ?_⟩
  · decide +kernel
  · decide +kernel
  · decide +kernel

/-- Two processes save, one the noun "a", the other the verb "b"; both are content; in the index that is loaded, "b" is a
noun. -/
theorem not_C101_different : ∃ o n sched file ix, Run nounFile o ∧ Run verbFile n ∧
    let s := (Shared.start none).run (fun i => if i = 0 then .save o.save.bytes else .save n.save.bytes) sched
    s.proc 0 = .saved ∧ s.proc 1 = .saved ∧ s.file = some file ∧ Index.new.load file = .ok (ix, []) ∧
    (ix.fetchRunes [98]).2 = .ok 1 ∧ ix.tagSetsOf 1 = .ok [[⟨str "----", str "NOUN"⟩]] := by
  refine ⟨_, _, [.step 0] ++ List.replicate 13 (.step 1) ++ List.replicate 76 (.step 0) ++ List.replicate 64 (.step 1),
    (execAll nounFile).save.bytes.take 12 ++ (execAll verbFile).save.bytes.drop 12, _, small_runs nounFile (by decide),
    small_runs verbFile (by decide), ?_, ?_, ?_, rfl, by decide, by decide⟩
  · decide +kernel
  · decide +kernel
  · decide +kernel

/-! ## The hypotheses are met -/

/-- Process 1 loads the new index, process 2 has loaded the old one. -/
example : ∃ (o n : Index) (pre post : List FileEv), o.InLimits ∧ n.InLimits ∧ OneSaves (zeroSaves n.save.bytes) 0 n.save.bytes ∧
    let s := Shared.start (some o.save.bytes)
    (s.run (zeroSaves n.save.bytes) pre).proc 0 = .idle ∧
    (s.run (zeroSaves n.save.bytes) (pre ++ [.step 0])).proc 1 = .idle ∧
    (s.run (zeroSaves n.save.bytes) (pre ++ .step 0 :: post)).proc 1 = .read n.save.bytes ∧
    (s.run (zeroSaves n.save.bytes) pre).proc 2 = .read o.save.bytes := by
  refine ⟨execAll nounFile, execAll verbFile, List.replicate 77 (.step 2),
    List.replicate 76 (.step 0) ++ List.replicate 77 (.step 1), ?_, ?_, ⟨rfl, fun i hi => if_neg hi⟩, ?_, ?_, ?_, ?_⟩
  · constructor <;> decide
  · constructor <;> decide
  · decide +kernel
  · decide +kernel
  · decide +kernel
  · decide +kernel

/-- Two processes save, their writes interleaved; a third one dies. -/
example : ∃ (c : Str) (jobs : Nat → FileJob) (sched : List FileEv), AllSave jobs c ∧ SavesWork jobs sched ∧ 3 ≤ c.length ∧
    ((Shared.start none).run jobs sched).proc 0 = .saved ∧ ((Shared.start none).run jobs sched).proc 1 = .saved ∧
    (∀ i, jobs i = .save c → ((Shared.start none).run jobs sched).proc i = .idle ∨
      ((Shared.start none).run jobs sched).proc i = .saved) := by
  refine ⟨str "abc", fun i => if i < 2 then .save (str "abc") else .load,
    [.step 0, .step 0, .step 1, .step 0, .step 1, .step 1, .step 0, .step 1, .step 0, .step 1, .die 2], ?_, ?_, by decide,
    by decide, by decide, ?_⟩
  · intro i
    by_cases h : i < 2
    · exact .inr (if_pos h)
    · exact .inl (if_neg h)
  · intro i hi
    simp at hi
  · intro i hi
    by_cases h : i < 2
    · right
      obtain rfl | rfl : i = 0 ∨ i = 1 := by omega
      · decide
      · decide
    · have : FileJob.load = .save (str "abc") := (if_neg h).symm.trans hi
      cases this

/-- Process 0 saves "abc" and process 1 "xyz" into one file; process 1 fails and removes it. Process 2 saves "12" to a new
one, while process 0 goes on with the old. -/
example : ∃ (jobs : Nat → FileJob) (pre post : List FileEv), jobs 2 = .save (str "12") ∧
    ((Shared.start none).run jobs pre).file = none ∧ ((Shared.start none).run jobs pre).proc 0 = .saving 0 1 ∧
    ((Shared.start none).run jobs pre).proc 2 = .idle ∧ (∀ j, ((Shared.start none).run jobs pre).proc j ≠ .removing) ∧
    SavesWork jobs post ∧ (∀ i, i ≠ 2 → jobs i ≠ .load → ((Shared.start none).run jobs pre).proc i = .idle →
      ((Shared.start none).run jobs (pre ++ .step 2 :: post)).proc i = .idle) ∧
    ((Shared.start none).run jobs (pre ++ .step 2 :: post)).proc 2 = .saved ∧
    ((Shared.start none).run jobs (pre ++ .step 2 :: post)).proc 0 = .saved := by
  refine ⟨fun i => if i = 0 then .save (str "abc") else if i = 1 then .save (str "xyz") else if i = 2 then .save (str "12") else .load,
    [.step 0, .step 1, .step 0, .fail 1, .step 1], [.step 0, .step 2, .step 0, .step 2, .step 0, .step 2], rfl, by decide,
    by decide, by decide, ?_, ?_, ?_, by decide, by decide⟩
  · intro j
    by_cases h : j < 2
    · obtain rfl | rfl : j = 0 ∨ j = 1 := by omega
      · decide
      · decide
    · rw [untouched _ (by simp; omega)]
      simp [Shared.start]
  · intro i hi
    simp at hi
  · intro i hi hj h0
    by_cases h : i < 2
    · obtain rfl | rfl : i = 0 ∨ i = 1 := by omega
      · exact absurd h0 (by decide)
      · exact absurd h0 (by decide)
    · exfalso
      have h1 : i ≠ 0 := by omega
      have h2 : i ≠ 1 := by omega
      simp [h1, h2, hi] at hj

end Verif
