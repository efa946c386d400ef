import Verif.Lemmas.Updates
import Verif.Props.Provenance

/-!
# C104: several updates at the same time

Several processes run `Update` with one data directory. While none writes a file that another one has open, and none that
was told to recompile begins while another one is at work, every update succeeds and the index is that of the server's
archive. Run one after another they always are in order. Otherwise two updates that both report success can leave an
empty dictionary, or the one of before.
-/

namespace Verif

/-- There is an index, and it loads to one that answers as the document says. -/
def UpdState.Serves (s : UpdState) (doc : List Xml) : Prop :=
  ∃ bytes ix, s.file .compiled = some bytes ∧ Index.new.load bytes = .ok (ix, []) ∧ ServesExactly doc ix

/-- The server's archive is one of the document, and what a part of an archive unpacks to is a part of what the archive
unpacks to. -/
structure Offers (cfg : UpdCfg) (doc : List Xml) : Prop where
  archive : ArchiveOf cfg.env.bunzip cfg.env.tokens cfg.env.floatOK cfg.body doc
  complete : (cfg.env.bunzip cfg.body).2 = true
  mono : ∀ a b, a <+: b → (cfg.env.bunzip a).1 <+: (cfg.env.bunzip b).1

theorem Offers.serveable {cfg : UpdCfg} {doc : List Xml} (o : Offers cfg doc) :
    ∃ text index ix, Serveable cfg text index ∧ Index.new.load index = .ok (ix, []) ∧ ServesExactly doc ix := by
  obtain ⟨h1, -, h3, h4, h5⟩ := o.archive
  obtain ⟨p1, p2, p3, ix, p4, p5⟩ := C44_exact cfg.env.floatOK doc h3 h4 h5
  refine ⟨(cfg.env.bunzip cfg.body).1, _, ix, ⟨o.mono, Prod.ext rfl o.complete, ?_⟩, p4, p5⟩
  unfold compileText
  rw [h1]
  simp [p1, p2, p3]

/-- C104, where it holds: while the updates are in order none of them fails, and once one of them has saved the index and
none is saving it, the index is that of the server's document, whatever files there were before. -/
theorem C104_partial (cfg : UpdCfg) (doc : List Xml) (ho : Offers cfg doc) (files : FName → Option Str)
    (sched : List UpdEv) (h : InTurn cfg files sched) :
    let s := (UpdState.start files).run cfg sched
    (∀ i, s.proc i ≠ .failed) ∧ ((∃ i, s.proc i = .done) → (∀ i, ¬ (s.proc i).Saves) → s.Serves doc) := by
  obtain ⟨text, index, ix, sv, hl, hs⟩ := ho.serveable
  have v := UInv.run sv h
  refine ⟨fun i hi => ?_, fun hd hn => ?_⟩
  · have := v.ok i
    rw [hi] at this
    exact this
  · obtain ⟨k, h1, h2⟩ := v.idx hd hn
    exact ⟨index, ix, by rw [UpdState.file, h1, ← h2]; rfl, hl, hs⟩

theorem UpdProc.busy {p : UpdProc} : (p.Downloads ∨ p.ReadsArchive ∨ p.Unpacks ∨ p.Parses ∨ p.Saves) → ¬ p.Rests := by
  cases p <;> simp [UpdProc.Downloads, UpdProc.ReadsArchive, UpdProc.Unpacks, UpdProc.Parses, UpdProc.Saves, UpdProc.Rests]

/-- Updates that run one after another are in order. -/
theorem OneByOne.inTurn {cfg : UpdCfg} {files : FName → Option Str} {sched : List UpdEv}
    (hw : ∀ e ∈ sched, e.Works) (h : OneByOne cfg files sched) : InTurn cfg files sched where
  works := hw
  apart pre hp i j hij := by
    have key : ∀ {P Q : Prop}, (P → ¬ (((UpdState.start files).run cfg pre).proc i).Rests) →
        (Q → ¬ (((UpdState.start files).run cfg pre).proc j).Rests) → P → ¬ Q :=
      fun hp' hq p q => hij (h pre hp i j (hp' p) (hq q))
    refine ⟨fun a => ⟨?_, ?_⟩, fun a => ⟨?_, ?_⟩, ?_⟩
    · exact key (fun x => UpdProc.busy (.inl x)) (fun x => UpdProc.busy (.inl x)) a
    · exact key (fun x => UpdProc.busy (.inl x)) (fun x => UpdProc.busy (.inr (.inl x))) a
    · exact key (fun x => UpdProc.busy (.inr (.inr (.inl x)))) (fun x => UpdProc.busy (.inr (.inr (.inl x)))) a
    · exact key (fun x => UpdProc.busy (.inr (.inr (.inl x)))) (fun x => UpdProc.busy (.inr (.inr (.inr (.inl x))))) a
    · exact key (fun x => UpdProc.busy (.inr (.inr (.inr (.inr x))))) (fun x => UpdProc.busy (.inr (.inr (.inr (.inr x)))))
  forced pre i hp hf hi j := by
    by_contra hj
    have hij : j ≠ i := by
      rintro rfl
      rw [hi] at hj
      exact hj trivial
    refine hij (h (pre ++ [.step i]) hp j i ?_ ?_)
    · rw [urun_append]
      have : (((UpdState.start files).run cfg pre).run cfg [.step i]).proc j = ((UpdState.start files).run cfg pre).proc j := by
        show (((UpdState.start files).run cfg pre).step cfg i).proc j = _
        unfold UpdState.step
        rw [hi]
        simp only [hf, if_true]
        split <;> exact ugoto_ne _ _ hij
      rw [this]
      exact hj
    · rw [urun_append]
      show ¬ ((((UpdState.start files).run cfg pre).step cfg i).proc i).Rests
      unfold UpdState.step
      rw [hi]
      simp only [hf, if_true]
      split <;> rw [ugoto_self] <;> exact id

/-- C104 for updates that run one after another, whoever was told to recompile. -/
theorem C104_serial (cfg : UpdCfg) (doc : List Xml) (ho : Offers cfg doc) (files : FName → Option Str)
    (sched : List UpdEv) (hw : ∀ e ∈ sched, e.Works) (h : OneByOne cfg files sched) :
    let s := (UpdState.start files).run cfg sched
    (∀ i, s.proc i ≠ .failed) ∧ ((∃ i, s.proc i = .done) → (∀ i, ¬ (s.proc i).Saves) → s.Serves doc) :=
  C104_partial cfg doc ho files sched (h.inTurn hw)

/-! ## What is reported is true, in any schedule and with any faults -/

/-- What is or was saved is so. -/
def UpdProc.Made (Q : Str → Bool → Prop) : UpdProc → Prop
  | .toSave b ok => Q b ok
  | .saving _ _ b ok => Q b ok
  | .done => ∃ b, Q b true
  | _ => True

theorem made_next {Q : Str → Bool → Prop} {cfg : UpdCfg} {s : UpdState} {e : UpdEv} {i : Nat} (h : (s.proc i).Made Q)
    (hc : ∀ k got b ok, e = .step i → s.proc i = .parsing k got → (s.disk.data k)[got.length]? = none →
      compileText cfg.env got = some (b, ok) → Q b ok) : ((s.next cfg e).proc i).Made Q := by
  have go : ∀ {s' : UpdState} {j : Nat} {p : UpdProc}, s'.proc = s.proc → (j = i → p.Made Q) → ((s'.goto j p).proc i).Made Q := by
    intro s' j p hs hp
    by_cases hij : i = j
    · subst hij; rw [ugoto_self]; exact hp rfl
    · rw [ugoto_ne _ _ hij, hs]; exact h
  have hah : ∀ j, ((s.ahead j).proc i).Made Q := by
    intro j
    unfold UpdState.ahead
    split
    · split <;> exact go rfl fun _ => trivial
    · exact h
  cases e with
  | ahead j => exact hah j
  | die j => exact go rfl fun _ => trivial
  | fail j =>
    change ((s.fail cfg j).proc i).Made Q
    unfold UpdState.fail
    split <;> (repeat' split) <;> first | exact go rfl fun _ => trivial | exact h
  | step j =>
    change ((s.step cfg j).proc i).Made Q
    unfold UpdState.step
    split
    case h_9 k got hp =>
      split
      · exact go rfl fun _ => trivial
      · rename_i hn
        split
        · rename_i b ok hb
          refine go rfl fun hij => ?_
          subst hij
          exact hc k got b ok rfl hp hn hb
        · exact go rfl fun _ => trivial
    case h_10 b ok hp =>
      refine go rfl fun hij => ?_
      subst hij
      rw [hp] at h; exact h
    case h_11 k pos b ok hp =>
      split
      · refine go rfl fun hij => ?_
        subst hij
        rw [hp] at h; exact h
      · split
        · rename_i hok
          refine go rfl fun hij => ?_
          subst hij
          rw [hp, hok] at h; exact ⟨b, h⟩
        · exact go rfl fun _ => trivial
    all_goals (repeat' split) <;> first | exact go rfl fun _ => trivial | exact hah _ | exact h

/-- C104, what success means, whatever the others do and whatever fails: a process that reports it has saved the index has
read a text to its end, and compiled all of it. -/
theorem C104_compiled (cfg : UpdCfg) (files : FName → Option Str) (sched : List UpdEv) (i : Nat)
    (h : ((UpdState.start files).run cfg sched).proc i = .done) :
    ∃ a b k got bytes, sched = a ++ .step i :: b ∧ ((UpdState.start files).run cfg a).proc i = .parsing k got ∧
      got.length ≥ (((UpdState.start files).run cfg a).disk.data k).length ∧ compileText cfg.env got = some (bytes, true) := by
  have key : ∀ sched, (((UpdState.start files).run cfg sched).proc i).Made fun bytes ok =>
      ∃ a b k got, sched = a ++ .step i :: b ∧ ((UpdState.start files).run cfg a).proc i = .parsing k got ∧
        got.length ≥ (((UpdState.start files).run cfg a).disk.data k).length ∧ compileText cfg.env got = some (bytes, ok) := by
    intro sched
    induction sched using List.reverseRecOn with
    | nil => exact trivial
    | append_singleton sched e ih =>
      rw [urun_append]
      refine made_next ?_ ?_
      · revert ih
        cases ((UpdState.start files).run cfg sched).proc i with
        | toSave b ok => rintro ⟨a, b, k, got, rfl, x⟩; exact ⟨a, b ++ [e], k, got, by simp, x⟩
        | saving _ _ b ok => rintro ⟨a, b, k, got, rfl, x⟩; exact ⟨a, b ++ [e], k, got, by simp, x⟩
        | done => rintro ⟨bs, a, b, k, got, rfl, x⟩; exact ⟨bs, a, b ++ [e], k, got, by simp, x⟩
        | _ => exact id
      · intro k got b ok he hp hn hb
        exact ⟨sched, [], k, got, by rw [he], hp, List.getElem?_eq_none_iff.1 hn, hb⟩
  have := key sched
  rw [h] at this
  obtain ⟨bytes, a, b, k, got, x⟩ := this
  exact ⟨a, b, k, got, bytes, x⟩

/-- The process will not report success. -/
def UpdProc.Lost : UpdProc → Prop
  | .removing => True
  | .failed => True
  | .upToDate => True
  | .dead => True
  | _ => False

theorem lost_next {cfg : UpdCfg} {s : UpdState} {e : UpdEv} {i : Nat} (h : (s.proc i).Lost) : ((s.next cfg e).proc i).Lost := by
  have go : ∀ {s' : UpdState} {j : Nat} {p : UpdProc}, s'.proc = s.proc → (j = i → p.Lost) → ((s'.goto j p).proc i).Lost := by
    intro s' j p hs hp
    by_cases hij : i = j
    · subst hij; rw [ugoto_self]; exact hp rfl
    · rw [ugoto_ne _ _ hij, hs]; exact h
  have no : ∀ {j : Nat} {p : UpdProc}, s.proc j = p → ¬ p.Lost → j ≠ i := by
    rintro j p hp hn rfl
    rw [hp] at h; exact hn h
  have hah : ∀ j, ((s.ahead j).proc i).Lost := by
    intro j
    unfold UpdState.ahead
    split
    · rename_i hp
      have := no hp id
      split <;> exact go rfl fun e => absurd e this
    · exact h
  cases e with
  | ahead j => exact hah j
  | die j => exact go rfl fun _ => trivial
  | fail j =>
    change ((s.fail cfg j).proc i).Lost
    unfold UpdState.fail
    split
    case h_1 hp =>
      have := no hp id
      (repeat' split) <;> exact go rfl fun e => absurd e this
    all_goals first | exact go rfl fun _ => trivial | exact h
  | step j =>
    change ((s.step cfg j).proc i).Lost
    unfold UpdState.step
    split
    case h_12 => exact go rfl fun _ => trivial
    case h_13 => exact h
    all_goals
      rename_i hp
      have := no hp id
      (repeat' split) <;> first | exact go rfl fun e => absurd e this | exact hah _

theorem lost_run {cfg : UpdCfg} {i : Nat} (sched : List UpdEv) : ∀ {s : UpdState}, (s.proc i).Lost →
    ((s.run cfg sched).proc i).Lost := by
  induction sched with
  | nil => intro s h; exact h
  | cons e sched ih => intro s h; exact ih (s := s.next cfg e) (lost_next h)

/-- C104, faults are reported: if a call of a process fails, the process does not report that it has saved the index, whatever
it and the others do afterwards, unless it had reported it before, or it was the very first check that failed, the process was
told to recompile, and there was a text or an archive to go on with. -/
theorem C104_faults (cfg : UpdCfg) (files : FName → Option Str) (a b : List UpdEv) (i : Nat)
    (h : ((UpdState.start files).run cfg (a ++ .fail i :: b)).proc i = .done) :
    (((UpdState.start files).run cfg a).proc i = .start ∧ cfg.force i = true ∧
      (((UpdState.start files).run cfg a).file .xml ≠ none ∨ ((UpdState.start files).run cfg a).file .archive ≠ none)) ∨
    ((UpdState.start files).run cfg a).proc i = .done := by
  by_contra hn
  push Not at hn
  rw [urun_append] at h
  have hl : ((((UpdState.start files).run cfg a).next cfg (.fail i)).proc i).Lost := by
    generalize (UpdState.start files).run cfg a = s at hn
    change ((s.fail cfg i).proc i).Lost
    unfold UpdState.fail
    split
    · rename_i hp
      have hx := hn.1 hp
      split
      · rename_i hc
        simp only [Bool.and_eq_true, Option.isSome_iff_exists] at hc
        obtain ⟨hf, k, hk⟩ := hc
        exact absurd (hx hf).1 (by simp [UpdState.file, hk])
      · split
        · rename_i hc
          simp only [Bool.and_eq_true, Option.isSome_iff_exists] at hc
          obtain ⟨hf, k, hk⟩ := hc
          exact absurd (hx hf).2 (by simp [UpdState.file, hk])
        · rw [ugoto_self]; trivial
    · rw [ugoto_self]; trivial
    · rename_i hp; exact absurd hp hn.2
    · rename_i hp; rw [hp]; trivial
    · rename_i hp; rw [hp]; trivial
    · rw [ugoto_self]; trivial
  have := lost_run (cfg := cfg) b hl
  have e : (((UpdState.start files).run cfg a).next cfg (.fail i)).run cfg b =
      ((UpdState.start files).run cfg a).run cfg (.fail i :: b) := rfl
  rw [e, h] at this
  exact this

/-- Compiling is what `ParseUpdate` does (C57) when no call fails: it succeeds exactly if the text compiles to an index all of
which can be written, and that is what is saved. -/
theorem C104_same (env : Env) (w : World) (text : Str) (t : Int) (ht : w.fs.file .xml = some ⟨text, t⟩) (hd : w.fs.dir = true)
    (h1 : env.openErr w.n = false) (h2 : env.readable w.n = none) (h3 : ∀ n, env.createErr n = false)
    (h4 : ∀ n, env.room n = none) (bytes : Str) :
    compileText env text = some (bytes, true) ↔
      (parseUpdate env w).1 = .ok () ∧ ((parseUpdate env w).2.fs.file .compiled).map FileData.data = some bytes := by
  have ho : openFile env .xml w = (some (text, true), w.tick) := by
    unfold openFile
    rw [h1, ht, h2]
    simp [accepted]
  unfold parseUpdate compileText
  rw [ho]
  simp only
  generalize PState.run env.floatOK (PState.init Index.new 0) (env.tokens text).1 = q
  obtain ⟨s, e⟩ := q
  simp only
  by_cases hc : e = some .controlledStop ∨ e = none ∧ (env.tokens text).2 = true
  · rw [if_pos hc, if_pos (by simpa using hc)]
    unfold saveIndex createFile
    have hcr : ¬ (env.createErr w.tick.n = true ∨ w.tick.fs.dir = false) := by
      rw [h3]; simp [World.tick, hd]
    rw [if_neg hcr]
    simp only [h4, accepted]
    rcases ho' : s.ix.optimize with ⟨ix', o⟩
    cases o with
    | ok u =>
      cases hs : ix'.save.err with
      | none => simp [hs, World.grow, World.tick, World.set, FS.put]
      | some x => simp [hs]
    | err x => simp
    | panic => simp
    | diverge => simp
  · rw [if_neg hc, if_neg (by simpa using hc)]
    simp

/-! ## Two processes -/

/-- The sample archive, and who was told to recompile. -/
def sampleCfg (force : Nat → Bool) : UpdCfg := { env := goodServer, body := str "bz", force := force }

theorem sample_offers (force : Nat → Bool) : Offers (sampleCfg force) sampleDoc where
  archive := sample_archive
  complete := rfl
  mono := two_decoders.mono

/-- `n` steps of process `i`. -/
def turns (n i : Nat) : List UpdEv := List.replicate n (.step i)

instance : DecidablePred UpdProc.Downloads := fun p => by unfold UpdProc.Downloads; split <;> infer_instance
instance : DecidablePred UpdProc.ReadsArchive := fun p => by unfold UpdProc.ReadsArchive; split <;> infer_instance
instance : DecidablePred UpdProc.Unpacks := fun p => by unfold UpdProc.Unpacks; split <;> infer_instance
instance : DecidablePred UpdProc.Parses := fun p => by unfold UpdProc.Parses; split <;> infer_instance
instance : DecidablePred UpdProc.Saves := fun p => by unfold UpdProc.Saves; split <;> infer_instance
instance : DecidablePred UpdProc.Rests := fun p => by unfold UpdProc.Rests; split <;> infer_instance

/-- Two processes keep apart. -/
def UpdProc.Off (p q : UpdProc) : Prop :=
  (p.Downloads → ¬ q.Downloads ∧ ¬ q.ReadsArchive) ∧ (p.Unpacks → ¬ q.Unpacks ∧ ¬ q.Parses) ∧ (p.Saves → ¬ q.Saves)

instance (p q : UpdProc) : Decidable (p.Off q) := by unfold UpdProc.Off; infer_instance

/-- The processes 0 and 1 keep apart all along. -/
def watchApart (cfg : UpdCfg) : UpdState → List UpdEv → Bool
  | s, [] => decide ((s.proc 0).Off (s.proc 1) ∧ (s.proc 1).Off (s.proc 0))
  | s, e :: es => decide ((s.proc 0).Off (s.proc 1) ∧ (s.proc 1).Off (s.proc 0)) && watchApart cfg (s.next cfg e) es

/-- Only the processes 0 and 1 do anything. -/
def UpdEv.OfTwo : UpdEv → Prop
  | .step i => i < 2
  | .ahead i => i < 2
  | .fail i => i < 2
  | .die i => i < 2

instance : DecidablePred UpdEv.OfTwo := fun e => by unfold UpdEv.OfTwo; split <;> infer_instance
instance : DecidablePred UpdEv.Works := fun e => by unfold UpdEv.Works; split <;> infer_instance

theorem ahead_other (s : UpdState) {i j : Nat} (h : j ≠ i) : (s.ahead i).proc j = s.proc j := by
  unfold UpdState.ahead
  split
  · split <;> exact ugoto_ne _ _ h
  · rfl

theorem unext_other (cfg : UpdCfg) (s : UpdState) (e : UpdEv) (j : Nat) (he : e.OfTwo) (hj : 2 ≤ j) :
    (s.next cfg e).proc j = s.proc j := by
  cases e with
  | ahead i => exact ahead_other s (by have : i < 2 := he; omega)
  | die i => exact ugoto_ne _ _ (by have : i < 2 := he; omega)
  | fail i =>
    have h : j ≠ i := by have : i < 2 := he; omega
    show (s.fail cfg i).proc j = _
    unfold UpdState.fail
    split <;> (repeat' split) <;> first | rfl | exact ugoto_ne _ _ h
  | step i =>
    have h : j ≠ i := by have : i < 2 := he; omega
    show (s.step cfg i).proc j = _
    unfold UpdState.step
    split <;> (repeat' split) <;> first | rfl | exact ugoto_ne _ _ h | exact ahead_other s h

theorem urun_other (cfg : UpdCfg) : ∀ (sched : List UpdEv) (s : UpdState) (j : Nat), (∀ e ∈ sched, e.OfTwo) → 2 ≤ j →
    (s.run cfg sched).proc j = s.proc j
  | [], _, _, _, _ => rfl
  | e :: es, s, j, h, hj => by
    have := urun_other cfg es (s.next cfg e) j (fun x hx => h x (List.mem_cons_of_mem _ hx)) hj
    rw [unext_other cfg s e j (h e (by simp)) hj] at this
    exact this

theorem watch_apart {cfg : UpdCfg} : ∀ {sched : List UpdEv} {s : UpdState}, watchApart cfg s sched = true →
    ∀ pre, pre <+: sched → ((s.run cfg pre).proc 0).Off ((s.run cfg pre).proc 1) ∧
      ((s.run cfg pre).proc 1).Off ((s.run cfg pre).proc 0)
  | [], s, h, pre, hp => by
    obtain rfl := List.prefix_nil.1 hp
    exact of_decide_eq_true h
  | e :: es, s, h, pre, hp => by
    simp only [watchApart, Bool.and_eq_true] at h
    cases pre with
    | nil => exact of_decide_eq_true h.1
    | cons x pre =>
      obtain ⟨rfl, hp'⟩ := List.cons_prefix_cons.1 hp
      exact watch_apart h.2 pre hp'

theorem apart_of_watch {cfg : UpdCfg} {sched : List UpdEv} {files : FName → Option Str}
    (h : watchApart cfg (UpdState.start files) sched = true) (ht : ∀ e ∈ sched, e.OfTwo) :
    ∀ pre, pre <+: sched → ((UpdState.start files).run cfg pre).Apart := by
  intro pre hp i j hij
  obtain ⟨h0, h1⟩ := watch_apart h pre hp
  have hs : ∀ j, 2 ≤ j → ((UpdState.start files).run cfg pre).proc j = .start := fun j hj =>
    urun_other cfg pre _ j (fun e he => ht e (hp.subset he)) hj
  show (UpdProc.Off _ _)
  have off1 : ∀ p, UpdProc.Off .start p := fun p => ⟨fun h => h.elim, fun h => h.elim, fun h => h.elim⟩
  have off2 : ∀ p, UpdProc.Off p .start := fun p => ⟨fun _ => ⟨id, id⟩, fun _ => ⟨id, id⟩, fun _ => id⟩
  by_cases hi : 2 ≤ i
  · rw [hs i hi]; exact off1 _
  · by_cases hj : 2 ≤ j
    · rw [hs j hj]; exact off2 _
    · obtain ⟨rfl, rfl⟩ | ⟨rfl, rfl⟩ : (i = 0 ∧ j = 1) ∨ (i = 1 ∧ j = 0) := by omega
      · exact h0
      · exact h1

/-- Two updates that overlap in order: the second downloads while the first parses, and unpacks while the first saves. -/
def overlapping : List UpdEv :=
  turns 2 0 ++ turns 2 1 ++ turns 13 0 ++ turns 2 0 ++ turns 3 1 ++ turns 3 0 ++ turns 5 1 ++ turns 20 0 ++ turns 3 1 ++
    turns 150 0 ++ turns 170 1

theorem overlapping_inTurn : InTurn (sampleCfg fun _ => false) (fun _ => none) overlapping where
  works := by decide +kernel
  apart := apart_of_watch (by decide +kernel) (by decide +kernel)
  forced _ _ _ h := by cases h

/-- So `C104_partial` says something of it: both are done. -/
example : let s := (UpdState.start fun _ => none).run (sampleCfg fun _ => false) overlapping
    s.proc 0 = .done ∧ s.proc 1 = .done ∧ s.Serves sampleDoc := by
  have ⟨h0, h1⟩ : (fun s : UpdState => s.proc 0 = .done ∧ s.proc 1 = .done)
      ((UpdState.start fun _ => none).run (sampleCfg fun _ => false) overlapping) := by decide +kernel
  refine ⟨h0, h1, (C104_partial _ _ (sample_offers _) _ _ overlapping_inTurn).2 ⟨0, h0⟩ fun i => ?_⟩
  match i with
  | 0 => rw [h0]; exact id
  | 1 => rw [h1]; exact id
  | i + 2 => rw [urun_other _ _ _ _ (by decide +kernel) (by omega)]; exact id

/-- One of the processes 0 and 1 rests at any time. -/
def watchSerial (cfg : UpdCfg) : UpdState → List UpdEv → Bool
  | s, [] => decide ((s.proc 0).Rests ∨ (s.proc 1).Rests)
  | s, e :: es => decide ((s.proc 0).Rests ∨ (s.proc 1).Rests) && watchSerial cfg (s.next cfg e) es

theorem watch_serial {cfg : UpdCfg} : ∀ {sched : List UpdEv} {s : UpdState}, watchSerial cfg s sched = true →
    ∀ pre, pre <+: sched → ((s.run cfg pre).proc 0).Rests ∨ ((s.run cfg pre).proc 1).Rests
  | [], s, h, pre, hp => by
    obtain rfl := List.prefix_nil.1 hp
    exact of_decide_eq_true h
  | e :: es, s, h, pre, hp => by
    simp only [watchSerial, Bool.and_eq_true] at h
    cases pre with
    | nil => exact of_decide_eq_true h.1
    | cons x pre =>
      obtain ⟨rfl, hp'⟩ := List.cons_prefix_cons.1 hp
      exact watch_serial h.2 pre hp'

/-- Two updates one after another; the second was told to recompile. -/
def serial : List UpdEv := turns 180 0 ++ turns 165 1

theorem serial_oneByOne : OneByOne (sampleCfg fun i => i == 1) (fun _ => none) serial := by
  have hw : watchSerial (sampleCfg fun i => i == 1) (UpdState.start fun _ => none) serial = true := by decide +kernel
  have ht : ∀ e ∈ serial, e.OfTwo := by decide +kernel
  intro pre hp i j hi hj
  have hs : ∀ j, ¬ (((UpdState.start fun _ => none).run (sampleCfg fun i => i == 1) pre).proc j).Rests → j < 2 := by
    intro j hj
    by_contra h
    rw [urun_other _ pre _ j (fun e he => ht e (hp.subset he)) (by omega)] at hj
    exact hj trivial
  have h1 := hs i hi
  have h2 := hs j hj
  rcases watch_serial hw pre hp with h | h
  · have a : i ≠ 0 := by rintro rfl; exact hi h
    have b : j ≠ 0 := by rintro rfl; exact hj h
    omega
  · have a : i ≠ 1 := by rintro rfl; exact hi h
    have b : j ≠ 1 := by rintro rfl; exact hj h
    omega

/-- Both are done. -/
example : let s := (UpdState.start fun _ => none).run (sampleCfg fun i => i == 1) serial
    s.proc 0 = .done ∧ s.proc 1 = .done := by decide +kernel

/-- An index without tags is not that of the sample document. -/
theorem empty_serves_not {s : UpdState} (h : s.file .compiled = some Index.new.save.bytes) : ¬ s.Serves sampleDoc := by
  rintro ⟨bytes, ix, h1, h2, h3, -⟩
  obtain rfl := Option.some.inj (h.symm.trans h1)
  have ht : ∃ ix', Index.new.load Index.new.save.bytes = .ok (ix', []) ∧ ix'.tags = [] := ⟨_, rfl, rfl⟩
  obtain ⟨ix', e1, e2⟩ := ht
  rw [e1] at h2
  obtain rfl : ix' = ix := by cases h2; rfl
  rw [e2, sampleDoc_entries] at h3
  exact absurd h3 (by decide)

/-- Two updates: both find that one is needed; 1 downloads and unpacks; 0 downloads and empties the text to unpack it again;
1 parses the empty text; 0 finishes; 1 saves. -/
def emptying : List UpdEv := turns 2 0 ++ turns 2 1 ++ turns 13 1 ++ turns 6 0 ++ turns 2 1 ++ turns 170 0 ++ turns 45 1

/-- C104 is false of updates that overlap: without any fault, two updates that nobody told to recompile both report
success and leave an empty dictionary. From then on the archive counts as up to date, so that it stays. -/
theorem not_C104_empty : ∃ (cfg : UpdCfg) (sched : List UpdEv), Offers cfg sampleDoc ∧ (∀ i, cfg.force i = false) ∧
    (∀ e ∈ sched, e.Works) ∧
    let s := (UpdState.start fun _ => none).run cfg sched
    s.proc 0 = .done ∧ s.proc 1 = .done ∧ (∀ i, 2 ≤ i → s.proc i = .start) ∧ s.disk.needed = false ∧
    s.file .compiled = some Index.new.save.bytes ∧ ¬ s.Serves sampleDoc := by
  have hf : ((UpdState.start fun _ => none).run (sampleCfg fun _ => false) emptying).file .compiled =
      some Index.new.save.bytes := by decide +kernel
  exact ⟨sampleCfg fun _ => false, emptying, sample_offers _, fun _ => rfl, by decide +kernel, by decide +kernel, by decide +kernel,
    fun i hi => urun_other _ _ _ _ (by decide +kernel) hi, by decide +kernel, hf, empty_serves_not hf⟩

/-- An old archive, an old text without words, and no index. -/
def oldFiles : FName → Option Str
  | .archive => some (str "b")
  | .xml => some []
  | .compiled => none

/-- Two updates: 0 begins to download; 1 was told to recompile, finds the archive up to date and parses the old text;
0 finishes; 1 saves. -/
def recompiling : List UpdEv := turns 4 0 ++ turns 3 1 ++ turns 170 0 ++ turns 45 1

/-- C104 is false of a process that was told to recompile and begins while another one is at work, even if no file is ever
written that another process has open: both report success and leave the old dictionary. -/
theorem not_C104_forced : ∃ (cfg : UpdCfg) (files : FName → Option Str) (sched : List UpdEv), Offers cfg sampleDoc ∧
    (∀ e ∈ sched, e.Works) ∧ (∀ pre, pre <+: sched → ((UpdState.start files).run cfg pre).Apart) ∧
    let s := (UpdState.start files).run cfg sched
    s.proc 0 = .done ∧ s.proc 1 = .done ∧ (∀ i, 2 ≤ i → s.proc i = .start) ∧ s.disk.needed = false ∧
    (∃ text, files .xml = some text ∧ (compileText cfg.env text).map Prod.fst = s.file .compiled) ∧
    ¬ s.Serves sampleDoc := by
  have hf : ((UpdState.start oldFiles).run (sampleCfg fun i => i == 1) recompiling).file .compiled =
      some Index.new.save.bytes := by decide +kernel
  exact ⟨sampleCfg fun i => i == 1, oldFiles, recompiling, sample_offers _, by decide +kernel,
    apart_of_watch (by decide +kernel) (by decide +kernel), by decide +kernel, by decide +kernel,
    fun i hi => urun_other _ _ _ _ (by decide +kernel) hi, by decide +kernel, ⟨[], rfl, by rw [hf]; decide +kernel⟩,
    empty_serves_not hf⟩

/-- A process told to recompile goes on although the check fails, and saves the index of the text that is there. -/
example : ((UpdState.start oldFiles).run (sampleCfg fun _ => true) (.fail 0 :: turns 60 0)).proc 0 = .done := by decide +kernel

/-- A disk with a text, and calls that do not fail. -/
example : ∃ (env : Env) (w : World) (text bytes : Str), w.fs.file .xml = some ⟨text, 0⟩ ∧ w.fs.dir = true ∧
    env.openErr w.n = false ∧ env.readable w.n = none ∧ (∀ n, env.createErr n = false) ∧ (∀ n, env.room n = none) ∧
    compileText env text = some (bytes, true) :=
  ⟨goodServer, ⟨⟨true, fun f => if f = .xml then some ⟨(goodServer.bunzip (str "bz")).1, 0⟩ else none⟩, [], 0, []⟩, _,
    ((compileText goodServer (goodServer.bunzip (str "bz")).1).map Prod.fst).getD [], rfl, rfl, rfl, rfl, fun _ => rfl,
    fun _ => rfl, by decide +kernel⟩

end Verif
