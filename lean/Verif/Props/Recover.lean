import Verif.Spec.Recover
import Verif.Props.LoaderExact
import Verif.Props.Provenance

/-!
# C111: a data directory that failures spoilt can be put right

`Env.Offers`, `Restored`, `updates` and `Garbage` are in `Spec/Recover.lean`. The disk of the world `w` is arbitrary
throughout: whatever crashes, failed writes, error pages or earlier versions of the dictionary left there.
-/

namespace Verif

variable {env : Env} {t : Int} {text : Str} {doc : List Xml}

theorem Env.Offers.steady (o : env.Offers t text doc) : env.Steady (.answer 200 (.time t)) := ⟨o.calm.stat, o.head⟩

theorem Env.Offers.required (o : env.Offers t text doc) {w : World}
    (h : ∀ d, w.fs.file .archive = some d → d.mtime < t) (v : World) (hv : v.fs = w.fs) :
    (isUpdateRequired env v).1 = .ok true := by
  refine (C55_exact env v).2.2.1.2 ?_
  rw [hv]
  cases e : w.fs.file .archive with
  | none => exact .inl ⟨o.calm.stat _, rfl⟩
  | some d => exact .inr (.inr ⟨o.calm.stat _, d, t, rfl, o.head _, h d e⟩)

theorem Env.Offers.current (o : env.Offers t text doc) {w : World} {d : FileData}
    (hd : w.fs.file .archive = some d) (h : t ≤ d.mtime) : (isUpdateRequired env w).1 = .ok false :=
  (C55_exact env w).2.2.2.2 (.inr ⟨o.calm.stat _, d, t, hd, o.head _, h⟩)

/-- An index file that loads is restored by any disk that has it. -/
theorem restored_bytes {fs : FS} {b : Str} {tm : Int} {ix : Index} (h : fs.file .compiled = some ⟨b, tm⟩)
    (hl : Index.new.load b = .ok (ix, [])) (hs : ServesExactly doc ix) : Restored doc fs := by
  refine ⟨ix, (load_full h hl ?_).2, hs⟩
  intro q hq hne
  obtain ⟨r, hr⟩ := hq
  rw [← hr] at hl
  refine (Framed_load Index.new).strict_prefix (NoCrash_load Index.new) hl ?_
  rintro rfl
  rw [List.append_nil] at hr
  exact hne hr

/-- The index file of the document. -/
theorem Env.Offers.bytes (o : env.Offers t text doc) :
    ∃ b ix, compiledBytes env text = some b ∧ Index.new.load b = .ok (ix, []) ∧ ServesExactly doc ix := by
  obtain ⟨p1, p2, p3, ix, p4, p5⟩ := C44_exact env.floatOK doc o.valid o.declared o.room
  refine ⟨_, ix, ?_, p4, p5⟩
  unfold compiledBytes
  rw [o.tokens]
  simp only
  rw [if_pos ⟨.inr ⟨p1, trivial⟩, p2, p3⟩]

/-- A forced update with an archive that counts as current does nothing but compile. -/
theorem forced_compiles (cfg : LoaderCfg) {w : World} (hr : (isUpdateRequired env w).1 = .ok false) :
    ∃ v, v.fs = w.fs ∧ update cfg env true w = stepCompile env v := by
  obtain ⟨v, hv, k⟩ := update_paths cfg env true w
  rw [hr] at k
  simp only [reduceCtorEq, false_and, or_false, LRes.ok.injEq, Bool.false_eq_true, true_and, false_or, if_true] at k
  exact ⟨v, hv.1, k⟩

theorem garbage_fails (hc : env.Calm) {w : World} (h : ∀ x, w.fs.file .xml = some x → Garbage env x.data) :
    (stepCompile env w).1 = .err ∧ (stepCompile env w).2.fs = w.fs := by
  cases e : w.fs.file .xml with
  | none =>
    unfold stepCompile parseUpdate openFile
    rw [if_neg (by simp [hc.opens]), e]
    exact ⟨rfl, rfl⟩
  | some x =>
    obtain ⟨g1, g2⟩ := h x e
    unfold stepCompile parseUpdate
    rw [open_ok hc e]
    obtain ⟨s, er, he⟩ : ∃ s er, (PState.init Index.new 0).run env.floatOK (env.tokens x.data).1 = (s, er) := ⟨_, _, rfl⟩
    rw [he] at g1 g2
    simp only [he]
    rw [if_neg (by rintro (h | ⟨h, -, h'⟩); exacts [g1 h, by rw [g2 h] at h'; cases h'])]
    exact ⟨rfl, rfl⟩

/-- C111, if there is no archive, or one older than the server's: whatever else is on the disk, an update — forced or
not — returns nil, and `LoadIndex` returns an index that answers exactly what the published dictionary says. -/
theorem C111_partial (o : env.Offers t text doc) (force : Bool) (w : World)
    (h : ∀ d, w.fs.file .archive = some d → d.mtime < t) :
    (update ⟨true⟩ env force w).1 = .ok () ∧ Restored doc (update ⟨true⟩ env force w).2.fs := by
  obtain ⟨body, hg, hb⟩ := o.get
  obtain ⟨w', ix, e, -, hl, hs⟩ := C62_exact env force w o.calm (o.required h) body text hg hb doc o.tokens o.valid o.declared
    o.room
  rw [e]
  exact ⟨rfl, ix, hl, hs⟩

/-- C111, a way out that always works: remove the archive, then update. -/
theorem C111_remove (o : env.Offers t text doc) (force : Bool) (w : World) :
    (update ⟨true⟩ env force { w with fs := w.fs.put .archive none }).1 = .ok () ∧
    Restored doc (update ⟨true⟩ env force { w with fs := w.fs.put .archive none }).2.fs := by
  refine C111_partial o force _ ?_
  intro d hd
  rw [show ({ w with fs := w.fs.put .archive none } : World).fs.file .archive = none from put_self _ _ _] at hd
  cases hd

/-- C111, exactly: what an update does when the archive on the disk, whatever is in it, is not older than the server's.
Without force nothing. With force the text file is compiled, and nothing else is done: that restores the dictionary if the
file has the published text, and more generally if it compiles to an index file that serves the document; it fails and
leaves everything as it is if there is no such file or it is not a dictionary. -/
theorem C111_exact (o : env.Offers t text doc) (w : World) (d : FileData) (hd : w.fs.file .archive = some d)
    (ht : t ≤ d.mtime) (cfg : LoaderCfg) :
    ((update cfg env false w).1 = .ok () ∧ (update cfg env false w).2.fs = w.fs) ∧
    ((∀ x, w.fs.file .xml = some x → Garbage env x.data) →
      (update cfg env true w).1 = .err ∧ (update cfg env true w).2.fs = w.fs) ∧
    (∀ x b, w.fs.file .xml = some x → w.fs.dir = true → compiledBytes env x.data = some b →
      (update cfg env true w).1 = .ok () ∧ ∃ tm, (update cfg env true w).2.fs.file .compiled = some ⟨b, tm⟩) ∧
    (∀ x, w.fs.file .xml = some x → w.fs.dir = true → x.data = text →
      (update cfg env true w).1 = .ok () ∧ Restored doc (update cfg env true w).2.fs) := by
  have hr := o.current hd ht
  obtain ⟨v, hv, hu⟩ := forced_compiles cfg hr
  have key : ∀ x b, w.fs.file .xml = some x → w.fs.dir = true → compiledBytes env x.data = some b →
      (update cfg env true w).1 = .ok () ∧ ∃ tm, (update cfg env true w).2.fs.file .compiled = some ⟨b, tm⟩ := by
    intro x b hx hdir hb
    obtain ⟨w', tm, e, hcm⟩ := (parse_calm o.calm (w := v) (by rw [hv]; exact hdir) (by rw [hv]; exact hx)).1 b hb
    rw [hu]
    unfold stepCompile
    rw [e]
    exact ⟨rfl, tm, hcm⟩
  refine ⟨⟨(C45_up_to_date cfg env w hr).1, (C45_up_to_date cfg env w hr).2.1⟩, ?_, key, ?_⟩
  · intro h
    rw [hu]
    obtain ⟨a, b⟩ := garbage_fails o.calm (w := v) (by rw [hv]; exact h)
    exact ⟨a, b.trans hv⟩
  · intro x hx hdir hxt
    obtain ⟨b, ix, hb, hl, hs⟩ := o.bytes
    obtain ⟨a, tm, hcm⟩ := key x b hx hdir (by rw [hxt]; exact hb)
    exact ⟨a, restored_bytes hcm hl hs⟩

/-- C111, where there is no way out: while the archive on the disk is not older than the server's and the text file is
missing or not a dictionary, no number of updates, forced or not, changes anything. -/
theorem C111_stuck (o : env.Offers t text doc) (cfg : LoaderCfg) (flags : List Bool) (w : World) (d : FileData)
    (hd : w.fs.file .archive = some d) (ht : t ≤ d.mtime) (hx : ∀ x, w.fs.file .xml = some x → Garbage env x.data) :
    (updates cfg env flags w).fs = w.fs := by
  induction flags generalizing w with
  | nil => rfl
  | cons force rest ih =>
    have e : (update cfg env force w).2.fs = w.fs := by
      obtain ⟨a, b, -⟩ := C111_exact o w d hd ht cfg
      cases force with
      | false => exact a.2
      | true => exact (b hx).2
    rw [updates, ih _ (by rw [e]; exact hd) (by rw [e]; exact hx), e]

/-- What `LoadIndex` returns depends on the bytes of the compiled file only. -/
theorem loads_same {fs fs' : FS} {b : Str} {t1 t2 : Int} {ix : Index} (h : fs.file .compiled = some ⟨b, t1⟩)
    (h' : fs'.file .compiled = some ⟨b, t2⟩) (hl : LoadsTo fs ix) : LoadsTo fs' ix := by
  intro env v hv ho hr
  rw [← hl env { v with fs := fs } rfl ho hr]
  unfold loadIndex openFile
  simp only [ho, hv, h, h', Bool.false_eq_true, if_false]
  cases Index.new.load (accepted (env.readable v.n) b) <;> rfl

/-- The dictionary is restored, and compiling the text file gives the compiled file there is. -/
structure InOrder (env : Env) (t : Int) (doc : List Xml) (fs : FS) : Prop where
  dir : fs.dir = true
  archive : ∃ d, fs.file .archive = some d ∧ t ≤ d.mtime
  files : ∃ x b tm, fs.file .xml = some x ∧ compiledBytes env x.data = some b ∧ fs.file .compiled = some ⟨b, tm⟩
  restored : Restored doc fs

theorem InOrder.forced (o : env.Offers t text doc) (cfg : LoaderCfg) {w : World} (h : InOrder env t doc w.fs) :
    (update cfg env true w).1 = .ok () ∧ InOrder env t doc (update cfg env true w).2.fs := by
  obtain ⟨d, hd, ht⟩ := h.archive
  obtain ⟨x, b, tm, hx, hb, hcm⟩ := h.files
  obtain ⟨v, hv, hu⟩ := forced_compiles cfg (o.current hd ht)
  obtain ⟨w', tm', e, hcm'⟩ := (parse_calm o.calm (w := v) (by rw [hv]; exact h.dir) (by rw [hv]; exact hx)).1 b hb
  have hw := (parse_wrote env v).2
  rw [e] at hw
  obtain ⟨_, _, _, _, _, _, _, hsave⟩ := parse_ok e
  have hu' : update cfg env true w = (.ok (), w'.note (.compiled true)) := by
    rw [hu]; unfold stepCompile; rw [e]
  rw [hu']
  refine ⟨rfl, ⟨(save_dir hsave).2, ⟨d, ?_, ht⟩, ⟨x, b, tm', ?_, hb, hcm'⟩, ?_⟩⟩
  · show w'.fs.file .archive = _
    rw [hw.now (by simp), hv]; exact hd
  · show w'.fs.file .xml = _
    rw [hw.now (by simp), hv]; exact hx
  · obtain ⟨ix, hl, hs⟩ := h.restored
    exact ⟨ix, loads_same hcm hcm' hl, hs⟩

theorem InOrder.updates (o : env.Offers t text doc) (cfg : LoaderCfg) (flags : List Bool) {w : World}
    (h : InOrder env t doc w.fs) : InOrder env t doc (updates cfg env flags w).fs := by
  induction flags generalizing w with
  | nil => exact h
  | cons force rest ih =>
    refine ih ?_
    cases force with
    | true => exact (h.forced o cfg).2
    | false =>
      obtain ⟨d, hd, ht⟩ := h.archive
      rw [(C45_up_to_date cfg env w (o.current hd ht)).2.1]
      exact h

/-- C111, and it lasts: once an update has put the dictionary right and nothing was published since, no number of further
updates undoes it, forced or not, if the local clock is not behind the server's. -/
theorem C111_kept (o : env.Offers t text doc) (hclock : ∀ n, t ≤ env.now n) (force : Bool) (flags : List Bool) (w : World)
    (h : ∀ d, w.fs.file .archive = some d → d.mtime < t) :
    Restored doc (updates ⟨true⟩ env flags (update ⟨true⟩ env force w).2).fs := by
  obtain ⟨body, hg, hbz⟩ := o.get
  obtain ⟨w', ix, e, hev, hl, hs⟩ := C62_exact env force w o.calm (o.required h) body text hg hbz doc o.tokens o.valid
    o.declared o.room
  rw [e]
  refine (InOrder.updates o ⟨true⟩ flags (w := w') ⟨?_, ?_, ?_, ix, hl, hs⟩).restored
  all_goals
    rcases update_ok e with ⟨w0, w1, hp, he⟩ | ⟨-, hno⟩
    rotate_left
    · exact absurd (show Ev.compiled true ∈ w'.ev.drop w.ev.length by rw [hev, List.drop_left]; simp) (hno true)
    obtain ⟨d, s, er, hx0, hx1, -, -, hsave⟩ := parse_ok hp
  · rw [he]; exact (save_dir hsave).2
  · exact updated_archive o.steady hclock e
  · have hk := parse_calm o.calm (w := w0) (save_dir hsave).1 hx0
    cases hcb : compiledBytes env d.data with
    | none => have := hk.2 hcb; rw [hp] at this; cases this
    | some b =>
      obtain ⟨w2, t2, e2, c2⟩ := hk.1 b hcb
      rw [hp] at e2
      simp only [Prod.mk.injEq, true_and] at e2
      subst e2
      exact ⟨d, b, t2, by rw [he]; exact hx1, hcb, by rw [he]; exact c2⟩

/-- A server that had the dictionary, and a disk that was full while it was unpacked. -/
def fullDisk : Env := { goodServer with room := fun n => if n = 11 then some 1 else none }

theorem goodServer_offers : goodServer.Offers 10 (str "xml") sampleDoc :=
  ⟨quietEnv_calm _ _ _ _ _, fun _ => rfl, ⟨str "bz", fun _ => rfl, rfl⟩, rfl, sampleDoc_valid, sampleDoc_declared,
    sampleDoc_room⟩

/-- C111 fails: the disk was full while the first update unpacked the archive. After that nothing fails any more, yet no
number of updates, forced or not, makes a dictionary available. -/
theorem not_C111 : ∃ (broken healthy : Env) (t : Int) (text : Str) (doc : List Xml),
    healthy.Offers t text doc ∧ broken.get = healthy.get ∧ (update ⟨true⟩ broken false emptyWorld).1 = .err ∧
    ∀ flags, LoadFails (updates ⟨true⟩ healthy flags (update ⟨true⟩ broken false emptyWorld).2).fs := by
  refine ⟨fullDisk, goodServer, 10, str "xml", sampleDoc, goodServer_offers, rfl, by decide, fun flags => ?_⟩
  have hx : (update ⟨true⟩ fullDisk false emptyWorld).2.fs.file .xml = some ⟨str "x", 111⟩ := by decide
  have ha : (update ⟨true⟩ fullDisk false emptyWorld).2.fs.file .archive = some ⟨str "bz", 107⟩ := by decide
  have hc : (update ⟨true⟩ fullDisk false emptyWorld).2.fs.file .compiled = none := by decide
  generalize (update ⟨true⟩ fullDisk false emptyWorld).2 = w at hx ha hc ⊢
  rw [C111_stuck goodServer_offers ⟨true⟩ flags w _ ha (by decide) ?_]
  · exact load_missing hc
  · intro x h
    rw [hx] at h
    rw [← Option.some.inj h]
    exact ⟨by decide, fun _ => by decide⟩

/-- Removing the archive of that disk and updating puts it right, and further updates leave it right. -/
example (w : World) (_ : w = (update ⟨true⟩ fullDisk false emptyWorld).2) (flags : List Bool) :
    Restored sampleDoc (updates ⟨true⟩ goodServer flags
      (update ⟨true⟩ goodServer false { w with fs := w.fs.put .archive none }).2).fs := by
  refine C111_kept goodServer_offers (fun n => by show (10 : Int) ≤ 100 + n; omega) false flags _ ?_
  intro d hd
  rw [show ({ w with fs := w.fs.put .archive none } : World).fs.file .archive = none from put_self _ _ _] at hd
  cases hd

/-- A disk with an archive of an earlier dictionary and anything at all beside it meets the hypothesis of `C111_partial`. -/
example (x c : Option FileData) (force : Bool) : Restored sampleDoc (update ⟨true⟩ goodServer force
    { emptyWorld with fs := { dir := true, file := fun f => match f with
      | .archive => some ⟨str "old", 9⟩ | .xml => x | .compiled => c } }).2.fs :=
  (C111_partial goodServer_offers force _ (by rintro d ⟨⟩; decide)).2

/-- A disk with a current archive and the published text, but without or with any compiled file, meets the last case of
`C111_exact`: a forced update compiles it. -/
example (c : Option FileData) : Restored sampleDoc (update ⟨true⟩ goodServer true
    { emptyWorld with fs := { dir := true, file := fun f => match f with
      | .archive => some ⟨str "bz", 50⟩ | .xml => some ⟨str "xml", 51⟩ | .compiled => c } }).2.fs :=
  ((C111_exact goodServer_offers _ ⟨str "bz", 50⟩ rfl (by decide) ⟨true⟩).2.2.2 ⟨str "xml", 51⟩ rfl rfl rfl).2

end Verif
