import Verif.Spec.Provenance
import Verif.Lemmas.Loader

/-! # Helper lemmas: where the content of files comes from -/

namespace Verif

theorem PState.addForms_noStop (lg : List Str) (fs : List (Option WForm)) : ∀ (ix : Index),
    (PState.addForms lg ix fs).2 ≠ some .controlledStop := by
  induction fs with
  | nil => intro ix; simp [PState.addForms]
  | cons f fs ih =>
    intro ix
    cases f with
    | none => simp [PState.addForms]
    | some w =>
      unfold PState.addForms
      split
      · split
        · exact ih _
        · simp
        · simp
      · simp
      · simp

theorem PState.onStart_noStop (fo : Str → Bool) (s : PState) (as : List XAttr) (h : Handler) :
    (s.onStart fo as h).1.maxLemmas = s.maxLemmas ∧ (s.onStart fo as h).2 ≠ some .controlledStop := by
  cases h <;> simp only [PState.onStart] <;> (repeat' split) <;> simp

theorem PState.onEnd_noStop (s : PState) (h : Handler) (hm : s.maxLemmas ≤ 0) :
    (s.onEnd h).1.maxLemmas = s.maxLemmas ∧ (s.onEnd h).2 ≠ some .controlledStop := by
  cases h with
  | grammeme => simp only [PState.onEnd]; split <;> simp
  | f => simp only [PState.onEnd]; split <;> simp
  | lem =>
    simp only [PState.onEnd]
    split
    · simp
    · rename_i l _
      have := PState.addForms_noStop l.lg l.f s.ix
      split
      · rename_i e' he
        rw [he] at this
        exact ⟨rfl, this⟩
      · rw [if_neg (by omega)]
        exact ⟨rfl, by simp⟩
  | _ => simp [PState.onEnd]

theorem PState.token_noStop (fo : Str → Bool) (s : PState) (t : XTok) (h : s.maxLemmas ≤ 0) :
    (s.token fo t).1.maxLemmas = s.maxLemmas ∧ (s.token fo t).2 ≠ some .controlledStop := by
  cases t with
  | start n as =>
    simp only [PState.token, PState.startElement]
    split
    · simp
    · exact PState.onStart_noStop fo _ as _
  | chars d =>
    simp only [PState.token, PState.charData]
    (repeat' split) <;> simp
  | stop n =>
    simp only [PState.token, PState.endElement]
    split
    · simp
    · rename_i hd _
      have := PState.onEnd_noStop s hd h
      split
      · exact ⟨this.1, by simp⟩
      · exact this
  | other => simp [PState.token]

theorem PState.run_noStop (fo : Str → Bool) (ts : List XTok) : ∀ (s : PState), s.maxLemmas ≤ 0 →
    (s.run fo ts).2 ≠ some .controlledStop := by
  induction ts with
  | nil => intro s _; simp [PState.run]
  | cons t ts ih =>
    intro s hs
    obtain ⟨h1, h2⟩ := PState.token_noStop fo s t hs
    unfold PState.run
    cases ht : s.token fo t with
    | mk s' e =>
      rw [ht] at h1 h2
      cases e with
      | none => exact ih s' (by simp only at h1; omega)
      | some e => exact h2

/-- Every state of the disk between two worlds has the property if the first has. -/
def Keeps (P : FS → Prop) (w w' : World) : Prop :=
  ∃ l, w'.past = w.past ++ l ∧ (P w.fs → ∀ fs ∈ l ++ [w'.fs], P fs)

theorem Keeps.trans {P : FS → Prop} {a b c : World} (h : Keeps P a b) (k : Keeps P b c) : Keeps P a c := by
  obtain ⟨l, e, f⟩ := h
  obtain ⟨m, e', f'⟩ := k
  refine ⟨l ++ m, by rw [e', e, List.append_assoc], fun hp fs hfs => ?_⟩
  rw [List.append_assoc, List.mem_append] at hfs
  rcases hfs with hfs | hfs
  · exact f hp fs (List.mem_append_left _ hfs)
  · exact f' (f hp b.fs (by simp)) fs hfs

theorem Same.keeps {P : FS → Prop} {w w' : World} (h : Same w w') : Keeps P w w' := by
  refine ⟨[], by rw [h.2.1]; simp, fun hp fs hfs => ?_⟩
  simp only [List.nil_append, List.mem_singleton] at hfs
  rw [hfs, h.1]; exact hp

theorem note_keeps {P : FS → Prop} (w : World) (e : Ev) : Keeps P w (w.note e) := by
  refine ⟨[], by simp [World.note], fun hp fs hfs => ?_⟩
  simp only [World.note, List.nil_append, List.mem_singleton] at hfs
  rw [hfs]; exact hp

theorem set_keeps {P : FS → Prop} {w : World} {fs' : FS} (h : P w.fs → P fs') : Keeps P w (w.set fs') := by
  refine ⟨[w.fs], rfl, fun hp fs hfs => ?_⟩
  simp only [World.set, List.cons_append, List.nil_append, List.mem_cons, List.not_mem_nil, or_false] at hfs
  rcases hfs with rfl | rfl
  · exact hp
  · exact h hp

theorem Keeps.passed {P : FS → Prop} {w w' : World} {fs : FS} (h : Keeps P w w') (hp : P w.fs) (k : Passed w w' fs) : P fs := by
  obtain ⟨l, e, f⟩ := h
  obtain ⟨m, e', hm⟩ := k
  rw [e', List.append_right_inj] at e
  rw [e] at hm
  exact f hp fs hm

/-- A condition on the content of each file. -/
def Content (Q : FName → Str → Prop) (fs : FS) : Prop := ∀ f d, fs.file f = some d → Q f d.data

theorem Content.put {Q : FName → Str → Prop} {fs : FS} (h : Content Q fs) (f : FName) (d : Option FileData)
    (hd : ∀ x, d = some x → Q f x.data) : Content Q (fs.put f d) := by
  intro g x hx
  unfold FS.put at hx
  simp only at hx
  by_cases hg : g = f
  · subst hg
    rw [if_pos rfl] at hx
    exact hd x hx
  · rw [if_neg hg] at hx
    exact h g x hx

theorem mkdir_keeps {Q : FName → Str → Prop} (cfg : LoaderCfg) (env : Env) (w : World) :
    Keeps (Content Q) w (makeDataPath cfg env w).2 := by
  unfold makeDataPath
  split
  · exact (tick_same w).keeps
  · split
    · exact (set_keeps (w := w) (fs' := { w.fs with dir := true }) fun h => h).trans (tick_same _).keeps
    · exact (tick_same w).keeps

theorem create_keeps {Q : FName → Str → Prop} (env : Env) (f : FName) (w : World) (hQ : Q f []) :
    Keeps (Content Q) w (createFile env f w).2 := by
  unfold createFile
  split
  · exact (tick_same w).keeps
  · exact (set_keeps fun h => h.put f _ (by rintro x ⟨⟩; exact hQ)).trans (tick_same _).keeps

theorem grow_keeps {Q : FName → Str → Prop} (w : World) (f : FName) (bytes : Str) (t : Int)
    (hQ : ∀ p, p <+: bytes → Q f p) : Keeps (Content Q) w (w.grow f bytes t) := by
  refine ⟨_, rfl, fun hp fs hfs => ?_⟩
  simp only [World.grow, List.cons_append, List.mem_cons, List.mem_append, List.mem_map, List.not_mem_nil,
    or_false] at hfs
  rcases hfs with rfl | ⟨i, -, rfl⟩ | rfl
  · exact hp
  · exact hp.put f _ (by rintro x ⟨⟩; exact hQ _ (List.take_prefix _ _))
  · exact hp.put f _ (by rintro x ⟨⟩; exact hQ _ (List.prefix_refl _))

theorem copy_keeps {Q : FName → Str → Prop} (env : Env) (f : FName) (bytes : Str) (c : Bool) (w : World)
    (hQ : ∀ p, p <+: bytes → Q f p) : Keeps (Content Q) w (copyTo env f bytes c w).2 := by
  unfold copyTo
  exact (grow_keeps _ _ _ _ fun p hp => hQ p (hp.trans (accepted_prefix _ _))).trans (tick_same _).keeps

theorem remove_keeps {Q : FName → Str → Prop} (env : Env) (f : FName) (w : World) :
    Keeps (Content Q) w (removeFile env f w) := by
  unfold removeFile
  split
  · exact (tick_same w).keeps
  · exact (set_keeps fun h => h.put f none (by simp)).trans (tick_same _).keeps

/-- Where the content of each file comes from. -/
def Origin (E : Env → Prop) : FName → Str → Prop
  | .archive, a => Sent E a
  | .xml, x => UnpackedFrom E x
  | .compiled, c => ∃ ix, CompiledFrom E ix ∧ c <+: ix.save.bytes

theorem Sent.pre {E : Env → Prop} {a b : Str} (h : Sent E a) (hb : b <+: a) : Sent E b := by
  obtain ⟨env, n, st, body, c, he, hg, ha⟩ := h
  exact ⟨env, n, st, body, c, he, hg, hb.trans ha⟩

theorem UnpackedFrom.pre {E : Env → Prop} {a b : Str} (h : UnpackedFrom E a) (hb : b <+: a) : UnpackedFrom E b := by
  obtain ⟨env, n, he, hg, ha⟩ := h
  exact ⟨env, n, he, hg, hb.trans ha⟩

theorem download_keeps {E : Env → Prop} (cfg : LoaderCfg) {env : Env} (he : E env) (w : World) :
    Keeps (Content (Origin E)) w (downloadUpdate cfg env w).2 := by
  unfold downloadUpdate
  have h1 := (required_same env w).keeps (P := Content (Origin E))
  cases e1 : isUpdateRequired env w with
  | mk r w1 =>
    rw [e1] at h1
    cases r with
    | err => exact h1
    | panic => exact h1
    | ok b =>
      cases b with
      | false => exact h1
      | true =>
        simp only
        have h2 := h1.trans (mkdir_keeps cfg env w1)
        cases e2 : makeDataPath cfg env w1 with
        | mk b w2 =>
          rw [e2] at h2
          cases b with
          | false => exact h2
          | true =>
            simp only
            cases e3 : env.get w2.n with
            | fail => exact h2.trans (tick_same _).keeps
            | answer st body c =>
              have hQ : ∀ p, p <+: body → Origin E .archive p := fun p hp => ⟨env, _, st, body, c, he, e3, hp⟩
              simp only
              have h3 := (h2.trans (tick_same _).keeps).trans (create_keeps env .archive w2.tick (hQ [] List.nil_prefix))
              cases e4 : createFile env .archive w2.tick with
              | mk b w3 =>
                rw [e4] at h3
                cases b with
                | false => exact h3
                | true =>
                  simp only
                  have h4 := h3.trans (copy_keeps env .archive body c w3 hQ)
                  cases e5 : copyTo env .archive body c w3 with
                  | mk b w4 =>
                    rw [e5] at h4
                    cases b with
                    | false => exact h4
                    | true => exact h4

theorem Keeps.given {P : FS → Prop} {w w' : World} (h : P w.fs → Keeps P w w') (k : ∃ l, w'.past = w.past ++ l) :
    Keeps P w w' := by
  by_cases hp : P w.fs
  · exact h hp
  · obtain ⟨l, e⟩ := k
    exact ⟨l, e, fun h => absurd h hp⟩

theorem open_got {Q : FName → Str → Prop} {env : Env} {f : FName} {w w' : World} {got : Str} {whole : Bool}
    (h : Content Q w.fs) (e : openFile env f w = (some (got, whole), w')) : ∃ d, Q f d ∧ got <+: d := by
  unfold openFile at e
  split at e
  · cases e
  · split at e
    · cases e
    · rename_i d hd
      simp only [Prod.mk.injEq, Option.some.injEq] at e
      obtain ⟨⟨rfl, -⟩, -⟩ := e
      exact ⟨_, h f d hd, accepted_prefix _ _⟩

theorem unpack_keeps {E : Env → Prop} (cfg : LoaderCfg) {env : Env} (he : E env) (w : World) :
    Keeps (Content (Origin E)) w (unpackUpdate cfg env w).2 := by
  refine Keeps.given (fun hp => ?_) ⟨_, (unpack_wrote cfg env w).2.choose_spec.1⟩
  unfold unpackUpdate
  have h2 := mkdir_keeps (Q := Origin E) cfg env w
  cases e2 : makeDataPath cfg env w with
  | mk b w1 =>
    rw [e2] at h2
    cases b with
    | false => exact h2
    | true =>
      simp only
      have hp1 : Content (Origin E) w1.fs := by
        obtain ⟨l, -, f⟩ := h2
        exact f hp _ (by simp)
      have ho := open_same env .archive w1
      cases e3 : openFile env .archive w1 with
      | mk o w2 =>
        rw [e3] at ho
        simp only at ho
        subst ho
        cases o with
        | none => exact h2.trans (tick_same _).keeps
        | some x =>
          obtain ⟨bz, whole⟩ := x
          obtain ⟨d, hd, hbz⟩ := open_got hp1 e3
          have hQ : ∀ p, p <+: (env.bunzip bz).1 → Origin E .xml p := fun p hp => ⟨env, bz, he, Sent.pre hd hbz, hp⟩
          simp only
          have h3 := (h2.trans (tick_same _).keeps).trans (create_keeps env .xml w1.tick (hQ [] List.nil_prefix))
          cases e4 : createFile env .xml w1.tick with
          | mk b w3 =>
            rw [e4] at h3
            cases b with
            | false => exact h3
            | true =>
              simp only
              have h4 := h3.trans (copy_keeps env .xml (env.bunzip bz).1 (whole && (env.bunzip bz).2) w3 hQ)
              cases e5 : copyTo env .xml (env.bunzip bz).1 (whole && (env.bunzip bz).2) w3 with
              | mk b w4 =>
                rw [e5] at h4
                cases b with
                | false => exact h4
                | true => exact h4

theorem save_keeps {E : Env → Prop} {env : Env} {ix : Index} (hc : CompiledFrom E ix.optimize.1) (w : World) :
    Keeps (Content (Origin E)) w (saveIndex env ix w).2 := by
  have hQ : ∀ p, p <+: ix.optimize.1.save.bytes → Origin E .compiled p := fun p hp => ⟨_, hc, hp⟩
  unfold saveIndex
  have h3 := create_keeps env .compiled w (hQ [] List.nil_prefix)
  cases e4 : createFile env .compiled w with
  | mk b w1 =>
    rw [e4] at h3
    cases b with
    | false => exact h3
    | true =>
      simp only
      cases ho : ix.optimize with
      | mk ix' o =>
        rw [ho] at hQ
        have h4 := (h3.trans (grow_keeps w1 .compiled (accepted (env.room w1.n) ix'.save.bytes) (env.now w1.n)
          fun p hp => hQ p (hp.trans (accepted_prefix _ _)))).trans (tick_same _).keeps
        cases o with
        | ok u =>
          simp only
          split
          · exact h4.trans (remove_keeps _ _ _)
          · exact h4
        | err e => exact h3
        | panic => exact h3
        | diverge => exact h3

theorem parse_keeps {E : Env → Prop} {env : Env} (he : E env) (w : World) :
    Keeps (Content (Origin E)) w (parseUpdate env w).2 := by
  refine Keeps.given (fun hp => ?_) ⟨_, (parse_wrote env w).2.choose_spec.1⟩
  unfold parseUpdate
  have ho := open_same env .xml w
  cases e3 : openFile env .xml w with
  | mk o w1 =>
    rw [e3] at ho
    simp only at ho
    subst ho
    cases o with
    | none => exact (tick_same w).keeps
    | some x =>
      obtain ⟨bytes, whole⟩ := x
      obtain ⟨d, hd, hb⟩ := open_got hp e3
      simp only
      cases hr : (PState.init Index.new 0).run env.floatOK (env.tokens bytes).1 with
      | mk s e =>
        simp only
        have hstop : e ≠ some .controlledStop := by
          have := PState.run_noStop env.floatOK (env.tokens bytes).1 (PState.init Index.new 0) (by decide)
          rw [hr] at this
          exact this
        split
        · rename_i hc
          obtain ⟨rfl, -, ht⟩ := hc.resolve_left hstop
          have h := (tick_same w).keeps.trans (save_keeps (env := env) (E := E) (ix := s.ix)
            ⟨env, bytes, s, he, UnpackedFrom.pre hd hb, ht, hr, rfl⟩ w.tick)
          split
          · rename_i e'; rw [e'] at h; exact h
          · rename_i e'; rw [e'] at h; exact h
        · exact (tick_same w).keeps

theorem update_keeps {E : Env → Prop} (cfg : LoaderCfg) {env : Env} (he : E env) (force : Bool) (w : World) :
    Keeps (Content (Origin E)) w (update cfg env force w).2 := by
  have hcomp : ∀ v, Keeps (Content (Origin E)) v (stepCompile env v).2 := by
    intro v
    unfold stepCompile
    have h := parse_keeps (E := E) he v
    cases e : parseUpdate env v with
    | mk r w1 =>
      rw [e] at h
      cases r <;> exact h.trans (note_keeps _ _)
  have hunp : ∀ v, Keeps (Content (Origin E)) v (stepUnpack cfg env v).2 := by
    intro v
    unfold stepUnpack
    have h := unpack_keeps (E := E) cfg he v
    cases e : unpackUpdate cfg env v with
    | mk r w1 =>
      rw [e] at h
      cases r with
      | ok u => exact (h.trans (note_keeps _ _)).trans (hcomp _)
      | err => exact h.trans (note_keeps _ _)
      | panic => exact h.trans (note_keeps _ _)
  have hdl : ∀ v, Keeps (Content (Origin E)) v (stepDownload cfg env v).2 := by
    intro v
    unfold stepDownload
    have h := download_keeps (E := E) cfg he v
    cases e : downloadUpdate cfg env v with
    | mk r w1 =>
      rw [e] at h
      cases r with
      | ok b =>
        cases b with
        | true => exact (h.trans (note_keeps _ _)).trans (hunp _)
        | false => exact h.trans (note_keeps _ _)
      | err => exact h.trans (note_keeps _ _)
      | panic => exact h.trans (note_keeps _ _)
  unfold update
  have h1 := required_same env w
  cases e1 : isUpdateRequired env w with
  | mk r w1 =>
    rw [e1] at h1
    simp only at h1
    have key : ∀ g, Keeps (Content (Origin E)) w (match g with
        | Goto.compile => stepCompile env w1.tick.tick
        | .unpack => stepUnpack cfg env w1.tick.tick
        | .download => stepDownload cfg env w1.tick.tick
        | .ret true => (.ok (), w1.tick.tick)
        | .ret false => (.err, w1.tick.tick)).2 := by
      intro g
      have hs : Keeps (Content (Origin E)) w w1.tick.tick := ((h1.trans (tick_same _)).trans (tick_same _)).keeps
      match g with
      | .compile => exact hs.trans (hcomp _)
      | .unpack => exact hs.trans (hunp _)
      | .download => exact hs.trans (hdl _)
      | .ret true => exact hs
      | .ret false => exact hs
    have h2 := exists_same env .archive w1
    have h3 := exists_same env .xml w1.tick
    cases r with
    | panic => exact h1.keeps
    | err =>
      simp only [h2, h3]
      exact key _
    | ok b =>
      simp only [h2, h3]
      exact key _

end Verif
