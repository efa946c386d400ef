import Verif.Spec.Loader
import Verif.Lemmas.FileFormat

/-! # Lemmas about the loader -/

namespace Verif

/-! ## A file whose writing failed because of a bad tag name -/

theorem readName_len {s r : Str} {n : Str} (h : readName s = .ok (n, r)) : s.length = r.length + 4 := by
  unfold readName Rd.bind readBytes at h
  by_cases h4 : s.length < 4
  · rw [if_pos h4] at h; cases h
  · rw [if_neg h4] at h
    simp only [Out.bind] at h
    cases hu : unmarshalName (s.take 4) with
    | ok m =>
      rw [hu] at h
      simp only [Out.ok.injEq, Prod.mk.injEq] at h
      rw [← h.2, List.length_drop]; omega
    | err e => rw [hu] at h; cases h
    | panic => rw [hu] at h; cases h
    | diverge => rw [hu] at h; cases h

theorem readTag_len {s r : Str} {t : Tag} (h : readTag s = .ok (t, r)) : s.length = r.length + 8 := by
  unfold readTag Rd.bind at h
  cases h1 : readName s with
  | ok x =>
    obtain ⟨p, s1⟩ := x
    rw [h1] at h
    simp only [Out.bind] at h
    cases h2 : readName s1 with
    | ok y =>
      obtain ⟨n, s2⟩ := y
      rw [h2] at h
      simp only [Rd.pure, Out.ok.injEq, Prod.mk.injEq] at h
      have a := readName_len h1
      have b := readName_len h2
      rw [← h.2]; omega
    | err e => rw [h2] at h; cases h
    | panic => rw [h2] at h; cases h
    | diverge => rw [h2] at h; cases h
  | err e => rw [h1] at h; cases h
  | panic => rw [h1] at h; cases h
  | diverge => rw [h1] at h; cases h

theorem readN_tag_len (k : Nat) : ∀ {s r : Str} {ts : List Tag}, readN readTag k s = .ok (ts, r) →
    s.length = r.length + 8 * k := by
  induction k with
  | zero =>
    intro s r ts h
    simp only [readN, Rd.pure, Out.ok.injEq, Prod.mk.injEq] at h
    rw [h.2]; omega
  | succ k ih =>
    intro s r ts h
    unfold readN Rd.bind at h
    cases h1 : readTag s with
    | ok x =>
      obtain ⟨p, s1⟩ := x
      rw [h1] at h
      simp only [Out.bind] at h
      cases h2 : readN readTag k s1 with
      | ok y =>
        obtain ⟨n, s2⟩ := y
        rw [h2] at h
        simp only [Rd.pure, Out.ok.injEq, Prod.mk.injEq] at h
        have a := readTag_len h1
        have b := ih h2
        rw [← h.2]; omega
      | err e => rw [h2] at h; cases h
      | panic => rw [h2] at h; cases h
      | diverge => rw [h2] at h; cases h
    | err e => rw [h1] at h; cases h
    | panic => rw [h1] at h; cases h
    | diverge => rw [h1] at h; cases h

theorem writeName_len (g : Str) : (writeName g).bytes.length ≤ 4 ∧
    ((writeName g).err ≠ none → (writeName g).bytes = []) := by
  unfold writeName marshalName
  split <;> rename_i b hb
  · split at hb
    · cases hb; exact ⟨by simp [Wr.put], fun h => absurd rfl h⟩
    · split at hb
      · cases hb
      · cases hb
        refine ⟨?_, fun h => absurd rfl h⟩
        simp only [Wr.put]; omega
  · exact ⟨by simp, fun _ => rfl⟩
  · exact ⟨by simp [Wr.put], fun h => absurd rfl h⟩

theorem Wr.seq_bytes_none {a b : Wr} (h : a.err = none) : (Wr.seq a b).bytes = a.bytes ++ b.bytes := by
  unfold Wr.seq; rw [h]

theorem Wr.seq_of_err {a b : Wr} (h : a.err ≠ none) : Wr.seq a b = a := by
  unfold Wr.seq
  cases ha : a.err with
  | none => exact absurd ha h
  | some e => rfl

theorem writeTag_len (t : Tag) : (writeTag t).bytes.length ≤ 8 ∧
    ((writeTag t).err ≠ none → (writeTag t).bytes.length < 8) := by
  unfold writeTag
  have a := writeName_len t.parent
  have b := writeName_len t.name
  by_cases hp : (writeName t.parent).err = none
  · have e : (Wr.seq (writeName t.parent) (writeName t.name)).err = (writeName t.name).err := by
      unfold Wr.seq; rw [hp]
    rw [e, Wr.seq_bytes_none hp, List.length_append]
    refine ⟨by omega, ?_⟩
    intro h
    rw [b.2 h]; simp; omega
  · rw [Wr.seq_of_err hp, a.2 hp]; simp

theorem writeAllTags_len (ts : List Tag) : (Wr.all writeTag ts).err ≠ none →
    (Wr.all writeTag ts).bytes.length < 8 * ts.length := by
  induction ts with
  | nil => intro h; exact absurd rfl h
  | cons t ts ih =>
    unfold Wr.all
    have a := writeTag_len t
    by_cases hp : (writeTag t).err = none
    · have e : (Wr.seq (writeTag t) (Wr.all writeTag ts)).err = (Wr.all writeTag ts).err := by
        unfold Wr.seq; rw [hp]
      rw [e, Wr.seq_bytes_none hp, List.length_append]
      intro h
      have := ih h
      simp only [List.length_cons]; omega
    · rw [Wr.seq_of_err hp]
      intro _
      have := a.2 hp
      simp only [List.length_cons]; omega

/-- What is on the disk when saving fails because of a tag name. -/
theorem bad_save_bytes {ix : Index} (hs : ix.save.err ≠ none) :
    ∃ tl : Str, ix.save.bytes = 0x54 :: 0x44 :: 0 :: UInt8.ofNat ix.tags.length :: tl ∧
      tl.length < 8 * ix.tags.length := by
  have hb : (Wr.all writeTag ix.tags).err ≠ none := by
    intro h0
    apply hs
    rw [save_err]
    intro t ht
    have := (Wr.all_err _ _).1 h0 t ht
    exact (writeTag_err t).1 this
  have e1 : (Wr.seq (writeStringZ prefixTD) (writeTags ix.tags)).err ≠ none := by
    intro h0
    rw [Wr.seq_err, writeTags, Wr.seq_err] at h0
    exact hb h0.2.2
  refine ⟨(Wr.all writeTag ix.tags).bytes, ?_, writeAllTags_len _ hb⟩
  unfold Index.save
  rw [Wr.seq_of_err e1]
  rfl

/-- Such a file, or any part of it, cannot be loaded. -/
theorem load_bad_save {into ix : Index} (ht : ix.tags.length ≤ 255) (hs : ix.save.err ≠ none) (p : Str)
    (hp : p <+: ix.save.bytes) : ∃ e, into.load p = .err e := by
  rcases NoCrash_load into p with ⟨x, hx⟩ | h
  · exfalso
    obtain ⟨tl, hb, hlen⟩ := bad_save_bytes hs
    rw [hb] at hp
    unfold Index.load at hx
    rw [Rd.bind] at hx
    cases h1 : readSection prefixTD readTags p with
    | ok y =>
      obtain ⟨ts, r⟩ := y
      obtain ⟨q, hq⟩ := hp
      match p with
      | [] => cases h1
      | [a] =>
        obtain ⟨rfl, -⟩ := List.cons.inj hq
        cases h1
      | [a, b] =>
        obtain ⟨rfl, hq1⟩ := List.cons.inj hq
        obtain ⟨rfl, -⟩ := List.cons.inj hq1
        cases h1
      | [a, b, c] =>
        obtain ⟨rfl, hq1⟩ := List.cons.inj hq
        obtain ⟨rfl, hq2⟩ := List.cons.inj hq1
        obtain ⟨rfl, -⟩ := List.cons.inj hq2
        cases h1
      | a :: b :: c :: d :: p =>
        obtain ⟨rfl, hq1⟩ := List.cons.inj hq
        obtain ⟨rfl, hq2⟩ := List.cons.inj hq1
        obtain ⟨rfl, hq3⟩ := List.cons.inj hq2
        obtain ⟨rfl, hq4⟩ := List.cons.inj hq3
        have hp : p <+: tl := ⟨q, hq4⟩
        have h2 : readN readTag (UInt8.ofNat ix.tags.length).toNat p = .ok (ts, r) := h1
        have h3 := readN_tag_len _ h2
        have h4 : (UInt8.ofNat ix.tags.length).toNat = ix.tags.length := by
          rw [UInt8.toNat_ofNat']; exact Nat.mod_eq_of_lt (by omega)
        rw [h4] at h3
        have h5 := hp.length_le
        omega
    | err e => rw [h1] at hx; cases hx
    | panic => rw [h1] at hx; cases hx
    | diverge => rw [h1] at hx; cases hx
  · exact h

/-! ## What the steps touch -/

/-- Nothing changed but the number of calls. -/
def Same (w w' : World) : Prop := w'.fs = w.fs ∧ w'.past = w.past ∧ w'.ev = w.ev

theorem Same.refl (w : World) : Same w w := ⟨rfl, rfl, rfl⟩

theorem Same.trans {a b c : World} (h : Same a b) (k : Same b c) : Same a c :=
  ⟨k.1.trans h.1, k.2.1.trans h.2.1, k.2.2.trans h.2.2⟩

theorem tick_same (w : World) : Same w w.tick := ⟨rfl, rfl, rfl⟩

/-- Only the files in `S` were written, and no step was noted. -/
def Wrote (S : FName → Prop) (w w' : World) : Prop := w'.ev = w.ev ∧ Touched S w w'

theorem Same.wrote {S : FName → Prop} {w w' : World} (h : Same w w') : Wrote S w w' := by
  refine ⟨h.2.2, [], by rw [h.2.1]; simp, ?_⟩
  intro fs hfs g _
  simp only [List.nil_append, List.mem_singleton] at hfs
  rw [hfs, h.1]

theorem Touched.trans {S : FName → Prop} {a b c : World} (h : Touched S a b) (k : Touched S b c) :
    Touched S a c := by
  obtain ⟨l, e, f⟩ := h
  obtain ⟨m, e', f'⟩ := k
  refine ⟨l ++ m, by rw [e', e, List.append_assoc], ?_⟩
  intro fs hfs g hg
  rw [List.append_assoc, List.mem_append] at hfs
  rcases hfs with hfs | hfs
  · exact f fs (by simp [hfs]) g hg
  · rw [f' fs hfs g hg]
    exact f b.fs (by simp) g hg

theorem Wrote.trans {S : FName → Prop} {a b c : World} (h : Wrote S a b) (k : Wrote S b c) : Wrote S a c :=
  ⟨k.1.trans h.1, h.2.trans k.2⟩

theorem Touched.mono {S T : FName → Prop} (hST : ∀ g, S g → T g) {a b : World} (h : Touched S a b) :
    Touched T a b := by
  obtain ⟨l, e, f⟩ := h
  exact ⟨l, e, fun fs hfs g hg => f fs hfs g fun hs => hg (hST g hs)⟩

theorem Wrote.mono {S T : FName → Prop} (hST : ∀ g, S g → T g) {a b : World} (h : Wrote S a b) : Wrote T a b :=
  ⟨h.1, h.2.mono hST⟩

theorem set_wrote {S : FName → Prop} {w : World} {fs : FS} (h : ∀ g, ¬ S g → fs.file g = w.fs.file g) :
    Wrote S w (w.set fs) := by
  refine ⟨rfl, [w.fs], rfl, ?_⟩
  intro f hf g hg
  simp only [World.set, List.cons_append, List.nil_append, List.mem_cons, List.not_mem_nil, or_false] at hf
  rcases hf with rfl | rfl
  · rfl
  · exact h g hg

theorem put_other (fs : FS) {f g : FName} (d : Option FileData) (h : g ≠ f) : (fs.put f d).file g = fs.file g := by
  simp [FS.put, h]

theorem put_self (fs : FS) (f : FName) (d : Option FileData) : (fs.put f d).file f = d := by
  simp [FS.put]

theorem grow_wrote (w : World) (f : FName) (bytes : Str) (t : Int) : Wrote (· = f) w (w.grow f bytes t) := by
  refine ⟨rfl, _, rfl, ?_⟩
  intro fs hf g hg
  simp only [World.grow, List.cons_append, List.mem_cons, List.mem_append, List.mem_map, List.not_mem_nil,
    or_false] at hf
  rcases hf with rfl | ⟨i, -, rfl⟩ | rfl
  · rfl
  · exact put_other _ _ hg
  · exact put_other _ _ hg

theorem stat_same (env : Env) (f : FName) (w : World) : (statFile env f w).2 = w.tick := rfl

theorem exists_same (env : Env) (f : FName) (w : World) : (fileExists env f w).2 = w.tick := by
  unfold fileExists
  cases h : statFile env f w with
  | mk a b =>
    have hb : b = w.tick := by rw [← stat_same env f w, h]
    cases a <;> exact hb

theorem required_same (env : Env) (w : World) : Same w (isUpdateRequired env w).2 := by
  unfold isUpdateRequired
  cases h : statFile env .archive w with
  | mk a b =>
    have hb : b = w.tick := by rw [← stat_same env .archive w, h]
    subst hb
    cases a
    · exact tick_same w
    · exact (tick_same w).trans (tick_same _)
    · exact (tick_same w).trans (tick_same _)

theorem mkdir_wrote (cfg : LoaderCfg) (env : Env) (w : World) :
    Wrote (fun _ => False) w (makeDataPath cfg env w).2 := by
  unfold makeDataPath
  split
  · exact (tick_same w).wrote
  · split
    · exact (set_wrote (fun _ _ => rfl)).trans (tick_same _).wrote
    · exact (tick_same w).wrote

theorem create_wrote (env : Env) (f : FName) (w : World) : Wrote (· = f) w (createFile env f w).2 := by
  unfold createFile
  split
  · exact (tick_same w).wrote
  · exact (set_wrote (fun g hg => put_other _ _ hg)).trans (tick_same _).wrote

theorem copy_wrote (env : Env) (f : FName) (bytes : Str) (c : Bool) (w : World) :
    Wrote (· = f) w (copyTo env f bytes c w).2 := by
  unfold copyTo
  exact (grow_wrote _ _ _ _).trans (tick_same _).wrote

theorem open_same (env : Env) (f : FName) (w : World) : (openFile env f w).2 = w.tick := by
  unfold openFile
  split
  · rfl
  · split <;> rfl

theorem remove_wrote (env : Env) (f : FName) (w : World) : Wrote (· = f) w (removeFile env f w) := by
  unfold removeFile
  split
  · exact (tick_same w).wrote
  · exact (set_wrote (fun g hg => put_other _ _ hg)).trans (tick_same _).wrote

theorem download_wrote (cfg : LoaderCfg) (env : Env) (w : World) :
    Wrote (· = .archive) w (downloadUpdate cfg env w).2 := by
  unfold downloadUpdate
  have h1 := (required_same env w).wrote (S := (· = .archive))
  cases e1 : isUpdateRequired env w with
  | mk r w1 =>
    rw [e1] at h1
    cases r with
    | err => exact h1
    | panic => exact h1
    | ok b =>
      cases b with
      | false => exact h1
      | true =>
        simp only
        have h2 := (mkdir_wrote cfg env w1).mono (T := (· = .archive)) (fun _ h => h.elim)
        cases e2 : makeDataPath cfg env w1 with
        | mk b w2 =>
          rw [e2] at h2
          replace h2 := h1.trans h2
          cases b with
          | false => exact h2
          | true =>
            simp only
            cases e3 : env.get w2.n with
            | fail => exact h2.trans (tick_same _).wrote
            | answer st body c =>
              simp only
              have h3 := create_wrote env .archive w2.tick
              cases e4 : createFile env .archive w2.tick with
              | mk b w3 =>
                rw [e4] at h3
                replace h3 := (h2.trans (tick_same _).wrote).trans h3
                cases b with
                | false => exact h3
                | true =>
                  simp only
                  have h5 := copy_wrote env .archive body c w3
                  cases e5 : copyTo env .archive body c w3 with
                  | mk b w4 =>
                    rw [e5] at h5
                    replace h5 := h3.trans h5
                    cases b <;> exact h5

theorem unpack_wrote (cfg : LoaderCfg) (env : Env) (w : World) :
    Wrote (· = .xml) w (unpackUpdate cfg env w).2 := by
  unfold unpackUpdate
  have h2 := (mkdir_wrote cfg env w).mono (T := (· = .xml)) (fun _ h => h.elim)
  cases e2 : makeDataPath cfg env w with
  | mk b w2 =>
    rw [e2] at h2
    cases b with
    | false => exact h2
    | true =>
      simp only
      have ho := open_same env .archive w2
      cases e3 : openFile env .archive w2 with
      | mk o w3 =>
        rw [e3] at ho
        simp only at ho
        subst ho
        replace h2 := h2.trans (tick_same _).wrote
        cases o with
        | none => exact h2
        | some x =>
          obtain ⟨bz, wh⟩ := x
          simp only
          have h3 := create_wrote env .xml w2.tick
          cases e4 : createFile env .xml w2.tick with
          | mk b w3 =>
            rw [e4] at h3
            replace h3 := h2.trans h3
            cases b with
            | false => exact h3
            | true =>
              simp only
              have h5 := copy_wrote env .xml (env.bunzip bz).1 (wh && (env.bunzip bz).2) w3
              cases e5 : copyTo env .xml (env.bunzip bz).1 (wh && (env.bunzip bz).2) w3 with
              | mk b w4 =>
                rw [e5] at h5
                replace h5 := h3.trans h5
                cases b <;> exact h5

theorem save_wrote (env : Env) (ix : Index) (w : World) : Wrote (· = .compiled) w (saveIndex env ix w).2 := by
  unfold saveIndex
  have h3 := create_wrote env .compiled w
  cases e4 : createFile env .compiled w with
  | mk b w3 =>
    rw [e4] at h3
    cases b with
    | false => exact h3
    | true =>
      simp only
      split
      · rename_i ix' _
        have h4 := h3.trans ((grow_wrote w3 .compiled (accepted (env.room w3.n) ix'.save.bytes) (env.now w3.n)).trans
          (tick_same _).wrote)
        split
        · exact h4.trans (remove_wrote _ _ _)
        · exact h4
      · exact h3

theorem parse_wrote (env : Env) (w : World) : Wrote (· = .compiled) w (parseUpdate env w).2 := by
  unfold parseUpdate
  have ho := open_same env .xml w
  cases e3 : openFile env .xml w with
  | mk o w3 =>
    rw [e3] at ho
    simp only at ho
    subst ho
    cases o with
    | none => exact (tick_same _).wrote
    | some x =>
      obtain ⟨bz, wh⟩ := x
      simp only
      split
      · have h := save_wrote env (((PState.init Index.new 0).run env.floatOK (env.tokens bz).1).1).ix w.tick
        split <;> rename_i e <;> rw [e] at h <;> exact Wrote.trans (tick_same _).wrote h
      · exact (tick_same _).wrote

theorem parse_no_panic (env : Env) (w : World) : (parseUpdate env w).1 ≠ .panic := by
  unfold parseUpdate
  split
  · simp
  · simp only
    split
    · split <;> simp
    · simp

/-! ## The steps of `Update` -/

/-- From `w` the steps `es` were taken, with this result. -/
structure Took (w : World) (r : LRes Unit) (w' : World) (es : List Ev) : Prop where
  ev : w'.ev = w.ev ++ es
  ok : r = .ok () ↔ ∀ e ∈ es, e.good = true
  files : Touched (Writes es) w w'

theorem note_touched {S : FName → Prop} (w : World) (e : Ev) : Touched S w (w.note e) := by
  refine ⟨[], by simp [World.note], ?_⟩
  intro fs hfs g _
  simp only [World.note, List.nil_append, List.mem_singleton] at hfs
  rw [hfs]

theorem Took.cons {w w1 w' : World} {r : LRes Unit} {es : List Ev} {S : FName → Prop} (h : Wrote S w w1) (e : Ev)
    (hS : ∀ g, S g → Writes [e] g) (hg : e.good = true) (k : Took (w1.note e) r w' es) : Took w r w' (e :: es) := by
  refine ⟨?_, ?_, ?_⟩
  · rw [k.ev, World.note, h.1, List.append_assoc]; rfl
  · rw [k.ok]
    constructor
    · intro a x hx
      rcases List.mem_cons.1 hx with rfl | hx
      · exact hg
      · exact a x hx
    · intro a x hx
      exact a x (List.mem_cons_of_mem _ hx)
  · refine (h.2.mono ?_).trans ((note_touched _ _).trans (k.files.mono ?_))
    · intro g hgS
      have := hS g hgS
      cases g <;> simp only [Writes, List.mem_cons, List.not_mem_nil, or_false] at this ⊢ <;>
        obtain ⟨b, hb⟩ := this <;> exact ⟨b, .inl hb⟩
    · intro g hgw
      cases g <;> simp only [Writes, List.mem_cons] at hgw ⊢ <;> obtain ⟨b, hb⟩ := hgw <;> exact ⟨b, .inr hb⟩

theorem Took.one {w w1 : World} {r : LRes Unit} {S : FName → Prop} (h : Wrote S w w1) (e : Ev)
    (hS : ∀ g, S g → Writes [e] g) (hr : r = .ok () ↔ e.good = true) : Took w r (w1.note e) [e] := by
  refine ⟨?_, ?_, ?_⟩
  · rw [World.note, h.1]
  · rw [hr]; simp
  · exact (h.2.mono hS).trans (note_touched _ _)

theorem Took.same {w w1 w' : World} {r : LRes Unit} {es : List Ev} (h : Same w w1) (k : Took w1 r w' es) :
    Took w r w' es :=
  ⟨by rw [k.ev, h.2.2], k.ok, (h.wrote (S := Writes es)).2.trans k.files⟩

theorem compile_took (env : Env) (w : World) : ∃ b, Took w (stepCompile env w).1 (stepCompile env w).2 [.compiled b] := by
  unfold stepCompile
  have hw := parse_wrote env w
  cases e : parseUpdate env w with
  | mk r w1 =>
    rw [e] at hw
    cases r with
    | ok u => exact ⟨true, .one hw _ (by rintro g rfl; exact ⟨true, by simp⟩) (by simp [Ev.good])⟩
    | err => exact ⟨false, .one hw _ (by rintro g rfl; exact ⟨false, by simp⟩) (by simp [Ev.good])⟩
    | panic => exact ⟨false, .one hw _ (by rintro g rfl; exact ⟨false, by simp⟩) (by simp [Ev.good])⟩

theorem unpack_took (cfg : LoaderCfg) (env : Env) (w : World) :
    Took w (stepUnpack cfg env w).1 (stepUnpack cfg env w).2 [.unpacked false] ∨
    ∃ b, Took w (stepUnpack cfg env w).1 (stepUnpack cfg env w).2 [.unpacked true, .compiled b] := by
  unfold stepUnpack
  have hw := unpack_wrote cfg env w
  cases e : unpackUpdate cfg env w with
  | mk r w1 =>
    rw [e] at hw
    cases r with
    | ok u =>
      obtain ⟨b, hb⟩ := compile_took env (w1.note (.unpacked true))
      exact .inr ⟨b, .cons hw _ (by rintro g rfl; exact ⟨true, by simp⟩) rfl hb⟩
    | err => exact .inl (.one hw _ (by rintro g rfl; exact ⟨false, by simp⟩) (by simp [Ev.good]))
    | panic => exact .inl (.one hw _ (by rintro g rfl; exact ⟨false, by simp⟩) (by simp [Ev.good]))

theorem download_took (cfg : LoaderCfg) (env : Env) (w : World) :
    ∃ es, Took w (stepDownload cfg env w).1 (stepDownload cfg env w).2 es ∧
      (es = [.downloaded false] ∨ es = [.notUpdated] ∨ es = [.downloaded true, .unpacked false] ∨
        ∃ b, es = [.downloaded true, .unpacked true, .compiled b]) := by
  unfold stepDownload
  have hw := download_wrote cfg env w
  cases e : downloadUpdate cfg env w with
  | mk r w1 =>
    rw [e] at hw
    cases r with
    | err => exact ⟨_, .one hw _ (by rintro g rfl; exact ⟨false, by simp⟩) (by simp [Ev.good]), .inl rfl⟩
    | panic => exact ⟨_, .one hw _ (by rintro g rfl; exact ⟨false, by simp⟩) (by simp [Ev.good]), .inl rfl⟩
    | ok u =>
      cases u with
      | false =>
        have hs : Same w w1 := by
          unfold downloadUpdate at e
          have hr := required_same env w
          cases e1 : isUpdateRequired env w with
          | mk r w2 =>
            rw [e1] at e hr
            cases r with
            | err => cases e
            | panic => cases e
            | ok b =>
              cases b with
              | false => simp only [Prod.mk.injEq] at e; rw [← e.2]; exact hr
              | true =>
                exfalso
                simp only at e
                split at e
                · cases e
                · split at e
                  · cases e
                  · split at e
                    · cases e
                    · split at e <;> cases e
        exact ⟨_, .one (hs.wrote (S := fun _ => False)) _ (fun _ h => h.elim) (by simp [Ev.good]), .inr (.inl rfl)⟩
      | true =>
        rcases unpack_took cfg env (w1.note (.downloaded true)) with h | ⟨b, h⟩
        · exact ⟨_, .cons hw _ (by rintro g rfl; exact ⟨true, by simp⟩) rfl h, .inr (.inr (.inl rfl))⟩
        · exact ⟨_, .cons hw _ (by rintro g rfl; exact ⟨true, by simp⟩) rfl h, .inr (.inr (.inr ⟨b, rfl⟩))⟩

/-- Everything about the order of the steps. -/
theorem update_took (cfg : LoaderCfg) (env : Env) (force : Bool) (w : World) :
    (∃ es, Took w (update cfg env force w).1 (update cfg env force w).2 es ∧ es ≠ [] ∧
      (((isUpdateRequired env w).1 = .ok true ∧
          (es = [.downloaded false] ∨ es = [.notUpdated] ∨ es = [.downloaded true, .unpacked false] ∨
            ∃ b, es = [.downloaded true, .unpacked true, .compiled b])) ∨
        (force = true ∧ (isUpdateRequired env w).1 = .ok false ∧ ∃ b, es = [.compiled b]) ∨
        (force = true ∧ (isUpdateRequired env w).1 = .err ∧
          (es = [.unpacked false] ∨ (∃ b, es = [.unpacked true, .compiled b]) ∨ ∃ b, es = [.compiled b])))) ∨
    (Same w (update cfg env force w).2 ∧
      (((isUpdateRequired env w).1 = .panic ∧ (update cfg env force w).1 = .panic) ∨
       ((isUpdateRequired env w).1 = .err ∧ (update cfg env force w).1 = .err) ∨
       ((isUpdateRequired env w).1 = .ok false ∧ force = false ∧ (update cfg env force w).1 = .ok ()))) := by
  unfold update
  have h1 := required_same env w
  cases e1 : isUpdateRequired env w with
  | mk r w1 =>
    rw [e1] at h1
    simp only at h1
    cases r with
    | panic => exact .inr ⟨h1, .inl ⟨rfl, rfl⟩⟩
    | err =>
      simp only
      have h2 := exists_same env .archive w1
      cases e2 : fileExists env .archive w1 with
      | mk dl w2 =>
        rw [e2] at h2
        simp only at h2
        subst h2
        simp only
        have h3 := exists_same env .xml w1.tick
        cases e3 : fileExists env .xml w1.tick with
        | mk un w3 =>
          rw [e3] at h3
          simp only at h3
          subst h3
          simp only
          have hs : Same w w1.tick.tick := (h1.trans (tick_same _)).trans (tick_same _)
          cases force with
          | false => exact .inr ⟨hs, .inr (.inl ⟨trivial, rfl⟩)⟩
          | true =>
            cases un with
            | true =>
              obtain ⟨b, h⟩ := compile_took env w1.tick.tick
              exact .inl ⟨_, .same hs h, by simp, .inr (.inr ⟨rfl, trivial, .inr (.inr ⟨b, rfl⟩)⟩)⟩
            | false =>
              cases dl with
              | false => exact .inr ⟨hs, .inr (.inl ⟨trivial, rfl⟩)⟩
              | true =>
                rcases unpack_took cfg env w1.tick.tick with h | ⟨b, h⟩
                · exact .inl ⟨_, .same hs h, by simp, .inr (.inr ⟨rfl, trivial, .inl rfl⟩)⟩
                · exact .inl ⟨_, .same hs h, by simp, .inr (.inr ⟨rfl, trivial, .inr (.inl ⟨b, rfl⟩)⟩)⟩
    | ok req =>
      simp only
      have h2 := exists_same env .archive w1
      cases e2 : fileExists env .archive w1 with
      | mk dl w2 =>
        rw [e2] at h2
        simp only at h2
        subst h2
        simp only
        have h3 := exists_same env .xml w1.tick
        cases e3 : fileExists env .xml w1.tick with
        | mk un w3 =>
          rw [e3] at h3
          simp only at h3
          subst h3
          simp only
          have hs : Same w w1.tick.tick := (h1.trans (tick_same _)).trans (tick_same _)
          cases req with
          | true =>
            obtain ⟨es, h, hes⟩ := download_took cfg env w1.tick.tick
            refine .inl ⟨es, .same hs h, ?_, .inl ⟨rfl, hes⟩⟩
            rcases hes with rfl | rfl | rfl | ⟨b, rfl⟩ <;> simp
          | false =>
            cases force with
            | false => exact .inr ⟨hs, .inr (.inr ⟨rfl, rfl, rfl⟩)⟩
            | true =>
              obtain ⟨b, h⟩ := compile_took env w1.tick.tick
              exact .inl ⟨_, .same hs h, by simp, .inr (.inl ⟨rfl, rfl, b, rfl⟩)⟩

/-! ## Saving and loading the index file -/

theorem accepted_prefix (r : Option Nat) (b : Str) : accepted r b <+: b := by
  unfold accepted
  split
  · exact List.prefix_refl b
  · exact List.take_prefix _ _

theorem load_missing {fs : FS} (h : fs.file .compiled = none) : LoadFails fs := by
  intro env v hv
  unfold loadIndex openFile
  rw [hv, h]
  by_cases ho : env.openErr v.n = true
  · rw [if_pos ho]
  · rw [if_neg ho]

theorem load_prefix {fs : FS} {p : Str} {t : Int} (h : fs.file .compiled = some ⟨p, t⟩)
    (hq : ∀ q, q <+: p → ∃ e, Index.new.load q = .err e) : LoadFails fs := by
  intro env v hv
  unfold loadIndex openFile
  rw [hv, h]
  by_cases ho : env.openErr v.n = true
  · rw [if_pos ho]
  · rw [if_neg ho]
    simp only
    obtain ⟨e, he⟩ := hq _ (accepted_prefix (env.readable v.n) p)
    rw [he]

theorem load_full {fs : FS} {p : Str} {t : Int} {ix : Index} (h : fs.file .compiled = some ⟨p, t⟩)
    (hl : Index.new.load p = .ok (ix, [])) (hq : ∀ q, q <+: p → q ≠ p → ∃ e, Index.new.load q = .err e) :
    LoadsAtMost fs ix ∧ LoadsTo fs ix := by
  constructor
  · intro env v hv
    unfold loadIndex openFile
    rw [hv, h]
    by_cases ho : env.openErr v.n = true
    · rw [if_pos ho]; exact .inl rfl
    · rw [if_neg ho]
      simp only
      by_cases he : accepted (env.readable v.n) p = p
      · rw [he, hl]; exact .inr rfl
      · obtain ⟨e, he⟩ := hq _ (accepted_prefix (env.readable v.n) p) he
        rw [he]; exact .inl rfl
  · intro env v hv h1 h2
    unfold loadIndex openFile
    rw [hv, h, if_neg (by simp [h1]), h2]
    simp only [accepted, hl]

/-- A part of a saved file: either it cannot be loaded, or it is the whole file of a save without errors. -/
theorem prefix_cases {ix : Index} (hl : ix.InLimits) {p : Str} (hp : p <+: ix.save.bytes) :
    (∃ e, Index.new.load p = .err e) ∨ (p = ix.save.bytes ∧ ix.save.err = none) := by
  by_cases hs : ix.save.err = none
  · by_cases he : p = ix.save.bytes
    · exact .inr ⟨he, hs⟩
    · left
      obtain ⟨q, hq⟩ := hp
      have h := RT_load Index.new hl ((save_err ix).1 hs) []
      rw [List.append_nil, ← hq] at h
      refine (Framed_load Index.new).strict_prefix (NoCrash_load Index.new) h ?_
      rintro rfl
      rw [List.append_nil] at hq
      exact he hq
  · exact .inl (load_bad_save hl.tags hs p hp)

/-- A disk whose index file is a part of the saved bytes. -/
theorem state_cases {ix : Index} (hl : ix.InLimits) {fs : FS} {p : Str} {t : Int}
    (h : fs.file .compiled = some ⟨p, t⟩) (hp : p <+: ix.save.bytes) :
    LoadFails fs ∨ (p = ix.save.bytes ∧ ix.save.err = none ∧ ∃ ix', Index.new.load ix.save.bytes = .ok (ix', []) ∧
      LoadsAtMost fs ix' ∧ LoadsTo fs ix') := by
  by_cases hw : p = ix.save.bytes ∧ ix.save.err = none
  · obtain ⟨rfl, hs⟩ := hw
    have hld := RT_load Index.new hl ((save_err ix).1 hs) []
    rw [List.append_nil] at hld
    refine .inr ⟨rfl, hs, _, hld, load_full h hld ?_⟩
    intro q hq hne
    exact (prefix_cases hl hq).resolve_right fun x => hne x.1
  · left
    refine load_prefix h ?_
    intro q hq
    rcases prefix_cases hl (hq.trans hp) with he | ⟨hqe, hs⟩
    · exact he
    · exfalso
      apply hw
      refine ⟨?_, hs⟩
      have h1 := hq.length_le
      have h2 := hp.length_le
      rw [hqe] at h1
      exact hp.eq_of_length (by omega)

/-- The states of the disk while the index is being saved, and the last one. -/
theorem save_states (env : Env) (ix : Index) (w : World) :
    ∃ l, (saveIndex env ix w).2.past = w.past ++ l ∧
      (∀ fs ∈ l ++ [(saveIndex env ix w).2.fs], fs = w.fs ∨ fs.file .compiled = none ∨
        ∃ p t, fs.file .compiled = some ⟨p, t⟩ ∧ p <+: ix.optimize.1.save.bytes) ∧
      ((saveIndex env ix w).1 ≠ .ok () → (saveIndex env ix w).2.fs = w.fs ∨
        (saveIndex env ix w).2.fs.file .compiled = none ∨
        ∃ p t, (saveIndex env ix w).2.fs.file .compiled = some ⟨p, t⟩ ∧ p <+: ix.optimize.1.save.bytes ∧
          (p = [] ∨ ix.optimize.1.save.err ≠ none ∨ p ≠ ix.optimize.1.save.bytes)) ∧
      ((saveIndex env ix w).1 = .ok () → ix.optimize.2 = .ok () ∧ ix.optimize.1.save.err = none ∧
        ∃ t n, (saveIndex env ix w).2.fs.file .compiled =
            some ⟨accepted (env.room n) ix.optimize.1.save.bytes, t⟩ ∧
          (env.late n = false → accepted (env.room n) ix.optimize.1.save.bytes = ix.optimize.1.save.bytes)) := by
  unfold saveIndex createFile
  by_cases hc : env.createErr w.n = true ∨ w.fs.dir = false
  · rw [if_pos hc]
    refine ⟨[], by simp [World.tick], ?_, fun _ => .inl rfl, fun h => by cases h⟩
    intro fs hfs
    simp only [World.tick, List.nil_append, List.mem_singleton] at hfs
    exact .inl hfs
  · rw [if_neg hc]
    simp only
    obtain ⟨ix', o, he⟩ : ∃ ix' o, ix.optimize = (ix', o) := ⟨_, _, rfl⟩
    rw [he]
    cases o with
    | ok u =>
      simp only
      obtain ⟨w1, hw1⟩ : ∃ w1, w1 = (w.set (w.fs.put .compiled (some ⟨[], env.now w.n⟩))).tick := ⟨_, rfl⟩
      rw [← hw1]
      have hp := accepted_prefix (env.room w1.n) ix'.save.bytes
      have hgrow : ∀ i, (accepted (env.room w1.n) ix'.save.bytes).take i <+: ix'.save.bytes :=
        fun i => (List.take_prefix _ _).trans hp
      by_cases hb : ix'.save.err ≠ none ∨ (accepted (env.room w1.n) ix'.save.bytes ≠ ix'.save.bytes ∧
          env.late w1.n = false)
      · rw [if_pos hb]
        subst hw1
        simp only [World.tick, World.set] at *
        unfold removeFile
        split
        · refine ⟨_, by simp only [World.grow, World.tick, List.append_assoc]; rfl, ?_, ?_, by simp⟩
          · intro fs hfs
            simp only [World.grow, World.tick, List.cons_append, List.nil_append, List.mem_cons, List.mem_append,
              List.mem_map, List.not_mem_nil, or_false] at hfs
            rcases hfs with rfl | rfl | ⟨i, -, rfl⟩ | rfl
            · exact .inl rfl
            · exact .inr (.inr ⟨_, _, put_self _ _ _, List.nil_prefix⟩)
            · exact .inr (.inr ⟨_, _, put_self _ _ _, hgrow i⟩)
            · exact .inr (.inr ⟨_, _, put_self _ _ _, hp⟩)
          · intro _
            refine .inr (.inr ⟨_, _, put_self _ _ _, hp, .inr ?_⟩)
            exact hb.imp_right And.left
        · refine ⟨_, by simp only [World.grow, World.tick, World.set, List.append_assoc]; rfl, ?_, ?_, by simp⟩
          · intro fs hfs
            simp only [World.grow, World.tick, World.set, List.cons_append, List.nil_append, List.mem_cons,
              List.mem_append, List.mem_map, List.not_mem_nil, or_false] at hfs
            rcases hfs with rfl | rfl | (⟨i, -, rfl⟩ | rfl) | rfl
            · exact .inl rfl
            · exact .inr (.inr ⟨_, _, put_self _ _ _, List.nil_prefix⟩)
            · exact .inr (.inr ⟨_, _, put_self _ _ _, hgrow i⟩)
            · exact .inr (.inr ⟨_, _, put_self _ _ _, hp⟩)
            · exact .inr (.inl (put_self _ _ _))
          · intro _
            exact .inr (.inl (put_self _ _ _))
      · rw [if_neg hb]
        subst hw1
        simp only [World.tick, World.set] at *
        refine ⟨_, by simp only [World.grow, List.append_assoc]; rfl, ?_, by simp, ?_⟩
        · intro fs hfs
          simp only [World.grow, List.cons_append, List.nil_append, List.mem_cons, List.mem_append,
            List.mem_map, List.not_mem_nil, or_false] at hfs
          rcases hfs with rfl | rfl | ⟨i, -, rfl⟩ | rfl
          · exact .inl rfl
          · exact .inr (.inr ⟨_, _, put_self _ _ _, List.nil_prefix⟩)
          · exact .inr (.inr ⟨_, _, put_self _ _ _, hgrow i⟩)
          · exact .inr (.inr ⟨_, _, put_self _ _ _, hp⟩)
        · intro _
          have hb' := not_or.1 hb
          refine ⟨trivial, not_not.1 hb'.1, _, w.n + 1, put_self _ _ _, ?_⟩
          intro hlate
          by_contra hne
          exact hb'.2 ⟨hne, hlate⟩
    | _ =>
      simp only
      refine ⟨[w.fs], by simp [World.tick, World.set], ?_, ?_, by simp⟩
      · intro fs hfs
        simp only [World.tick, World.set, List.cons_append, List.nil_append, List.mem_cons, List.not_mem_nil,
          or_false] at hfs
        rcases hfs with rfl | rfl
        · exact .inl rfl
        · exact .inr (.inr ⟨_, _, put_self _ _ _, List.nil_prefix⟩)
      · intro _
        exact .inr (.inr ⟨_, _, put_self _ _ _, List.nil_prefix, .inl rfl⟩)

end Verif
