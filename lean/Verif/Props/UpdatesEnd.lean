import Verif.Props.Updates

/-!
# C104: every update ends

An update that is left to itself ends, whatever the others have done before and wherever calls have failed. So any number of
updates, each run to its end after the other, leave the index of the server's archive.
-/

namespace Verif

theorem turns_succ (n i : Nat) : turns (n + 1) i = .step i :: turns n i := rfl

/-- The names belong to different files, and no process unpacks a file onto itself. -/
structure UpdState.Sane (s : UpdState) : Prop where
  dist : ∀ f g k, s.disk.link f = some k → s.disk.link g = some k → f = g
  lt : ∀ f k, s.disk.link f = some k → k < s.disk.next
  opened : ∀ i src, s.proc i = .opened src → s.disk.link .archive = some src
  apart : ∀ i src got eof dst pos, s.proc i = .unpacking src got eof dst pos → src ≠ dst

theorem sane_start (files : FName → Option Str) : (UpdState.start files).Sane where
  dist f g k hf hg := by
    simp only [UpdState.start, Option.map_eq_some_iff] at hf hg
    obtain ⟨_, _, rfl⟩ := hf
    obtain ⟨_, _, h⟩ := hg
    cases f <;> cases g <;> simp_all [FName.number]
  lt f k hf := by
    simp only [UpdState.start, Option.map_eq_some_iff] at hf
    obtain ⟨_, _, rfl⟩ := hf
    cases f <;> simp [UpdState.start, FName.number]
  opened i src h := by cases h
  apart i src got eof dst pos h := by cases h

/-- The names lead to other files only where files are new. -/
structure UpdDisk.Later (d d' : UpdDisk) : Prop where
  dist : ∀ f g k, d'.link f = some k → d'.link g = some k → f = g
  lt : ∀ f k, d'.link f = some k → k < d'.next
  archive : ∀ k, d.link .archive = some k → d'.link .archive = some k

theorem UpdState.Sane.same {s : UpdState} (v : s.Sane) {d : UpdDisk} (hl : d.link = s.disk.link) (hn : d.next = s.disk.next) :
    s.disk.Later d where
  dist := by rw [hl]; exact v.dist
  lt := by rw [hl, hn]; exact v.lt
  archive := by rw [hl]; exact fun _ h => h

theorem created_ne {s : UpdState} (v : s.Sane) {f g : FName} {k : Nat} (hfg : g ≠ f) (hk : s.disk.link g = some k) :
    k ≠ s.disk.created f := by
  rintro rfl
  unfold UpdDisk.created at hk
  cases hf : s.disk.link f with
  | none =>
    rw [hf] at hk
    exact absurd (v.lt g _ hk) (by simp)
  | some j =>
    rw [hf] at hk
    exact hfg (v.dist g f j hk hf)

theorem UpdState.Sane.creates {s : UpdState} (v : s.Sane) (f : FName) : s.disk.Later (s.disk.create f) where
  dist g g' k hg hg' := by
    simp only [UpdDisk.create, UpdDisk.write] at hg hg'
    by_cases h : g = f <;> by_cases h' : g' = f
    · rw [h, h']
    · rw [if_pos h] at hg; rw [if_neg h'] at hg'
      exact absurd (Option.some.inj hg).symm (created_ne v h' hg')
    · rw [if_neg h] at hg; rw [if_pos h'] at hg'
      exact absurd (Option.some.inj hg').symm (created_ne v h hg)
    · rw [if_neg h] at hg; rw [if_neg h'] at hg'
      exact v.dist g g' k hg hg'
  lt g k hg := by
    simp only [UpdDisk.create, UpdDisk.write] at hg ⊢
    have hle : s.disk.next ≤ (if (s.disk.link f).isSome then s.disk.next else s.disk.next + 1) := by split <;> omega
    split at hg
    · have := Option.some.inj hg
      subst this
      unfold UpdDisk.created
      cases hf : s.disk.link f with
      | none => simp
      | some j => simpa using v.lt f j hf
    · exact lt_of_lt_of_le (v.lt g k hg) hle
  archive k hk := by
    simp only [UpdDisk.create, UpdDisk.write]
    split
    · rename_i h
      rw [UpdDisk.created, ← h, hk]; rfl
    · exact hk

theorem UpdState.Sane.moves {s : UpdState} (v : s.Sane) {d : UpdDisk} (l : s.disk.Later d) (i : Nat) (p : UpdProc)
    (ho : ∀ src, p = .opened src → d.link .archive = some src)
    (ha : ∀ src got eof dst pos, p = .unpacking src got eof dst pos → src ≠ dst) : ({ s with disk := d }.goto i p).Sane where
  dist := l.dist
  lt := l.lt
  opened j src h := by
    by_cases hj : j = i
    · subst hj; rw [ugoto_self] at h; exact ho src h
    · rw [ugoto_ne _ _ hj] at h; exact l.archive _ (v.opened j src h)
  apart j src got eof dst pos h := by
    by_cases hj : j = i
    · subst hj; rw [ugoto_self] at h; exact ha _ _ _ _ _ h
    · rw [ugoto_ne _ _ hj] at h; exact v.apart j _ _ _ _ _ h

theorem UpdState.Sane.goes {s : UpdState} (v : s.Sane) (i : Nat) (p : UpdProc)
    (ho : ∀ src, p = .opened src → s.disk.link .archive = some src)
    (ha : ∀ src got eof dst pos, p = .unpacking src got eof dst pos → src ≠ dst) : (s.goto i p).Sane :=
  v.moves (v.same rfl rfl) i p ho ha

theorem sane_ahead {s : UpdState} (v : s.Sane) (i : Nat) : (s.ahead i).Sane := by
  unfold UpdState.ahead
  split
  · rename_i hp
    have := v.apart i _ _ _ _ _ hp
    split <;> refine v.goes i _ (by simp) ?_ <;> rintro _ _ _ _ _ ⟨⟩ <;> exact this
  · exact v

theorem sane_next {cfg : UpdCfg} {s : UpdState} (v : s.Sane) (e : UpdEv) : (s.next cfg e).Sane := by
  cases e with
  | ahead i => exact sane_ahead v i
  | die i => exact v.goes i _ (by simp) (by simp)
  | fail i =>
    change (s.fail cfg i).Sane
    unfold UpdState.fail
    split <;> (repeat' split) <;> first | exact v | exact v.goes i _ (by simp) (by simp)
  | step i =>
    change (s.step cfg i).Sane
    unfold UpdState.step
    split
    case h_3 => exact v.moves (v.creates .archive) i _ (by simp) (by simp)
    case h_4 =>
      split
      · refine v.moves (d := s.disk.write _ _) (v.same rfl rfl) i _ ?_ ?_ <;> simp
      · exact v.goes i _ (by simp) (by simp)
    case h_5 =>
      split
      · rename_i k hk
        refine v.goes i _ ?_ (by simp)
        rintro _ ⟨⟩; exact hk
      · exact v.goes i _ (by simp) (by simp)
    case h_6 src hp =>
      refine v.moves (v.creates .xml) i _ (by simp) ?_
      rintro _ _ _ _ _ ⟨⟩
      exact created_ne v (by simp) (v.opened i src hp)
    case h_7 hp =>
      have := v.apart i _ _ _ _ _ hp
      split
      · refine v.moves (d := s.disk.write _ _) (v.same rfl rfl) i _ ?_ ?_
        · simp
        · rintro _ _ _ _ _ ⟨⟩; exact this
      · split
        · split <;> exact v.goes i _ (by simp) (by simp)
        · exact sane_ahead v i
    case h_10 => exact v.moves (v.creates .compiled) i _ (by simp) (by simp)
    case h_11 =>
      split
      · refine v.moves (d := s.disk.write _ _) (v.same rfl rfl) i _ ?_ ?_ <;> simp
      · split <;> exact v.goes i _ (by simp) (by simp)
    case h_12 =>
      refine v.moves ⟨?_, ?_, ?_⟩ i _ (by simp) (by simp)
      · intro f g k hf hg
        simp only at hf hg
        split at hf <;> [cases hf; skip]
        split at hg <;> [cases hg; skip]
        exact v.dist f g k hf hg
      · intro f k hf
        simp only at hf
        split at hf <;> [cases hf; skip]
        exact v.lt f k hf
      · intro k hk
        simpa using hk
    case h_13 => exact v
    all_goals (repeat' split) <;> exact v.goes i _ (by simp) (by simp)

theorem sane_run {cfg : UpdCfg} : ∀ (sched : List UpdEv) {s : UpdState}, s.Sane → (s.run cfg sched).Sane
  | [], _, v => v
  | e :: sched, _, v => sane_run sched (sane_next v e)

/-- `Update` of the process has returned, or the process is dead. -/
def UpdProc.Returned : UpdProc → Prop
  | .done => True
  | .upToDate => True
  | .failed => True
  | .dead => True
  | _ => False

/-- Left alone, process `i` comes to an end. -/
def UpdState.Ends (cfg : UpdCfg) (s : UpdState) (i : Nat) : Prop := ∃ n, ((s.run cfg (turns n i)).proc i).Returned

theorem ends_now {cfg : UpdCfg} {s : UpdState} {i : Nat} (h : (s.proc i).Returned) : s.Ends cfg i := ⟨0, h⟩

theorem ends_step {cfg : UpdCfg} {s s' : UpdState} {i : Nat} (e : s.step cfg i = s') (h : s'.Ends cfg i) : s.Ends cfg i := by
  subst e
  obtain ⟨n, h⟩ := h
  exact ⟨n + 1, h⟩

theorem ends_goto {cfg : UpdCfg} {s : UpdState} {i : Nat} {p : UpdProc} (h : p.Returned) : (s.goto i p).Ends cfg i :=
  ends_now (by rw [ugoto_self]; exact h)

theorem ends_removing {cfg : UpdCfg} {s : UpdState} {i : Nat} (h : s.proc i = .removing) : s.Ends cfg i :=
  ends_step (by unfold UpdState.step; rw [h]) (ends_goto (p := .failed) trivial)

theorem ends_saving {cfg : UpdCfg} {i k : Nat} {bytes : Str} {ok : Bool} : ∀ (m pos : Nat) {s : UpdState},
    bytes.length - pos ≤ m → s.proc i = .saving k pos bytes ok → s.Ends cfg i := by
  intro m
  induction m with
  | zero =>
    intro pos s hm h
    have hn : bytes[pos]? = none := List.getElem?_eq_none_iff.2 (by omega)
    refine ends_step (s' := if ok then s.goto i .done else s.goto i .removing) (by unfold UpdState.step; rw [h]; simp only [hn]) ?_
    split
    · exact ends_goto trivial
    · exact ends_removing (ugoto_self _ _ _)
  | succ m ih =>
    intro pos s hm h
    cases hb : bytes[pos]? with
    | none =>
      refine ends_step (s' := if ok then s.goto i .done else s.goto i .removing) (by unfold UpdState.step; rw [h]; simp only [hb]) ?_
      split
      · exact ends_goto trivial
      · exact ends_removing (ugoto_self _ _ _)
    | some b =>
      have hlt := (List.getElem?_eq_some_iff.1 hb).1
      refine ends_step (by unfold UpdState.step; rw [h]; simp only [hb]; rfl) (ih (pos + 1) (by omega) (ugoto_self _ _ _))

theorem ends_toSave {cfg : UpdCfg} {s : UpdState} {i : Nat} {bytes : Str} {ok : Bool} (h : s.proc i = .toSave bytes ok) :
    s.Ends cfg i :=
  ends_step (by unfold UpdState.step; rw [h]) (ends_saving bytes.length 0 (by omega) (ugoto_self _ _ _))

theorem ends_parsing {cfg : UpdCfg} {i k : Nat} : ∀ (m : Nat) (got : Str) {s : UpdState},
    (s.disk.data k).length - got.length ≤ m → s.proc i = .parsing k got → s.Ends cfg i := by
  have stop : ∀ (got : Str) {s : UpdState}, (s.disk.data k)[got.length]? = none → s.proc i = .parsing k got → s.Ends cfg i := by
    intro got s hn h
    cases hc : compileText cfg.env got with
    | none => exact ends_step (by unfold UpdState.step; rw [h]; simp only [hn, hc]) (ends_goto (s := s) (p := .failed) trivial)
    | some c =>
      obtain ⟨bytes, ok⟩ := c
      exact ends_step (by unfold UpdState.step; rw [h]; simp only [hn, hc]; rfl) (ends_toSave (ugoto_self _ _ _))
  intro m
  induction m with
  | zero => intro got s hm h; exact stop got (List.getElem?_eq_none_iff.2 (by omega)) h
  | succ m ih =>
    intro got s hm h
    cases hb : (s.disk.data k)[got.length]? with
    | none => exact stop got hb h
    | some b =>
      have hlt := (List.getElem?_eq_some_iff.1 hb).1
      refine ends_step (by unfold UpdState.step; rw [h]; simp only [hb])
        (ih (got ++ [b]) (s := s.goto i (.parsing k (got ++ [b]))) ?_ (ugoto_self _ _ _))
      rw [ugoto_disk, List.length_append, List.length_singleton]; omega

theorem ends_toParse {cfg : UpdCfg} {s : UpdState} {i : Nat} (h : s.proc i = .toParse) : s.Ends cfg i := by
  cases hl : s.disk.link .xml with
  | none => exact ends_step (by unfold UpdState.step; rw [h]; simp only [hl]) (ends_goto (s := s) (p := .failed) trivial)
  | some k => exact ends_step (by unfold UpdState.step; rw [h]; simp only [hl]; rfl) (ends_parsing _ [] le_rfl (ugoto_self _ _ _))

/-- The rest of what can be unpacked from what has been read is written; `more`: what happens then. -/
theorem ends_writing {cfg : UpdCfg} {i src dst : Nat} {got : Str} {eof : Bool} (hne : src ≠ dst) {data : Str}
    (more : ∀ (pos : Nat) (s : UpdState), s.disk.data src = data → (cfg.env.bunzip got).1[pos]? = none →
      s.proc i = .unpacking src got eof dst pos → s.Ends cfg i) : ∀ (m pos : Nat) (s : UpdState),
    s.disk.data src = data → (cfg.env.bunzip got).1.length - pos ≤ m → s.proc i = .unpacking src got eof dst pos →
    s.Ends cfg i := by
  intro m
  induction m with
  | zero => intro pos s hd hm h; exact more pos s hd (List.getElem?_eq_none_iff.2 (by omega)) h
  | succ m ih =>
    intro pos s hd hm h
    cases hb : (cfg.env.bunzip got).1[pos]? with
    | none => exact more pos s hd hb h
    | some b =>
      have hlt := (List.getElem?_eq_some_iff.1 hb).1
      refine ends_step (by unfold UpdState.step; rw [h]; simp only [hb]; rfl) (ih (pos + 1) _ ?_ (by omega) (ugoto_self _ _ _))
      rw [ugoto_disk]
      simp only [UpdDisk.write, if_neg hne]
      exact hd

theorem ends_unpacked {cfg : UpdCfg} {i src dst pos : Nat} {got : Str} {s : UpdState} (hne : src ≠ dst)
    (h : s.proc i = .unpacking src got true dst pos) : s.Ends cfg i := by
  refine ends_writing hne (data := s.disk.data src) ?_ _ pos s rfl le_rfl h
  intro pos s _ hn h
  refine ends_step (s' := if (cfg.env.bunzip got).2 then s.goto i .toParse else s.goto i .failed)
    (by unfold UpdState.step; rw [h]; simp only [hn, if_true]) ?_
  split
  · exact ends_toParse (ugoto_self _ _ _)
  · exact ends_goto trivial

theorem ends_unpacking {cfg : UpdCfg} {i src dst : Nat} (hne : src ≠ dst) : ∀ (m : Nat) (got : Str) (pos : Nat) (s : UpdState),
    (s.disk.data src).length - got.length ≤ m → s.proc i = .unpacking src got false dst pos → s.Ends cfg i := by
  intro m
  induction m with
  | zero =>
    intro got pos s hm h
    refine ends_writing hne (data := s.disk.data src) ?_ _ pos s rfl le_rfl h
    intro pos s' hd hn h
    have hb : (s'.disk.data src)[got.length]? = none := List.getElem?_eq_none_iff.2 (by rw [hd]; omega)
    refine ends_step (s' := s'.goto i (.unpacking src got true dst pos))
      (by unfold UpdState.step; rw [h]; simp only [hn, Bool.false_eq_true, if_false]; unfold UpdState.ahead; rw [h]; simp only [hb])
      (ends_unpacked hne (ugoto_self _ _ _))
  | succ m ih =>
    intro got pos s hm h
    refine ends_writing hne (data := s.disk.data src) ?_ _ pos s rfl le_rfl h
    intro pos s' hd hn h
    cases hb : (s'.disk.data src)[got.length]? with
    | none =>
      exact ends_step (s' := s'.goto i (.unpacking src got true dst pos))
        (by unfold UpdState.step; rw [h]; simp only [hn, Bool.false_eq_true, if_false]; unfold UpdState.ahead; rw [h]; simp only [hb])
        (ends_unpacked hne (ugoto_self _ _ _))
    | some b =>
      have hlt := (List.getElem?_eq_some_iff.1 hb).1
      refine ends_step (s' := s'.goto i (.unpacking src (got ++ [b]) false dst pos))
        (by unfold UpdState.step; rw [h]; simp only [hn, Bool.false_eq_true, if_false]; unfold UpdState.ahead; rw [h]; simp only [hb])
        (ih (got ++ [b]) pos _ ?_ (ugoto_self _ _ _))
      rw [ugoto_disk, List.length_append, List.length_singleton, hd]; omega

theorem ends_opened {cfg : UpdCfg} {s : UpdState} (v : s.Sane) {i src : Nat} (h : s.proc i = .opened src) : s.Ends cfg i :=
  ends_step (by unfold UpdState.step; rw [h])
    (ends_unpacking (created_ne v (by simp) (v.opened i src h)) _ [] 0 _ le_rfl (ugoto_self _ _ _))

theorem ends_toOpen {cfg : UpdCfg} {s : UpdState} (v : s.Sane) {i : Nat} (h : s.proc i = .toOpen) : s.Ends cfg i := by
  have hs : s.step cfg i = (match s.disk.link .archive with
      | some k => s.goto i (.opened k)
      | none => s.goto i .failed) := by unfold UpdState.step; rw [h]; rfl
  have v' := sane_next (cfg := cfg) v (.step i)
  change (s.step cfg i).Sane at v'
  cases hl : s.disk.link .archive with
  | none => rw [hl] at hs; exact ends_step hs (ends_goto trivial)
  | some k => rw [hl] at hs; rw [hs] at v'; exact ends_step hs (ends_opened v' (ugoto_self _ _ _))

theorem ends_downloading {cfg : UpdCfg} {i k : Nat} : ∀ (m pos : Nat) {s : UpdState}, s.Sane →
    cfg.body.length - pos ≤ m → s.proc i = .downloading k pos → s.Ends cfg i := by
  have stop : ∀ (pos : Nat) {s : UpdState}, s.Sane → cfg.body[pos]? = none → s.proc i = .downloading k pos → s.Ends cfg i := by
    intro pos s v hn h
    exact ends_step (s' := s.goto i .toOpen) (by unfold UpdState.step; rw [h]; simp only [hn])
      (ends_toOpen (v.goes i _ (by simp) (by simp)) (ugoto_self _ _ _))
  intro m
  induction m with
  | zero => intro pos s v hm h; exact stop pos v (List.getElem?_eq_none_iff.2 (by omega)) h
  | succ m ih =>
    intro pos s v hm h
    cases hb : cfg.body[pos]? with
    | none => exact stop pos v hb h
    | some b =>
      have hlt := (List.getElem?_eq_some_iff.1 hb).1
      refine ends_step (by unfold UpdState.step; rw [h]; simp only [hb]; rfl) (ih (pos + 1) ?_ (by omega) (ugoto_self _ _ _))
      refine v.moves (d := s.disk.write _ _) (v.same rfl rfl) i _ ?_ ?_ <;> simp

theorem ends_toCreate {cfg : UpdCfg} {s : UpdState} (v : s.Sane) {i : Nat} (h : s.proc i = .toCreate) : s.Ends cfg i :=
  ends_step (by unfold UpdState.step; rw [h])
    (ends_downloading _ 0 (v.moves (v.creates .archive) i _ (by simp) (by simp)) le_rfl (ugoto_self _ _ _))

theorem ends_toDownload {cfg : UpdCfg} {s : UpdState} (v : s.Sane) {i : Nat} (h : s.proc i = .toDownload) : s.Ends cfg i := by
  refine ends_step (s' := if s.disk.needed then s.goto i .toCreate else s.goto i .upToDate) (by unfold UpdState.step; rw [h]) ?_
  split
  · exact ends_toCreate (v.goes i _ (by simp) (by simp)) (ugoto_self _ _ _)
  · exact ends_goto trivial

theorem ends_start {cfg : UpdCfg} {s : UpdState} (v : s.Sane) {i : Nat} (h : s.proc i = .start) : s.Ends cfg i := by
  refine ends_step (s' := if s.disk.needed then s.goto i .toDownload
    else if cfg.force i then s.goto i .toParse else s.goto i .upToDate) (by unfold UpdState.step; rw [h]) ?_
  split
  · exact ends_toDownload (v.goes i _ (by simp) (by simp)) (ugoto_self _ _ _)
  · split
    · exact ends_toParse (ugoto_self _ _ _)
    · exact ends_goto trivial

theorem ends_all {cfg : UpdCfg} {s : UpdState} (v : s.Sane) (i : Nat) : s.Ends cfg i := by
  cases h : s.proc i with
  | start => exact ends_start v h
  | toDownload => exact ends_toDownload v h
  | toCreate => exact ends_toCreate v h
  | downloading k pos => exact ends_downloading _ pos v le_rfl h
  | toOpen => exact ends_toOpen v h
  | opened src => exact ends_opened v h
  | unpacking src got eof dst pos =>
    have hne := v.apart i _ _ _ _ _ h
    cases eof with
    | false => exact ends_unpacking hne _ got pos s le_rfl h
    | true => exact ends_unpacked hne h
  | toParse => exact ends_toParse h
  | parsing k got => exact ends_parsing _ got le_rfl h
  | toSave bytes ok => exact ends_toSave h
  | saving k pos bytes ok => exact ends_saving _ pos le_rfl h
  | removing => exact ends_removing h
  | _ => exact ends_now (by rw [h]; trivial)

/-- C104, every update ends: whatever the processes have done before and wherever calls have failed, an update that is then
left to itself returns. -/
theorem C104_ends (cfg : UpdCfg) (files : FName → Option Str) (sched : List UpdEv) (i : Nat) :
    ∃ n, (((UpdState.start files).run cfg (sched ++ turns n i)).proc i).Returned := by
  obtain ⟨n, h⟩ := ends_all (cfg := cfg) (sane_run sched (sane_start files)) i
  exact ⟨n, by rw [urun_append]; exact h⟩

theorem ustep_other (cfg : UpdCfg) (s : UpdState) {i j : Nat} (h : j ≠ i) : (s.step cfg i).proc j = s.proc j := by
  unfold UpdState.step
  split <;> (repeat' split) <;> first | rfl | exact ugoto_ne _ _ h | exact ahead_other s h

theorem turns_other (cfg : UpdCfg) {i j : Nat} (h : j ≠ i) : ∀ (n : Nat) (s : UpdState),
    (s.run cfg (turns n i)).proc j = s.proc j
  | 0, _ => rfl
  | n + 1, s => (turns_other cfg h n (s.step cfg i)).trans (ustep_other cfg s h)

theorem UpdProc.Returned.rests {p : UpdProc} (h : p.Returned) : p.Rests := by cases p <;> first | exact h | exact h.elim

theorem prefix_turns {pre a : List UpdEv} {n i : Nat} (h : pre <+: a ++ turns n i) :
    pre <+: a ∨ ∃ m, m ≤ n ∧ pre = a ++ turns m i := by
  rcases Nat.le_total pre.length a.length with hle | hle
  · exact .inl (List.prefix_of_prefix_length_le h (List.prefix_append _ _) hle)
  · obtain ⟨t, rfl⟩ := List.prefix_of_prefix_length_le (List.prefix_append a (turns n i)) h hle
    have ht : t <+: turns n i := (List.prefix_append_right_inj a).1 h
    obtain ⟨u, hu⟩ := ht
    have hl : t.length ≤ n := by
      have := congrArg List.length hu
      simp only [turns, List.length_append, List.length_replicate] at this; omega
    refine .inr ⟨t.length, hl, ?_⟩
    congr 1
    refine List.eq_replicate_iff.2 ⟨rfl, fun b hb => ?_⟩
    exact List.eq_of_mem_replicate (n := n) (by rw [← turns, ← hu]; exact List.mem_append_left _ hb)

theorem oneByOne_turns {cfg : UpdCfg} {files : FName → Option Str} {a : List UpdEv} (h : OneByOne cfg files a)
    (hr : ∀ j, (((UpdState.start files).run cfg a).proc j).Rests) (n i : Nat) : OneByOne cfg files (a ++ turns n i) := by
  intro pre hp j k hj hk
  rcases prefix_turns hp with hp | ⟨m, -, rfl⟩
  · exact h pre hp j k hj hk
  · have only : ∀ l, ¬ (((UpdState.start files).run cfg (a ++ turns m i)).proc l).Rests → l = i := by
      intro l hl
      by_contra hli
      rw [urun_append, turns_other cfg hli] at hl
      exact hl (hr l)
    rw [only j hj, only k hk]

/-- Neither before the second check nor turned away by it. -/
def UpdProc.Working : UpdProc → Prop
  | .start => False
  | .toDownload => False
  | .upToDate => False
  | _ => True

theorem working_step {cfg : UpdCfg} {s : UpdState} {i : Nat} (h : (s.proc i).Working) : ((s.step cfg i).proc i).Working := by
  unfold UpdState.step
  split
  case h_1 hp => rw [hp] at h; exact h.elim
  case h_2 hp => rw [hp] at h; exact h.elim
  case h_7 hp =>
    split
    · rw [ugoto_self]; trivial
    · split
      · split <;> rw [ugoto_self] <;> trivial
      · unfold UpdState.ahead
        split
        · split <;> rw [ugoto_self] <;> trivial
        · exact h
  case h_13 => exact h
  all_goals (repeat' split) <;> rw [ugoto_self] <;> trivial

theorem working_turns {cfg : UpdCfg} {i : Nat} : ∀ (n : Nat) {s : UpdState}, (s.proc i).Working →
    ((s.run cfg (turns n i)).proc i).Working
  | 0, _, h => h
  | n + 1, s, h => working_turns n (s := s.step cfg i) (working_step h)

theorem first_works {cfg : UpdCfg} {s : UpdState} {i n : Nat} (hn : s.disk.needed = true) (h : s.proc i = .start)
    (hr : ((s.run cfg (turns n i)).proc i).Returned) : ((s.run cfg (turns n i)).proc i).Working := by
  have e1 : s.step cfg i = s.goto i .toDownload := by unfold UpdState.step; rw [h]; simp only [hn, if_true]
  have e2 : (s.goto i .toDownload).step cfg i = (s.goto i .toDownload).goto i .toCreate := by
    unfold UpdState.step
    rw [ugoto_self]
    simp only [ugoto_disk, hn, if_true]
  match n, hr with
  | 0, hr =>
    change (s.proc i).Returned at hr
    rw [h] at hr; exact hr.elim
  | 1, hr =>
    change ((s.step cfg i).proc i).Returned at hr
    rw [e1, ugoto_self] at hr; exact hr.elim
  | n + 2, hr =>
    change ((((s.step cfg i).step cfg i).run cfg (turns n i)).proc i).Working
    rw [e1, e2]
    exact working_turns n (by rw [ugoto_self]; trivial)

theorem not_dead_step {cfg : UpdCfg} {s : UpdState} {i : Nat} (h : s.proc i ≠ .dead) : (s.step cfg i).proc i ≠ .dead := by
  unfold UpdState.step
  split
  case h_7 hp =>
    split
    · rw [ugoto_self]; simp
    · split
      · split <;> rw [ugoto_self] <;> simp
      · unfold UpdState.ahead
        split
        · split <;> rw [ugoto_self] <;> simp
        · exact h
  case h_13 => exact h
  all_goals (repeat' split) <;> rw [ugoto_self] <;> simp

theorem not_dead_turns {cfg : UpdCfg} {i : Nat} : ∀ (n : Nat) {s : UpdState}, s.proc i ≠ .dead →
    (s.run cfg (turns n i)).proc i ≠ .dead
  | 0, _, h => h
  | n + 1, s, h => not_dead_turns n (s := s.step cfg i) (not_dead_step h)

/-- Each process in turn takes as many steps as the number says. -/
def eachInTurn (runs : List (Nat × Nat)) : List UpdEv := runs.flatMap fun e => turns e.2 e.1

/-- C104 from beginning to end: any number of updates, each run to its end after the other and whoever was told to recompile,
all succeed, and leave the index of the server's document, whatever files there were before. -/
theorem C104_each (cfg : UpdCfg) (doc : List Xml) (ho : Offers cfg doc) (files : FName → Option Str) (ps : List Nat)
    (hne : ps ≠ []) :
    ∃ runs : List (Nat × Nat), runs.map (·.1) = ps ∧
      (∀ p ∈ ps, ((UpdState.start files).run cfg (eachInTurn runs)).proc p = .done ∨
        ((UpdState.start files).run cfg (eachInTurn runs)).proc p = .upToDate) ∧
      ((UpdState.start files).run cfg (eachInTurn runs)).Serves doc := by
  have key : ∀ ps : List Nat, ∃ runs : List (Nat × Nat), runs.map (·.1) = ps ∧ (∀ e ∈ eachInTurn runs, e.Works) ∧
      OneByOne cfg files (eachInTurn runs) ∧ (∀ j, (((UpdState.start files).run cfg (eachInTurn runs)).proc j).Rests) ∧
      (∀ p ∈ ps, (((UpdState.start files).run cfg (eachInTurn runs)).proc p).Returned) ∧
      (∀ j, ((UpdState.start files).run cfg (eachInTurn runs)).proc j ≠ .dead) ∧
      (ps ≠ [] → ∃ i, (((UpdState.start files).run cfg (eachInTurn runs)).proc i).Working) := by
    intro ps
    induction ps using list_reverse_induction with
    | nil =>
      refine ⟨[], rfl, by simp [eachInTurn], ?_, fun _ => trivial, by simp, fun _ => by simp [eachInTurn, UpdState.run, UpdState.start],
        fun h => absurd rfl h⟩
      intro pre hp i j hi _
      have : pre = [] := List.prefix_nil.1 hp
      subst this
      exact absurd trivial hi
    | snoc ps p ih =>
      obtain ⟨runs, h1, h2, h3, h4, h5, h6, h7⟩ := ih
      obtain ⟨n, hn⟩ := C104_ends cfg files (eachInTurn runs) p
      have e : eachInTurn (runs ++ [(p, n)]) = eachInTurn runs ++ turns n p := by simp [eachInTurn]
      refine ⟨runs ++ [(p, n)], by simp [h1], ?_⟩
      rw [e]
      have other : ∀ j, j ≠ p → ((UpdState.start files).run cfg (eachInTurn runs ++ turns n p)).proc j =
          ((UpdState.start files).run cfg (eachInTurn runs)).proc j := fun j hj => by rw [urun_append, turns_other cfg hj]
      refine ⟨?_, oneByOne_turns h3 h4 n p, ?_, ?_, ?_, ?_⟩
      · intro x hx
        rcases List.mem_append.1 hx with hx | hx
        · exact h2 x hx
        · rw [List.eq_of_mem_replicate hx]; trivial
      · intro j
        by_cases hj : j = p
        · subst hj; exact hn.rests
        · rw [other j hj]; exact h4 j
      · intro q hq
        by_cases hj : q = p
        · subst hj; exact hn
        · rw [other q hj]
          rcases List.mem_append.1 hq with hq | hq
          · exact h5 q hq
          · exact absurd (List.mem_singleton.1 hq) hj
      · intro j
        by_cases hj : j = p
        · subst hj
          rw [urun_append]
          exact not_dead_turns n (h6 j)
        · rw [other j hj]; exact h6 j
      · intro _
        by_cases hps : ps = []
        · subst hps
          have : runs = [] := by simpa using h1
          subst this
          exact ⟨p, first_works (s := UpdState.start files) (by simp [UpdDisk.needed, UpdState.start]) rfl hn⟩
        · obtain ⟨i, hi⟩ := h7 hps
          by_cases hj : i = p
          · subst hj
            refine ⟨i, ?_⟩
            rw [urun_append]
            exact working_turns n hi
          · exact ⟨i, by rw [other i hj]; exact hi⟩
  obtain ⟨runs, h1, h2, h3, h4, h5, h6, h7⟩ := key ps
  obtain ⟨nf, sv⟩ := C104_serial cfg doc ho files _ h2 h3
  have ok : ∀ p, (((UpdState.start files).run cfg (eachInTurn runs)).proc p).Returned →
      ((UpdState.start files).run cfg (eachInTurn runs)).proc p = .done ∨
        ((UpdState.start files).run cfg (eachInTurn runs)).proc p = .upToDate := by
    intro p hp
    have a := nf p
    have b := h6 p
    generalize ((UpdState.start files).run cfg (eachInTurn runs)).proc p = x at *
    cases x <;> simp_all [UpdProc.Returned]
  refine ⟨runs, h1, fun p hp => ok p (h5 p hp), sv ?_ ?_⟩
  · obtain ⟨i, hi⟩ := h7 hne
    refine ⟨i, ?_⟩
    have a := nf i
    have b := h6 i
    have c := h4 i
    generalize ((UpdState.start files).run cfg (eachInTurn runs)).proc i = x at *
    cases x <;> simp_all [UpdProc.Rests, UpdProc.Working]
  · intro i hi
    exact UpdProc.busy (.inr (.inr (.inr (.inr hi)))) (h4 i)

/-- Three updates, the second told to recompile, with an old archive there. -/
example : ∃ runs : List (Nat × Nat), runs.map (·.1) = [0, 1, 2] ∧
    ((UpdState.start oldFiles).run (sampleCfg fun i => i == 1) (eachInTurn runs)).Serves sampleDoc :=
  let ⟨runs, h1, _, h3⟩ := C104_each (sampleCfg fun i => i == 1) sampleDoc (sample_offers _) oldFiles [0, 1, 2] (by simp)
  ⟨runs, h1, h3⟩

end Verif
