import Verif.Props.Update
import Verif.Spec.UpdateCmd

/-!
# C70, C71 — the update command
-/

namespace Verif

theorem splitEq_some {s n v : Str} (h : splitEq s = (n, some v)) : s = n ++ str "=" ++ v := by
  cases s with
  | nil => cases h
  | cons c s =>
    rw [splitEq] at h
    split at h
    · cases h
    · rename_i x v' e
      simp only [Prod.mk.injEq, Option.some.injEq] at h
      obtain ⟨rfl, rfl⟩ := h
      have hx : x = 0x3d := by
        have := List.head?_dropWhile_not (p := fun c : UInt8 => decide (c ≠ 0x3d)) s
        rw [e] at this
        simpa using this
      subst hx
      have := List.takeWhile_append_dropWhile (p := fun c : UInt8 => decide (c ≠ 0x3d)) (l := s)
      rw [e] at this
      show c :: s = c :: (_ ++ [0x3d] ++ v')
      rw [List.append_assoc]
      exact congrArg _ this.symm

theorem splitEq_none {s n : Str} (h : splitEq s = (n, none)) : s = n := by
  cases s with
  | nil => simp [splitEq] at h; exact h.symm ▸ rfl
  | cons c s =>
    rw [splitEq] at h
    split at h
    · simp only [Prod.mk.injEq, and_true] at h; exact h
    · cases h

theorem parseBool_eq (v : Str) (b : Bool) : parseBool v = some b ↔ v ∈ boolTexts b := by
  unfold parseBool
  constructor
  · intro h
    split at h
    · simp only [Option.some.injEq] at h; subst h; assumption
    · split at h
      · simp only [Option.some.injEq] at h; subst h; assumption
      · cases h
  · intro h
    cases b with
    | true => exact if_pos h
    | false =>
      simp only [boolTexts, List.mem_cons, List.not_mem_nil, or_false] at h
      rcases h with rfl | rfl | rfl | rfl | rfl | rfl <;> decide

/-- The values with one flag set. -/
def Flags.put (f : Flags) : FlagName → Bool → Flags
  | .f, b => { f with force := b }
  | .d, b => { f with debug := b }
  | .h, b => { f with usage := b }

theorem set_values {f g : Flags} {name : Str} {v : Option Bool} :
    f.set name v = .values g ↔ ∃ n b, name = FlagName.text n ∧ v = some b ∧ g = f.put n b := by
  constructor
  · intro h
    unfold Flags.set at h
    split at h
    · subst name; cases v with
      | none => cases h
      | some b => simp only [Parsed.values.injEq] at h; exact ⟨.f, b, rfl, rfl, h.symm⟩
    · split at h
      · subst name; cases v with
        | none => cases h
        | some b => simp only [Parsed.values.injEq] at h; exact ⟨.d, b, rfl, rfl, h.symm⟩
      · split at h
        · subst name; cases v with
          | none => cases h
          | some b => simp only [Parsed.values.injEq] at h; exact ⟨.h, b, rfl, rfl, h.symm⟩
        · split at h <;> cases h
  · rintro ⟨n, b, rfl, rfl, rfl⟩
    cases n <;> rfl

theorem one_values {f g : Flags} {body : Str} :
    f.one body = .values g ↔ ∃ n b, g = f.put n b ∧
      ((body = FlagName.text n ∧ b = true) ∨ ∃ v ∈ boolTexts b, body = FlagName.text n ++ str "=" ++ v) := by
  constructor
  · intro h
    unfold Flags.one at h
    split at h
    · cases h
    · split at h
      · cases h
      · split at h
        · rename_i e
          obtain ⟨n, b, rfl, hb, rfl⟩ := set_values.1 h
          simp only [Option.some.injEq] at hb
          exact ⟨n, b, rfl, .inl ⟨splitEq_none e, hb.symm⟩⟩
        · rename_i e
          obtain ⟨n, b, rfl, hb, rfl⟩ := set_values.1 h
          exact ⟨n, b, rfl, .inr ⟨_, (parseBool_eq _ _).1 hb, splitEq_some e⟩⟩
  · rintro ⟨n, b, rfl, ⟨rfl, rfl⟩ | ⟨v, hv, rfl⟩⟩
    · cases n <;> rfl
    · have h2 : ∀ n : FlagName, f.one (n.text ++ str "=" ++ v) = f.set n.text (parseBool v) := by
        intro n; cases n <;> rfl
      rw [h2]
      exact set_values.2 ⟨n, b, rfl, (parseBool_eq _ _).2 hv, rfl⟩

theorem text_cons (n : FlagName) : ∃ c, FlagName.text n = [c] ∧ c ≠ 0x2d := by
  cases n
  · exact ⟨0x66, rfl, by decide⟩
  · exact ⟨0x64, rfl, by decide⟩
  · exact ⟨0x68, rfl, by decide⟩

theorem parse_stop (f : Flags) {a : Str} (rest : List Str) (h : Plain a) : f.parse (a :: rest) = .values f := by
  match a with
  | [] => rfl
  | [_] => rfl
  | c :: c2 :: s =>
    by_cases hc : c = 0x2d
    · subst hc
      rcases h with h | h | h
      · cases h
      · cases h; rfl
      · exact absurd rfl (h (c2 :: s))
    · unfold Flags.parse; rw [if_pos hc]

theorem parse_dash (f : Flags) (body : Str) (rest : List Str) (dashes : Str) (hd : dashes ∈ [str "-", str "--"])
    (hb : ∃ c s, body = c :: s ∧ c ≠ 0x2d) : f.parse ((dashes ++ body) :: rest) =
      match f.one body with | .values g => g.parse rest | .exit k => .exit k := by
  obtain ⟨c, s, rfl, hc⟩ := hb
  simp only [List.mem_cons, List.not_mem_nil, or_false] at hd
  rcases hd with rfl | rfl
  · show Flags.parse f ((0x2d :: c :: s) :: rest) = _
    rw [Flags.parse, if_neg (by simp), if_neg hc]; rfl
  · show Flags.parse f ((0x2d :: 0x2d :: c :: s) :: rest) = _
    rw [Flags.parse, if_neg (by simp), if_pos rfl, if_neg (by simp)]; rfl

theorem parse_values {args : List Str} : ∀ {f g : Flags}, f.parse args = .values g ↔
    ∃ ss, Accepted args ss ∧ g.force = lastSetting .f f.force ss ∧ g.debug = lastSetting .d f.debug ss ∧
      g.usage = lastSetting .h f.usage ss := by
  have hput : ∀ (f : Flags) n b, (f.put n b).force = (if n = .f then b else f.force) ∧
      (f.put n b).debug = (if n = .d then b else f.debug) ∧ (f.put n b).usage = (if n = .h then b else f.usage) := by
    intro f n b; cases n <;> exact ⟨rfl, rfl, rfl⟩
  have hnil : ∀ {f g : Flags}, g.force = f.force → g.debug = f.debug → g.usage = f.usage → g = f := by
    intro f g a b c; cases f; cases g; simp_all
  induction args with
  | nil =>
    intro f g
    constructor
    · intro h; simp only [Flags.parse, Parsed.values.injEq] at h; subst h; exact ⟨[], .nil, rfl, rfl, rfl⟩
    · rintro ⟨ss, h, a, b, c⟩; cases h; rw [hnil a b c]; rfl
  | cons a rest ih =>
    intro f g
    constructor
    · intro h
      by_cases hp : Plain a
      · rw [parse_stop f rest hp] at h
        simp only [Parsed.values.injEq] at h; subst h
        exact ⟨[], .stop a rest hp, rfl, rfl, rfl⟩
      · have key : ∀ dashes ∈ [str "-", str "--"], ∀ body, a = dashes ++ body →
            (match f.one body with | .values g => g.parse rest | .exit k => .exit k) = Parsed.values g →
            ∃ ss, Accepted (a :: rest) ss ∧ g.force = lastSetting .f f.force ss ∧
              g.debug = lastSetting .d f.debug ss ∧ g.usage = lastSetting .h f.usage ss := by
          intro dashes hd body ha h
          cases e : f.one body with
          | exit k => rw [e] at h; cases h
          | values f' =>
            rw [e] at h
            obtain ⟨n, b, rfl, hs⟩ := one_values.1 e
            obtain ⟨ss, h1, h2, h3, h4⟩ := ih.1 h
            refine ⟨(n, b) :: ss, .cons a rest n b ss ?_ h1, ?_, ?_, ?_⟩
            · refine ⟨dashes, hd, ?_⟩
              rcases hs with ⟨rfl, hb⟩ | ⟨v, hv, rfl⟩
              · exact .inl ⟨ha, hb⟩
              · exact .inr ⟨v, hv, by rw [ha]; simp⟩
            · rw [h2, (hput f n b).1]; rfl
            · rw [h3, (hput f n b).2.1]; rfl
            · rw [h4, (hput f n b).2.2]; rfl
        match a, hp, h, key with
        | [], hp, _, _ => exact absurd (.inr (.inr (by intro s h; cases h))) hp
        | [c], hp, _, _ =>
          exfalso; apply hp
          by_cases hc : c = 0x2d
          · subst hc; exact .inl rfl
          · refine .inr (.inr ?_)
            intro s h
            have : c = 0x2d := by injection h
            exact hc this
        | c :: c2 :: s, hp, h, key =>
          rw [Flags.parse] at h
          by_cases hc : c = 0x2d
          · subst hc
            rw [if_neg (by simp)] at h
            by_cases h2 : c2 = 0x2d
            · subst h2
              rw [if_pos rfl] at h
              by_cases hs : s = []
              · subst hs; exact absurd (.inr (.inl rfl)) hp
              · rw [if_neg hs] at h
                exact key (str "--") (by simp) s rfl h
            · rw [if_neg h2] at h
              exact key (str "-") (by simp) (c2 :: s) rfl h
          · exfalso; apply hp
            refine .inr (.inr ?_)
            intro t h
            have : c = 0x2d := by injection h
            exact hc this
    · rintro ⟨ss, h, h2, h3, h4⟩
      cases h with
      | stop _ _ hp => rw [parse_stop f rest hp, hnil h2 h3 h4]
      | cons _ _ n b ss hs h1 =>
        have hrest := ih.2 ⟨ss, h1, (show g.force = lastSetting .f (f.put n b).force ss by
            rw [h2, (hput f n b).1]; rfl), (show g.debug = lastSetting .d (f.put n b).debug ss by
            rw [h3, (hput f n b).2.1]; rfl), (show g.usage = lastSetting .h (f.put n b).usage ss by
            rw [h4, (hput f n b).2.2]; rfl)⟩
        obtain ⟨c, hc, hc'⟩ := text_cons n
        obtain ⟨dashes, hd, ⟨rfl, rfl⟩ | ⟨v, hv, rfl⟩⟩ := hs
        · rw [parse_dash f n.text rest dashes hd ⟨c, [], hc, hc'⟩, one_values.2 ⟨n, true, rfl, .inl ⟨rfl, rfl⟩⟩]
          exact hrest
        · rw [List.append_assoc, List.append_assoc, ← List.append_assoc n.text,
            parse_dash f _ rest dashes hd ⟨c, str "=" ++ v, by rw [hc]; rfl, hc'⟩,
            one_values.2 ⟨n, b, rfl, .inr ⟨v, hv, rfl⟩⟩]
          exact hrest

theorem exit_values {args : List Str} : ∀ {f : Flags} {k}, f.parse args = .exit k → k = 0 ∨ k = 2 := by
  have hset : ∀ {f : Flags} {n v k}, f.set n v = .exit k → k = 0 ∨ k = 2 := by
    intro f n v k h
    unfold Flags.set at h
    (repeat' split at h) <;> simp_all
  have hone : ∀ {f : Flags} {b k}, f.one b = .exit k → k = 0 ∨ k = 2 := by
    intro f b k h
    unfold Flags.one at h
    split at h
    · simp at h; exact .inr h.symm
    · split at h
      · simp at h; exact .inr h.symm
      · split at h <;> exact hset h
  induction args with
  | nil => intro f k h; cases h
  | cons a rest ih =>
    intro f k h
    match a, h with
    | [], h => cases h
    | [_], h => cases h
    | c :: c2 :: s, h =>
      rw [Flags.parse] at h
      split at h
      · cases h
      · split at h
        · split at h
          · cases h
          · split at h
            · exact ih h
            · rename_i e; simp only [Parsed.exit.injEq] at h; subst h; exact hone e
        · split at h
          · exact ih h
          · rename_i e; simp only [Parsed.exit.injEq] at h; subst h; exact hone e

/-! ## C70 -/

/-- C70: the meaning of the arguments, for every argument list. If it is a list of settings (up to a plain argument),
the last setting of each flag counts and `-f` is on if not mentioned: with `-h` on the command ends with status 0 and
does nothing; otherwise it ends with status 1 if logging cannot be set up, and else performs `Update` with that
`-f`, and the status is 0, 1 or 2 as `Update` returned nil, returned an error, or panicked. Every other argument list
ends the command with status 0 or 2 before it has done anything. -/
theorem C70_args (args : List Str) (logOK : Bool) (env : Env) (w : World) :
    (∃ ss, Accepted args ss ∧ updateMain args logOK env w =
      if lastSetting .h false ss = true then (0, w) else if logOK = false then (1, w) else
        (match (update ⟨true⟩ env (lastSetting .f true ss) w).1 with | .ok _ => 0 | .err => 1 | .panic => 2,
          (update ⟨true⟩ env (lastSetting .f true ss) w).2)) ∨
    ((∀ ss, ¬ Accepted args ss) ∧ ∃ k, (k = 0 ∨ k = 2) ∧ updateMain args logOK env w = (k, w)) := by
  unfold updateMain
  cases e : Flags.default.parse args with
  | exit k =>
    refine .inr ⟨?_, k, exit_values e, rfl⟩
    intro ss h
    have := (parse_values (f := Flags.default) (g := ⟨lastSetting .f true ss, lastSetting .d false ss,
      lastSetting .h false ss⟩)).2 ⟨ss, h, rfl, rfl, rfl⟩
    rw [e] at this; cases this
  | values f =>
    obtain ⟨ss, h1, h2, -, h4⟩ := parse_values.1 e
    refine .inl ⟨ss, h1, ?_⟩
    rw [← show f.usage = lastSetting .h false ss from h4, ← show f.force = lastSetting .f true ss from h2]
    simp only
    split
    · rfl
    · cases logOK with
      | false => rfl
      | true =>
        simp only [Bool.not_true, Bool.false_eq_true, if_false, Bool.true_eq_false]
        cases update ⟨true⟩ env f.force w with
        | mk r w' => cases r <;> rfl

/-- In a steady environment the check depends on the archive only. -/
theorem steady_check {env : Env} {a : HeadAns} (hs : env.Steady a) {v w : World} (h : v.fs = w.fs) :
    (isUpdateRequired env v).1 = (isUpdateRequired env w).1 := by
  unfold isUpdateRequired statFile
  rw [if_neg (by simp [hs.stat]), if_neg (by simp [hs.stat]), h]
  cases w.fs.file .archive with
  | none => rfl
  | some d => simp only [hs.head]

theorem download_false {cfg : LoaderCfg} {env : Env} {w w1 : World} (e : downloadUpdate cfg env w = (.ok false, w1)) :
    (isUpdateRequired env w).1 = .ok false := by
  unfold downloadUpdate at e
  cases e1 : isUpdateRequired env w with
  | mk r w2 =>
    rw [e1] at e
    cases r with
    | err => cases e
    | panic => cases e
    | ok b =>
      cases b with
      | false => rfl
      | true =>
        exfalso
        simp only at e
        split at e
        · cases e
        · split at e
          · cases e
          · split at e
            · cases e
            · split at e <;> cases e

/-- Where `Update` goes. -/
theorem update_paths (cfg : LoaderCfg) (env : Env) (force : Bool) (w : World) :
    ∃ v, Same w v ∧
      (((isUpdateRequired env w).1 = .ok true ∧ update cfg env force w = stepDownload cfg env v) ∨
       ((isUpdateRequired env w).1 = .ok false ∧
          update cfg env force w = if force then stepCompile env v else (.ok (), v)) ∨
       (isUpdateRequired env w).1 = .err ∨ (isUpdateRequired env w).1 = .panic) := by
  have h1 := required_same env w
  cases e1 : isUpdateRequired env w with
  | mk r w1 =>
    rw [e1] at h1
    refine ⟨w1.tick.tick, (h1.trans (tick_same _)).trans (tick_same _), ?_⟩
    obtain ⟨dl, hdl⟩ : ∃ dl, fileExists env .archive w1 = (dl, w1.tick) := ⟨_, Prod.ext rfl (exists_same _ _ _)⟩
    obtain ⟨un, hun⟩ : ∃ un, fileExists env .xml w1.tick = (un, w1.tick.tick) :=
      ⟨_, Prod.ext rfl (exists_same _ _ _)⟩
    cases r with
    | err => exact .inr (.inr (.inl rfl))
    | panic => exact .inr (.inr (.inr rfl))
    | ok b =>
      cases b with
      | true =>
        refine .inl ⟨rfl, ?_⟩
        unfold update; rw [e1]; simp only [hdl, hun, decideUpdate]
      | false =>
        refine .inr (.inl ⟨rfl, ?_⟩)
        unfold update; rw [e1]; simp only [hdl, hun, decideUpdate]
        cases force <;> rfl

/-- C70, if the server answers every question alike and no write error goes unnoticed: called without arguments (or
with `-f` on), the command ends with status 0 only if the compiled index on the disk is that of the unpacked
dictionary on the disk. -/
theorem C70_partial (args : List Str) (ss : List (FlagName × Bool)) (ha : Accepted args ss)
    (hf : lastSetting .f true ss = true) (hh : lastSetting .h false ss = false) (logOK : Bool) (env : Env)
    (a : HeadAns) (hs : env.Steady a) (hlate : ∀ n, env.late n = false) (w w' : World)
    (h : updateMain args logOK env w = (0, w')) :
    ∃ d s got t, w'.fs.file .xml = some d ∧ got <+: d.data ∧
      ((PState.init Index.new 0).run env.floatOK (env.tokens got).1 = (s, none) ∧ got = d.data ∨
        (PState.init Index.new 0).run env.floatOK (env.tokens got).1 = (s, some .controlledStop)) ∧
      s.ix.optimize.1.save.err = none ∧
      w'.fs.file .compiled = some ⟨s.ix.optimize.1.save.bytes, t⟩ := by
  have hp := parse_values (f := Flags.default) (g := ⟨lastSetting .f true ss, lastSetting .d false ss,
      lastSetting .h false ss⟩) |>.2 ⟨ss, ha, rfl, rfl, rfl⟩
  unfold updateMain at h
  rw [hp, hf, hh] at h
  simp only [Bool.false_eq_true, if_false] at h
  cases logOK with
  | false => simp at h
  | true =>
    simp only [Bool.not_true, Bool.false_eq_true, if_false] at h
    have hu : update ⟨true⟩ env true w = (.ok (), w') := by
      cases e : update ⟨true⟩ env true w with
      | mk r v => rw [e] at h; cases r <;> simp_all
    rcases update_took ⟨true⟩ env true w with ⟨es, t, h0, k⟩ | ⟨s, k⟩
    · rw [hu] at t
      have hev := t.ev
      have hok := t.ok.1 rfl
      have hcomp : ∀ b, .compiled b ∈ es → .compiled b ∈ w'.ev.drop w.ev.length := by
        intro b hb; simp only at hev; rw [hev, List.drop_left]; exact hb
      rcases k with ⟨r, rfl | rfl | rfl | ⟨b, rfl⟩⟩ | ⟨_, _, b, rfl⟩ | ⟨_, _, rfl | ⟨b, rfl⟩ | ⟨b, rfl⟩⟩
      · exact absurd (hok _ (List.mem_singleton_self _)) (by simp [Ev.good])
      · exfalso
        obtain ⟨v, hv, hv'⟩ := update_paths ⟨true⟩ env true w
        rw [r] at hv'
        simp only [true_and, reduceCtorEq, false_and, or_false, LRes.ok.injEq, Bool.true_eq_false] at hv'
        rw [hu] at hv'
        obtain ⟨es', t', hes'⟩ := download_took ⟨true⟩ env v
        rw [← hv'] at t'
        have h5 := t'.ev
        simp only at h5 hev
        rw [hev, hv.2.2, List.append_right_inj] at h5
        unfold stepDownload at hv'
        cases e4 : downloadUpdate ⟨true⟩ env v with
        | mk r4 w4 =>
          rw [e4] at hv'
          have hd : (isUpdateRequired env v).1 = .ok true := by rw [steady_check hs hv.1, r]
          cases r4 with
          | err => cases hv'
          | panic => cases hv'
          | ok b =>
            cases b with
            | false => rw [download_false e4] at hd; cases hd
            | true =>
              simp only at hv'
              rcases unpack_took ⟨true⟩ env (w4.note (.downloaded true)) with h | ⟨b, h⟩ <;>
              · rw [← hv'] at h
                have h6 := h.ev
                have hw4 := (download_wrote ⟨true⟩ env v).1
                rw [e4] at hw4
                simp only [World.note] at h6 hw4
                rw [hev, hw4, hv.2.2, List.append_assoc, List.append_right_inj] at h6
                cases h6
      · exact absurd (hok (.unpacked false) (by simp)) (by simp [Ev.good])
      · exact C61_partial ⟨true⟩ env true w w' b hlate hu (hcomp b (by simp))
      · exact C61_partial ⟨true⟩ env true w w' b hlate hu (hcomp b (by simp))
      · exact absurd (hok _ (List.mem_singleton_self _)) (by simp [Ev.good])
      · exact C61_partial ⟨true⟩ env true w w' b hlate hu (hcomp b (by simp))
      · exact C61_partial ⟨true⟩ env true w w' b hlate hu (hcomp b (by simp))
    · exfalso
      rw [hu] at k
      rcases k with ⟨_, k⟩ | ⟨_, k⟩ | ⟨_, k, _⟩ <;> cases k

/-- The hypotheses of C70 are met: no arguments, a first update. -/
example : ∃ w', updateMain [] true plainEnv emptyWorld = (0, w') ∧ Accepted [] [] ∧
    plainEnv.Steady (.answer 200 (.time 10)) := ⟨_, rfl, .nil, fun _ => rfl, fun _ => rfl⟩

example : Accepted [str "-d", str "--f=F", str "x", str "-f"] [(.d, true), (.f, false)] :=
  .cons _ _ _ _ _ ⟨str "-", by simp, .inl ⟨rfl, rfl⟩⟩
    (.cons _ _ _ _ _ ⟨str "--", by simp, .inr ⟨str "F", by simp [boolTexts], rfl⟩⟩
      (.stop _ _ (.inr (.inr (by intro s h; cases h)))))

/-- The word after `-f` is not its value: `-f false` leaves it on. -/
example : Flags.default.parse [str "-f", str "false"] = .values ⟨true, false, false⟩ := by decide
example : Flags.default.parse [str "-f=false"] = .values ⟨false, false, false⟩ := by decide
example : Flags.default.parse [str "-f=no"] = .exit 2 := by decide
example : Flags.default.parse [str "-x"] = .exit 2 := by decide
example : Flags.default.parse [str "-help"] = .exit 0 := by decide

/-- C70 fails if the server answers differently the second time: the command ends with status 0 after having done
nothing, and there is no index. -/
theorem not_C70_changed : ∃ (env : Env) (w w' : World), env.Calm ∧ (∀ n, env.late n = false) ∧
    updateMain [] true env w = (0, w') ∧ w'.ev = w.ev ++ [.notUpdated] ∧ LoadFails w'.fs :=
  ⟨{ plainEnv with head := fun n => if n = 1 then .answer 200 (.time 100) else .answer 200 .absent }, archiveWorld, _,
    ⟨fun _ => rfl, fun _ => rfl, fun _ => rfl, fun _ => rfl, fun _ => rfl, fun _ => rfl⟩, fun _ => rfl, rfl, rfl,
    load_missing rfl⟩

/-- C70 fails if a write error shows only when the file is closed: status 0, and there is no index. -/
theorem not_C70_late : ∃ (env : Env) (w w' : World), env.Steady (.answer 200 (.time 10)) ∧
    updateMain [] true env w = (0, w') ∧ w'.ev = w.ev ++ [.downloaded true, .unpacked true, .compiled true] ∧
    LoadFails w'.fs := by
  refine ⟨{ plainEnv with room := fun n => if n = 14 then some 0 else none, late := fun _ => true }, emptyWorld, _,
    ⟨fun _ => rfl, fun _ => rfl⟩, rfl, by decide, load_prefix (p := []) (t := 114) (by decide) ?_⟩
  intro q hq
  obtain rfl := List.prefix_nil.1 hq
  exact ⟨_, rfl⟩

/-- With `-f=false` status 0 says nothing about the index, even if nothing fails. -/
theorem not_C70_unforced : ∃ (env : Env) (w w' : World), env.Calm ∧ env.Steady (.answer 200 (.time 10)) ∧
    updateMain [str "-f=false"] true env w = (0, w') ∧ LoadFails w'.fs :=
  ⟨plainEnv, archiveWorld, _, quietEnv_calm _ _ _ _ _, ⟨fun _ => rfl, fun _ => rfl⟩, rfl, load_missing rfl⟩

/-! ## C71 — updating again -/

/-- Saving in an environment in which nothing fails. -/
theorem save_calm {env : Env} (hc : env.Calm) {w : World} (hd : w.fs.dir = true) (ix : Index) :
    (ix.optimize.2 = .ok () ∧ ix.optimize.1.save.err = none →
      ∃ w' t, saveIndex env ix w = (.ok (), w') ∧ w'.fs.file .compiled = some ⟨ix.optimize.1.save.bytes, t⟩) ∧
    (¬ (ix.optimize.2 = .ok () ∧ ix.optimize.1.save.err = none) → (saveIndex env ix w).1 ≠ .ok ()) := by
  unfold saveIndex
  rw [create_ok hc .compiled hd]
  obtain ⟨jx, o, hj⟩ : ∃ jx o, ix.optimize = (jx, o) := ⟨_, _, rfl⟩
  simp only [hj, hc.room, accepted, ne_eq, not_true_eq_false, false_and, or_false]
  cases o with
  | ok u =>
    by_cases h3 : jx.save.err = none
    · refine ⟨fun _ => ?_, fun h => absurd ⟨rfl, h3⟩ h⟩
      simp only
      rw [if_neg (not_not_intro h3)]
      exact ⟨_, _, rfl, put_self _ _ _⟩
    · refine ⟨fun h => absurd h.2 h3, fun _ => ?_⟩
      simp only
      rw [if_pos h3]; simp
  | err e' => exact ⟨fun h => by simp at h, fun _ => by simp⟩
  | panic => exact ⟨fun h => by simp at h, fun _ => by simp⟩
  | diverge => exact ⟨fun h => by simp at h, fun _ => by simp⟩

/-- Compiling in an environment in which nothing fails. -/
theorem parse_calm {env : Env} (hc : env.Calm) {w : World} (hd : w.fs.dir = true) {d : FileData}
    (hx : w.fs.file .xml = some d) :
    (∀ bytes, compiledBytes env d.data = some bytes →
      ∃ w' t, parseUpdate env w = (.ok (), w') ∧ w'.fs.file .compiled = some ⟨bytes, t⟩) ∧
    (compiledBytes env d.data = none → (parseUpdate env w).1 = .err) := by
  unfold compiledBytes parseUpdate
  rw [open_ok hc hx]
  obtain ⟨s, e, he⟩ : ∃ s e, (PState.init Index.new 0).run env.floatOK (env.tokens d.data).1 = (s, e) := ⟨_, _, rfl⟩
  simp only [he]
  obtain ⟨k1, k2⟩ := save_calm hc (w := w.tick) hd s.ix
  by_cases h1 : e = some .controlledStop ∨ e = none ∧ (env.tokens d.data).2 = true
  · rw [if_pos (show e = some .controlledStop ∨ e = none ∧ True ∧ (env.tokens d.data).2 = true by simpa using h1)]
    by_cases h2 : s.ix.optimize.2 = .ok () ∧ s.ix.optimize.1.save.err = none
    · rw [if_pos ⟨h1, h2⟩]
      obtain ⟨w', t, e1, e2⟩ := k1 h2
      rw [e1]
      refine ⟨?_, fun h => (by cases h)⟩
      intro bytes hb
      simp only [Option.some.injEq] at hb
      subst hb
      exact ⟨w', t, rfl, e2⟩
    · rw [if_neg (fun h => h2 h.2)]
      refine ⟨fun _ h => (by cases h), fun _ => ?_⟩
      have := k2 h2
      split
      · rename_i h; rw [h] at this; exact absurd rfl this
      · rfl
  · rw [if_neg (show ¬ (e = some .controlledStop ∨ e = none ∧ True ∧ (env.tokens d.data).2 = true) by
      simpa using h1), if_neg (fun h => h1 h.1)]
    exact ⟨fun _ h => (by cases h), fun _ => rfl⟩

theorem create_dir {env : Env} {f : FName} {w w' : World} (h : createFile env f w = (true, w')) :
    w.fs.dir = true ∧ w'.fs.dir = true := by
  unfold createFile at h
  split at h
  · cases h
  · rename_i hc
    simp only [Prod.mk.injEq, true_and] at h
    subst h
    have : w.fs.dir = true := by
      cases e : w.fs.dir with
      | true => rfl
      | false => exact absurd (.inr e) hc
    exact ⟨this, this⟩

theorem save_dir {env : Env} {ix : Index} {w w' : World} (h : saveIndex env ix w = (.ok (), w')) :
    w.fs.dir = true ∧ w'.fs.dir = true := by
  unfold saveIndex at h
  split at h
  · cases h
  · rename_i hcr
    have hd := create_dir hcr
    split at h
    · simp only at h
      split at h
      · cases h
      · simp only [Prod.mk.injEq, true_and] at h
        subst h
        exact hd
    · cases h

/-- A download leaves an archive dated by the clock. -/
theorem download_dated {cfg : LoaderCfg} {env : Env} {w w1 : World} (e : downloadUpdate cfg env w = (.ok true, w1)) :
    ∃ d n, w1.fs.file .archive = some d ∧ d.mtime = env.now n := by
  unfold downloadUpdate at e
  split at e
  · cases e
  · cases e
  · cases e
  · split at e
    · cases e
    · split at e
      · cases e
      · split at e
        · cases e
        · split at e
          · cases e
          · rename_i hcp
            simp only [Prod.mk.injEq, true_and] at e
            subst e
            unfold copyTo at hcp
            simp only [Prod.mk.injEq] at hcp
            rw [← hcp.2]
            exact ⟨_, _, put_self _ _ _, rfl⟩

theorem Touched.now {S : FName → Prop} {w w' : World} (h : Touched S w w') {g : FName} (hg : ¬ S g) :
    w'.fs.file g = w.fs.file g := by
  obtain ⟨l, -, hl⟩ := h
  exact hl w'.fs (by simp) g hg

theorem unpack_keeps_archive (cfg : LoaderCfg) (env : Env) (w : World) :
    (stepUnpack cfg env w).2.fs.file .archive = w.fs.file .archive := by
  rcases unpack_took cfg env w with h | ⟨b, h⟩ <;> exact h.files.now (by simp [Writes])

/-- After an `Update` that returned nil the archive is not older than the server says, if the local clock is not
behind the server's. -/
theorem updated_archive {cfg : LoaderCfg} {env : Env} {t : Int} (hs : env.Steady (.answer 200 (.time t)))
    (hclock : ∀ n, t ≤ env.now n) {force : Bool} {w w' : World} (h : update cfg env force w = (.ok (), w')) :
    ∃ d, w'.fs.file .archive = some d ∧ t ≤ d.mtime := by
  obtain ⟨v, hv, k⟩ := update_paths cfg env force w
  have hp := C55_partial env w (hs.stat _)
  have hold : (isUpdateRequired env w).1 = .ok false → ∃ d, w.fs.file .archive = some d ∧ t ≤ d.mtime := by
    intro r
    obtain ⟨d, lm, hd, hlm, hor⟩ := hp.2.2.1.1 r
    rw [hs.head] at hlm
    simp only [HeadAns.answer.injEq, true_and] at hlm
    subst hlm
    rcases hor with hor | ⟨t', ht, hle⟩
    · cases hor
    · simp only [LastMod.time.injEq] at ht; subst ht; exact ⟨d, hd, hle⟩
  rcases k with ⟨r, e⟩ | ⟨r, e⟩ | r | r
  · rw [h] at e
    unfold stepDownload at e
    cases e4 : downloadUpdate cfg env v with
    | mk r4 w4 =>
      rw [e4] at e
      cases r4 with
      | err => cases e
      | panic => cases e
      | ok b =>
        cases b with
        | false =>
          have := download_false e4
          rw [steady_check hs hv.1, r] at this; cases this
        | true =>
          obtain ⟨d, n, hd, hm⟩ := download_dated e4
          have := unpack_keeps_archive cfg env (w4.note (.downloaded true))
          simp only at e
          rw [← e] at this
          exact ⟨d, this.trans hd, hm ▸ hclock n⟩
  · obtain ⟨d, hd, hle⟩ := hold r
    refine ⟨d, ?_, hle⟩
    rw [h] at e
    cases force with
    | false => simp only [Bool.false_eq_true, if_false, Prod.mk.injEq, true_and] at e; rw [e, hv.1, hd]
    | true =>
      simp only [if_true] at e
      obtain ⟨b, hb⟩ := compile_took env v
      rw [← e] at hb
      rw [hb.files.now (g := .archive) (by simp [Writes]), hv.1, hd]
  · exact absurd ((hp.2.2.2.1 r).2 (.time t)) (by simp [hs.head])
  · exact absurd r hp.1

/-- C71, if the local clock is not behind the server's: after an `Update` that returned nil, while the server offers
nothing newer, an `Update` without force returns nil and does nothing at all. -/
theorem C71_partial (cfg : LoaderCfg) (env : Env) (t : Int) (hs : env.Steady (.answer 200 (.time t)))
    (hclock : ∀ n, t ≤ env.now n) (force : Bool) (w w' : World) (h : update cfg env force w = (.ok (), w')) :
    (update cfg env false w').1 = .ok () ∧ (update cfg env false w').2.fs = w'.fs ∧
      (update cfg env false w').2.past = w'.past := by
  obtain ⟨d, hd, hle⟩ := updated_archive hs hclock h
  exact C45_up_to_date cfg env w' (((C55_partial env w' (hs.stat _)).2.2.1).2
    ⟨d, .time t, hd, hs.head _, .inr ⟨t, rfl, hle⟩⟩)

/-- C71, forced: if moreover nothing fails, then after an `Update` that compiled, a forced `Update` returns nil,
leaves the archive and the unpacked dictionary alone, and compiles the same bytes again. -/
theorem C71_forced (cfg : LoaderCfg) (env : Env) (hc : env.Calm) (t : Int)
    (hs : env.Steady (.answer 200 (.time t))) (hclock : ∀ n, t ≤ env.now n) (force : Bool) (w w' : World)
    (h : update cfg env force w = (.ok (), w')) (b : Bool) (hb : .compiled b ∈ w'.ev.drop w.ev.length) :
    ∃ w'' d d', update cfg env true w' = (.ok (), w'') ∧ w''.fs.file .archive = w'.fs.file .archive ∧
      w''.fs.file .xml = w'.fs.file .xml ∧ w'.fs.file .compiled = some d ∧ w''.fs.file .compiled = some d' ∧
      d'.data = d.data := by
  obtain ⟨da, hda, hle⟩ := updated_archive hs hclock h
  have hreq : (isUpdateRequired env w').1 = .ok false := ((C55_partial env w' (hs.stat _)).2.2.1).2
    ⟨da, .time t, hda, hs.head _, .inr ⟨t, rfl, hle⟩⟩
  rcases update_ok h with ⟨w0, w1, hp, he⟩ | ⟨-, hno⟩
  · obtain ⟨d, s, e, hx0, hx1, -, -, hsave⟩ := parse_ok hp
    have hd := save_dir hsave
    have hk := parse_calm hc (w := w0) hd.1 hx0
    obtain ⟨v, hv, k⟩ := update_paths cfg env true w'
    rw [hreq] at k
    simp only [reduceCtorEq, false_and, or_false, LRes.ok.injEq, Bool.false_eq_true, true_and, false_or,
      if_true] at k
    have hvd : v.fs.dir = true := by rw [hv.1, he]; exact hd.2
    have hvx : v.fs.file .xml = some d := by rw [hv.1, he]; exact hx1
    cases hcb : compiledBytes env d.data with
    | none => have := hk.2 hcb; rw [hp] at this; cases this
    | some bytes =>
      obtain ⟨w2, t2, e2, c2⟩ := hk.1 bytes hcb
      rw [hp] at e2
      simp only [Prod.mk.injEq, true_and] at e2
      subst e2
      obtain ⟨w3, t3, e3, c3⟩ := (parse_calm hc hvd hvx).1 bytes hcb
      have hw3 := (parse_wrote env v).2
      rw [e3] at hw3
      refine ⟨w3.note (.compiled true), ⟨bytes, t2⟩, ⟨bytes, t3⟩, ?_, ?_, ?_, by rw [he]; exact c2, c3, rfl⟩
      · rw [k]; unfold stepCompile; rw [e3]
      · show w3.fs.file .archive = _
        rw [hw3.now (by simp), hv.1]
      · show w3.fs.file .xml = _
        rw [hw3.now (by simp), hv.1]
  · exact absurd hb (hno b)

/-- The hypotheses of C71 are met: an empty directory, the clock starts at 100, the archive is from time 10. -/
example : plainEnv.Steady (.answer 200 (.time 10)) ∧ (∀ n, 10 ≤ plainEnv.now n) ∧ plainEnv.Calm ∧
    ∃ w', update ⟨true⟩ plainEnv true emptyWorld = (.ok (), w') ∧ .compiled true ∈ w'.ev.drop emptyWorld.ev.length :=
  ⟨⟨fun _ => rfl, fun _ => rfl⟩, fun n => by show (10 : Int) ≤ 100 + n; omega, quietEnv_calm _ _ _ _ _, _, rfl,
    by decide⟩

/-- C71 fails if the local clock is behind the server's: every `Update` downloads and compiles everything again. -/
theorem not_C71 : ∃ (env : Env) (w w' : World), env.Calm ∧ env.Steady (.answer 200 (.time 1000)) ∧
    update ⟨true⟩ env false w = (.ok (), w') ∧
    (update ⟨true⟩ env false w').2.ev = w'.ev ++ [.downloaded true, .unpacked true, .compiled true] :=
  ⟨quietEnv (str "abc") 1000 (fun n => 100 + n) (fun s => (s, true)) (fun _ => ([], true)), emptyWorld, _,
    quietEnv_calm _ _ _ _ _, ⟨fun _ => rfl, fun _ => rfl⟩, rfl, by decide⟩

end Verif
