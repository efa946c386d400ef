import Verif.Spec.UsageText
import Verif.Props.UpdateCmd

/-!
# C126 — the usage screen of the update command tells the truth
-/

namespace Verif

theorem screenLines_line (a b : Str) (h : (0x0a : UInt8) ∉ a) : screenLines (a ++ 0x0a :: b) = a :: screenLines b := by
  induction a with
  | nil => rfl
  | cons c a ih =>
    have hc : c ≠ 0x0a := fun e => h (by rw [e]; exact List.mem_cons_self)
    rw [List.cons_append, screenLines, if_neg hc, ih fun hm => h (List.mem_cons_of_mem _ hm)]

/-- The options on the screen, for every name of the program without line ends. -/
theorem options_listed (argv0 : Str) (h : (0x0a : UInt8) ∉ pathBase argv0) :
    optionsOn (usageScreen argv0) = [(str "d", false), (str "f", true), (str "h", false)] := by
  have e : usageScreen argv0 = (pathBase argv0 ++ (str " - " ++ programDescription)) ++ 0x0a :: 0x0a :: flagDefaults := by
    simp [usageScreen]
  unfold optionsOn
  rw [e, screenLines_line]
  · show List.filterMap optionOf (List.drop 1 (screenLines (0x0a :: flagDefaults))) = _
    decide +kernel
  · intro hm
    rcases List.mem_append.1 hm with hm | hm
    · exact h hm
    · exact absurd hm (by decide +kernel)

/-- C126: the options on the usage screen are just those the command accepts, and the value shown as the default is the value
in effect. For every name `n` that can be a name of an option (not empty, without `=` and without another dash in front): `-n` is
accepted if and only if the screen lists it; and to set a listed option to its default, before any other arguments, changes
nothing at all: neither the exit status nor what is done nor what is written. -/
theorem C126 (argv0 : Str) (h : (0x0a : UInt8) ∉ pathBase argv0) :
    (∀ n : Str, n ≠ [] → n.head? ≠ some 0x2d → (0x3d : UInt8) ∉ n →
      ((∃ ss, Accepted [str "-" ++ n] ss) ↔ ∃ b, (n, b) ∈ optionsOn (usageScreen argv0))) ∧
    ∀ n b, (n, b) ∈ optionsOn (usageScreen argv0) → ∀ args logOK env w complaint,
      updateMain ((str "-" ++ n ++ str "=" ++ boolText b) :: args) logOK env w = updateMain args logOK env w ∧
      usageOutput complaint argv0 ((str "-" ++ n ++ str "=" ++ boolText b) :: args) = usageOutput complaint argv0 args := by
  rw [options_listed argv0 h]
  constructor
  · intro n h0 h1 h2
    constructor
    · rintro ⟨ss, ha⟩
      cases ha with
      | stop _ _ hp =>
        rcases hp with hp | hp | hp
        · exact absurd (List.cons.inj hp).2 h0
        · exact absurd (congrArg List.head? (List.cons.inj hp).2) h1
        · exact absurd rfl (hp n)
      | cons _ _ m b ss hs _ =>
        obtain ⟨dashes, hd, hs⟩ := hs
        simp only [List.mem_cons, List.not_mem_nil, or_false] at hd
        rcases hd with rfl | rfl
        · rcases hs with ⟨hs, -⟩ | ⟨v, -, hs⟩
          · have : n = m.text := (List.cons.inj hs).2
            subst this
            cases m
            · exact ⟨true, by decide⟩
            · exact ⟨false, by decide⟩
            · exact ⟨false, by decide⟩
          · exfalso
            rw [List.append_assoc, List.append_assoc] at hs
            have : n = m.text ++ (str "=" ++ v) := (List.cons.inj hs).2
            apply h2
            rw [this]
            exact List.mem_append_right _ List.mem_cons_self
        · exfalso
          apply h1
          rcases hs with ⟨hs, -⟩ | ⟨v, -, hs⟩
          · have : n = 0x2d :: m.text := (List.cons.inj hs).2
            rw [this]
            rfl
          · rw [List.append_assoc, List.append_assoc] at hs
            have : n = 0x2d :: (m.text ++ (str "=" ++ v)) := (List.cons.inj hs).2
            rw [this]
            rfl
    · rintro ⟨b, hb⟩
      have key : ∀ m : FlagName, n = m.text → ∃ ss, Accepted [str "-" ++ n] ss := by
        rintro m rfl
        exact ⟨_, .cons _ _ m true [] ⟨str "-", by simp, .inl ⟨rfl, rfl⟩⟩ .nil⟩
      simp only [List.mem_cons, Prod.mk.injEq, List.not_mem_nil, or_false] at hb
      rcases hb with ⟨rfl, -⟩ | ⟨rfl, -⟩ | ⟨rfl, -⟩
      · exact key .d rfl
      · exact key .f rfl
      · exact key .h rfl
  · intro n b hb args logOK env w complaint
    have key : Flags.default.parse ((str "-" ++ n ++ str "=" ++ boolText b) :: args) = Flags.default.parse args := by
      simp only [List.mem_cons, Prod.mk.injEq, List.not_mem_nil, or_false] at hb
      rcases hb with ⟨rfl, rfl⟩ | ⟨rfl, rfl⟩ | ⟨rfl, rfl⟩ <;> rfl
    unfold updateMain usageOutput
    rw [key]
    exact ⟨rfl, rfl⟩

/-- C126, when it is shown: if the arguments are settings and the last of `-h` is on, the screen is written, the status is 0 and
nothing is done. If they are settings and `-h` is off, nothing is written about the use. If there is something else among them,
the same list of options is written under the name the program was called by, and nothing is done. -/
theorem C126_shown (argv0 complaint : Str) (args : List Str) (logOK : Bool) (env : Env) (w : World) :
    (∃ ss, Accepted args ss ∧ if lastSetting .h false ss = true
      then usageOutput complaint argv0 args = usageScreen argv0 ∧ updateMain args logOK env w = (0, w)
      else usageOutput complaint argv0 args = []) ∨
    ((∀ ss, ¬ Accepted args ss) ∧ (updateMain args logOK env w).2 = w ∧
      ((updateMain args logOK env w).1 = 0 ∧ usageOutput complaint argv0 args = flagUsage argv0 ∨
        (updateMain args logOK env w).1 = 2 ∧ usageOutput complaint argv0 args = complaint ++ flagUsage argv0)) := by
  unfold updateMain usageOutput
  cases e : Flags.default.parse args with
  | exit k =>
    refine .inr ⟨?_, rfl, ?_⟩
    · intro ss h
      have := (parse_values (f := Flags.default) (g := ⟨lastSetting .f true ss, lastSetting .d false ss,
        lastSetting .h false ss⟩)).2 ⟨ss, h, rfl, rfl, rfl⟩
      rw [e] at this
      cases this
    · rcases exit_values e with rfl | rfl
      · exact .inl ⟨rfl, rfl⟩
      · exact .inr ⟨rfl, rfl⟩
  | values f =>
    obtain ⟨ss, h1, -, -, h4⟩ := parse_values.1 e
    have h4 : f.usage = lastSetting .h false ss := h4
    refine .inl ⟨ss, h1, ?_⟩
    rw [← h4]
    simp only
    split
    · exact ⟨rfl, rfl⟩
    · rfl

/-- C126, the name: two screens are the same exactly if the programs have the same name, which is what follows the last slash of
the path it was called by, if there is one. -/
theorem C126_name :
    (∀ a b, usageScreen a = usageScreen b ↔ pathBase a = pathBase b) ∧
    (∀ dir name : Str, name ≠ [] → (0x2f : UInt8) ∉ name → pathBase (dir ++ 0x2f :: name) = name) ∧
    ∀ name : Str, name ≠ [] → (0x2f : UInt8) ∉ name → pathBase name = name := by
  have base : ∀ (rest name : Str), name ≠ [] → (0x2f : UInt8) ∉ name → (rest = [] ∨ ∃ r, rest = 0x2f :: r) →
      ((name.reverse ++ rest).dropWhile (· = 0x2f)).takeWhile (· ≠ 0x2f) = name.reverse := by
    intro rest name h0 h1 hr
    have h1' : ∀ c ∈ name.reverse, c ≠ 0x2f := fun c hc e => h1 (e ▸ List.mem_reverse.1 hc)
    have hd : (name.reverse ++ rest).dropWhile (· = 0x2f) = name.reverse ++ rest := by
      cases hn : name.reverse with
      | nil => exact absurd (List.reverse_eq_nil_iff.1 hn) h0
      | cons c l =>
        rw [List.cons_append, List.dropWhile_cons_of_neg]
        simpa using h1' c (by rw [hn]; exact List.mem_cons_self)
    rw [hd]
    have ht : name.reverse.takeWhile (· ≠ 0x2f) = name.reverse := by
      have := List.takeWhile_append_of_pos (p := fun c : UInt8 => decide (c ≠ 0x2f)) (l₁ := name.reverse) (l₂ := [])
        (by intro c hc; simpa using h1' c hc)
      simpa using this
    rcases hr with rfl | ⟨r, rfl⟩
    · rw [List.append_nil]
      exact ht
    · rw [List.takeWhile_append_of_pos (by intro c hc; simpa using h1' c hc)]
      simp
  refine ⟨fun a b => ⟨fun h => ?_, fun h => by unfold usageScreen; rw [h]⟩, fun dir name h0 h1 => ?_, fun name h0 h1 => ?_⟩
  · exact List.append_cancel_right h
  · unfold pathBase
    rw [if_neg (by simp)]
    simp only [List.reverse_append, List.reverse_cons, List.append_assoc, List.cons_append, List.nil_append]
    have := base (0x2f :: dir.reverse) name h0 h1 (.inr ⟨_, rfl⟩)
    rw [this, if_neg (by simpa using h0), List.reverse_reverse]
  · unfold pathBase
    rw [if_neg h0]
    have := base [] name h0 h1 (.inl rfl)
    rw [List.append_nil] at this
    simp only [this]
    rw [if_neg (by simpa using h0), List.reverse_reverse]

/-! ## Examples -/

/-- The whole screen. -/
example : usageScreen (str "/usr/bin/opencorpora_update") =
    str "opencorpora_update - Load and/or build compiled index from downloaded opencorpora.ru dictionary\n\n" ++
    str "  -d\tswitch on debug logging causes very noisy logging output\n" ++
    str "  -f\tforce rebuild index from previously downloaded data even if compiled index already present (default true)\n" ++
    str "  -h\tOutput this usage screen\n" := by
  decide +kernel

/-- `-q` is not on the screen, so it is not accepted. -/
example : ¬ ∃ ss, Accepted [str "-q"] ss := by
  intro h
  obtain ⟨b, hb⟩ := ((C126 (str "./update") (by decide +kernel)).1 (str "q") (by decide) (by decide) (by decide)).1 h
  rw [options_listed _ (by decide +kernel)] at hb
  revert hb
  cases b <;> decide

/-- `-help` is not accepted, either, but ends the command without complaint. -/
example : usageOutput (str "?") (str "update") [str "-help"] = flagUsage (str "update") := by decide +kernel

/-- C126 needs a name without line ends: a program file may have a name with which the screen lists an option there is not. -/
theorem not_C126_newline : ∃ argv0 : Str, (str "q", false) ∈ optionsOn (usageScreen argv0) ∧
    ¬ ∃ ss, Accepted [str "-" ++ str "q"] ss := by
  refine ⟨str "x\n\n  -q\tquit", by decide +kernel, fun h => ?_⟩
  obtain ⟨b, hb⟩ := ((C126 (str "./update") (by decide +kernel)).1 (str "q") (by decide) (by decide) (by decide)).1 h
  rw [options_listed _ (by decide +kernel)] at hb
  revert hb
  cases b <;> decide

end Verif
