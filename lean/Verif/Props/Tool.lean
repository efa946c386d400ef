import Verif.Props.Cli

/-!
# C72 — a session of the interactive tool

`toolMain` is the whole program: it loads the index and answers line after line. Every line comes with what `LoadIndex`
would return at that moment, so another process may replace the file at any time.
-/

namespace Verif

/-- What a line asks for. -/
def firstWord (line : Str) : Str := (splitSpaces line).headD []
/-- The line makes the tool read the file again. -/
def IsReload (line : Str) : Prop := firstWord line = str "reload" ∨ firstWord line = str "r"
/-- The line ends the tool. -/
def IsExit (line : Str) : Prop := firstWord line = str "exit" ∨ firstWord line = str "e"

instance (line : Str) : Decidable (IsReload line) := by unfold IsReload; infer_instance
instance (line : Str) : Decidable (IsExit line) := by unfold IsExit; infer_instance

/-- A session with a dictionary that never changes: every line is answered as if it were the first one. -/
def staticSession (lib : Lib) (ix : Index) : List Str → List Reply × Ending
  | [] => ([], .exit 0)
  | line :: rest =>
    let x := staticSession lib ix rest
    match (processInput lib none ix line).2 with
    | .ok (.exit c) => ([], .exit c)
    | .ok r => (r :: x.1, x.2)
    | .err _ => (.message :: x.1, x.2)
    | .panic => ([], .crash)
    | .diverge => ([], .hang)

theorem processInput_disk {lib : Lib} {disk : Option Index} {ix : Index} {line : Str} (h : ¬ IsReload line) :
    processInput lib disk ix line = processInput lib none ix line := by
  unfold IsReload firstWord at h
  unfold processInput
  simp only [if_neg h]

theorem processInput_keeps {lib : Lib} {ix : Index} {line : Str} :
    Index.Obs ix (processInput lib none ix line).1 := by
  rcases processInput_obs lib none ix line with h | h
  · exact h
  · cases h

theorem toolLoop_static (lib : Lib) (ix : Index) : ∀ (lines : List (Str × Option Index)) (jx : Index),
    Index.Obs ix jx → (∀ l ∈ lines, ¬ IsReload l.1) → toolLoop lib jx lines = staticSession lib ix (lines.map (·.1))
  | [], _, _, _ => rfl
  | (line, disk) :: rest, jx, ho, hr => by
    have h1 : ¬ IsReload line := hr (line, disk) List.mem_cons_self
    have h2 : processInput lib disk jx line = processInput lib none jx line := processInput_disk h1
    have h3 := processInput_congr ho lib none line
    have h4 := ho.trans (processInput_keeps (lib := lib) (line := line))
    have ih := fun kx (hk : Index.Obs ix kx) => toolLoop_static lib ix rest kx hk
      fun l hl => hr l (List.mem_cons_of_mem _ hl)
    unfold toolLoop
    rw [h2, List.map_cons]
    unfold staticSession
    rw [← h3]
    generalize processInput lib none jx line = y at h4
    obtain ⟨kx, o⟩ := y
    cases o with
    | ok r => cases r <;> simp only [ih kx h4]
    | err e => simp only [ih kx h4]
    | panic => rfl
    | diverge => rfl

/-- C72: looking things up changes nothing. As long as no line asks for a reload, every line is answered as if it were
the first one asked, whatever was asked before and whatever happens to the file on disk. -/
theorem C72 (lib : Lib) (ix : Index) (lines : List (Str × Option Index)) (h : ∀ l ∈ lines, ¬ IsReload l.1) :
    toolMain lib (some ix) lines = staticSession lib ix (lines.map (·.1)) :=
  toolLoop_static lib ix lines ix (.refl ix) h

/-- After a reload the session goes on as a new one with what is on disk then; nothing of the old index is left. If
loading fails, the tool ends with status 1. The same at the start. -/
theorem C72_reload (lib : Lib) (ix : Index) (line : Str) (rest : List (Str × Option Index)) (h : IsReload line) :
    (∀ jx, toolLoop lib ix ((line, some jx) :: rest) =
      (.reloaded :: (toolMain lib (some jx) rest).1, (toolMain lib (some jx) rest).2)) ∧
    toolLoop lib ix ((line, none) :: rest) = ([], .exit 1) ∧
    toolMain lib none rest = ([], .exit 1) := by
  have hr : ∀ disk, processInput lib disk ix line =
      match disk with | some ix' => (ix', .ok .reloaded) | none => (ix, .ok (.exit 1)) := by
    intro disk
    unfold IsReload firstWord at h
    unfold processInput
    simp only
    rcases h with h | h <;> rw [h] <;> rfl
  refine ⟨fun jx => ?_, ?_, rfl⟩
  · rw [toolLoop, hr]; rfl
  · rw [toolLoop, hr]

/-- `exit` ends the tool with status 0. -/
theorem C72_exit (lib : Lib) (ix : Index) (line : Str) (disk : Option Index) (rest : List (Str × Option Index))
    (h : IsExit line) : toolLoop lib ix ((line, disk) :: rest) = ([], .exit 0) := by
  have hr : processInput lib disk ix line = (ix, .ok (.exit 0)) := by
    unfold IsExit firstWord at h
    unfold processInput
    simp only
    rcases h with h | h <;> rw [h] <;> rfl
  rw [toolLoop, hr]

theorem Out.bind_ne_exit {α : Type} {o : Out α} {f : α → Out Reply} {c : Nat} (h : ∀ a, f a ≠ .ok (.exit c)) :
    o.bind f ≠ .ok (.exit c) := by
  cases o with
  | ok a => exact h a
  | err e => exact fun h => nomatch h
  | panic => exact fun h => nomatch h
  | diverge => exact fun h => nomatch h

theorem showNode_ne_exit (ix : Index) (id : ID) (c : Nat) : (showNode ix id).2 ≠ .ok (.exit c) := by
  unfold showNode
  repeat' split
  all_goals (intro h; cases h)

theorem processNode_ne_exit (ix : Index) (items : List Str) (c : Nat) : (processNode ix items).2 ≠ .ok (.exit c) := by
  unfold processNode
  repeat' split
  all_goals first | (intro h; cases h) | exact showNode_ne_exit _ _ _

theorem processTag_ne_exit (lib : Lib) (ix : Index) (items : List Str) (c : Nat) :
    processTag lib ix items ≠ .ok (.exit c) := by
  unfold processTag
  repeat' split
  all_goals first | (intro h; cases h) | exact Out.bind_ne_exit fun a h => nomatch h

theorem processSet_ne_exit (lib : Lib) (ix : Index) (items : List Str) (c : Nat) :
    processSet lib ix items ≠ .ok (.exit c) := by
  unfold processSet
  repeat' split
  all_goals first | (intro h; cases h) | exact Out.bind_ne_exit fun a h => nomatch h

theorem processVar_ne_exit (lib : Lib) (ix : Index) (items : List Str) (c : Nat) :
    processVar lib ix items ≠ .ok (.exit c) := by
  unfold processVar
  repeat' split
  all_goals first | (intro h; cases h) | exact Out.bind_ne_exit fun a h => nomatch h

theorem processSearch_ne_exit (ix : Index) (line : Str) (c : Nat) : (processSearch ix line).2 ≠ .ok (.exit c) := by
  unfold processSearch
  split
  · refine Out.bind_ne_exit fun a h => ?_
    split at h <;> cases h
  all_goals (intro h; cases h)

theorem exit_only {lib : Lib} {ix : Index} {line : Str} {c : Nat} (h : ¬ IsReload line)
    (e : (processInput lib none ix line).2 = .ok (.exit c)) : IsExit line ∧ c = 0 := by
  unfold processInput at e
  simp only at e
  split at e
  · exact absurd e (processTag_ne_exit _ _ _ _)
  · split at e
    · exact absurd e (processSet_ne_exit _ _ _ _)
    · split at e
      · exact absurd e (processNode_ne_exit _ _ _)
      · split at e
        · exact absurd e (processVar_ne_exit _ _ _ _)
        · split at e
          · rename_i hr; exact absurd hr h
          · split at e
            · rename_i he
              cases e
              exact ⟨he, rfl⟩
            · exact absurd e (processSearch_ne_exit _ _ _)

/-- A session on a dictionary built by calls of the API without a reload and without one of the lines that crash the tool
(`Crashes`) ends with status 0, and every line before the first `exit` is answered. -/
theorem C72_ends {h : List Op} {ix : Index} (r : Run h ix) (lib : Lib) (lines : List (Str × Option Index))
    (hr : ∀ l ∈ lines, ¬ IsReload l.1 ∧ ¬ Crashes lib ix l.1) :
    (toolMain lib (some ix) lines).2 = .exit 0 ∧
    ((∀ l ∈ lines, ¬ IsExit l.1) → (toolMain lib (some ix) lines).1.length = lines.length) := by
  rw [C72 lib ix lines fun l hl => (hr l hl).1]
  induction lines with
  | nil => exact ⟨rfl, fun _ => rfl⟩
  | cons l rest ih =>
    obtain ⟨h1, h2⟩ := hr l List.mem_cons_self
    have ih := ih fun l hl => hr l (List.mem_cons_of_mem _ hl)
    rw [List.map_cons]
    unfold staticSession
    rcases C49_exact r lib none l.1 with ⟨a, -⟩ | ⟨-, p, hp⟩
    · exact absurd a h2
    · have hx := fun c (e : p = .exit c) => exit_only h1 (hp.trans (by rw [e]))
      have hi : ∀ q, (p = q) → (∀ c, q ≠ .exit c) →
          (staticSession lib ix (rest.map (·.1))).2 = .exit 0 ∧
          ((∀ l' ∈ l :: rest, ¬ IsExit l'.1) →
            (q :: (staticSession lib ix (rest.map (·.1))).1).length = (l :: rest).length) :=
        fun q _ _ => ⟨ih.1, fun he => by
          rw [List.length_cons, List.length_cons, ih.2 fun l hl => he l (List.mem_cons_of_mem _ hl)]⟩
      rw [hp]
      cases p with
      | exit c =>
        obtain ⟨he, rfl⟩ := hx c rfl
        exact ⟨rfl, fun hn => absurd he (hn l List.mem_cons_self)⟩
      | _ => exact hi _ rfl (fun c h => nomatch h)

/-- A session meeting the hypotheses: a count, a search, and the end. -/
example (lib : Lib) : Run [] Index.new ∧
    ∀ l ∈ ([(str "node count", none), (str "word", none), (str "exit", none)] : List (Str × Option Index)),
      ¬ IsReload l.1 ∧ ¬ Crashes lib Index.new l.1 := by
  refine ⟨Run.nil, ?_⟩
  intro l hl
  have h0 : ∀ w, (Index.new.fetchString w).2 ≠ .ok 0 := by
    intro w
    unfold Index.fetchString Index.fetchRunes
    cases decodeRunes w with
    | nil => exact fun h => nomatch h
    | cons r rs => exact fun h => nomatch h
  simp only [List.mem_cons, List.not_mem_nil, or_false] at hl
  rcases hl with rfl | rfl | rfl
  · refine ⟨by decide, ?_⟩
    rw [Crashes.inv (c := str "node") (rest := [str "count"]) (by decide)]
    rintro (⟨h, -⟩ | ⟨h, -⟩ | ⟨h, -⟩ | ⟨-, c, a, h, h' | h'⟩ | ⟨-, h⟩)
    · exact absurd h (by decide)
    · exact absurd h (by decide)
    · exact absurd h (by decide)
    · obtain ⟨-, h⟩ := List.cons.inj h
      obtain ⟨rfl, -⟩ := List.cons.inj h
      obtain ⟨n, hn, -⟩ := h'
      rw [show atoi (str "count") = none by decide] at hn
      cases hn
    · exact h0 _ h'.2
    · exact h0 _ h
  · refine ⟨by decide, ?_⟩
    rw [Crashes.inv (c := str "word") (rest := []) (by decide)]
    rintro (⟨h, -⟩ | ⟨h, -⟩ | ⟨h, -⟩ | ⟨h, -⟩ | ⟨-, h⟩)
    · exact absurd h (by decide)
    · exact absurd h (by decide)
    · exact absurd h (by decide)
    · exact absurd h (by decide)
    · exact h0 _ h
  · refine ⟨by decide, ?_⟩
    rw [Crashes.inv (c := str "exit") (rest := []) (by decide)]
    rintro (⟨h, -⟩ | ⟨h, -⟩ | ⟨h, -⟩ | ⟨h, -⟩ | ⟨-, h⟩)
    · exact absurd h (by decide)
    · exact absurd h (by decide)
    · exact absurd h (by decide)
    · exact absurd h (by decide)
    · exact h0 _ h

end Verif
