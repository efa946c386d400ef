import Verif.Spec.ToolRun
import Verif.Props.ToolMain

/-!
# C127 — how the interactive tool starts and ends
-/

namespace Verif

/-- C127, the status: the tool is left with status 1 exactly if the last thing to be seen of it tells that it failed, whatever
fails, whatever is on the disk and whatever is typed. Other runs end with status 0, or crash or hang. -/
theorem C127_status_partial (lib : Lib) (f : ToolFaults) (disk : Option Index) (took reason : Str) (lines : List TypedLine) :
    let r := toolRun lib f disk took reason lines
    (r.2 = .exit 1 ↔ TellsFailure r.1) ∧ (r.2 = .exit 1 ∨ r.2 = .exit 0 ∨ r.2 = .crash ∨ r.2 = .hang) := by
  intro r
  cases hi : f.init with
  | some e =>
    have hr : r = ([.printed (str "logging: init: " ++ (e ++ [0x0a]))], .exit 1) := by
      show toolRun lib f disk took reason lines = _
      unfold toolRun
      rw [hi]
    rw [hr]
    exact ⟨⟨fun _ => .inl ⟨e, rfl⟩, fun _ => rfl⟩, .inl rfl⟩
  | none =>
    cases disk with
    | none =>
      have hr : r = ((mainLog lib none took reason []).map .logged, .exit 1) := by
        show toolRun lib f none took reason lines = _
        unfold toolRun
        rw [hi]
      rw [hr]
      exact ⟨⟨fun _ => .inr (.inl ⟨reason, rfl⟩), fun _ => rfl⟩, .inl rfl⟩
    | some ix =>
      cases ho : f.opening with
      | some e =>
        have hr : r = ((mainLog lib (some ix) took reason []).map .logged ++ [.logged (.error, str "readline: " ++ e)],
            .exit 1) := by
          show toolRun lib f (some ix) took reason lines = _
          unfold toolRun
          rw [hi, ho]
        rw [hr]
        exact ⟨⟨fun _ => .inr (.inr ⟨e, List.getLast?_concat ..⟩), fun _ => rfl⟩, .inl rfl⟩
      | none =>
        have hr : r = ((mainLog lib (some ix) took reason []).map .logged ++ (.opened :: ((sessionLog lib ix lines).map .logged ++
            deferredClose f (toolLoop lib ix (lines.map fun e => (e.line, e.disk))).2)),
            (toolLoop lib ix (lines.map fun e => (e.line, e.disk))).2) := by
          show toolRun lib f (some ix) took reason lines = _
          unfold toolRun
          rw [hi, ho]
        rw [hr]
        simp only
        obtain ⟨h1, h2⟩ := session_status lib lines ix
        generalize (toolLoop lib ix (lines.map fun e => (e.line, e.disk))).2 = ending at h1 h2 ⊢
        generalize List.map ToolEvent.logged (mainLog lib (some ix) took reason []) = first
        refine ⟨⟨fun h => ?_, fun h => ?_⟩, ?_⟩
        · obtain ⟨pre, x, e, -⟩ := h1 h
          subst h
          refine .inr (.inl ⟨x, ?_⟩)
          rw [e, deferredClose, List.append_nil, List.map_append, ← List.cons_append, ← List.append_assoc]
          exact List.getLast?_concat ..
        · by_contra hne
          have hn := (h2 hne).1
          have hmem : ∀ x, (first ++ (ToolEvent.opened :: ((sessionLog lib ix lines).map ToolEvent.logged ++ deferredClose f ending))).getLast? =
              some x → x = .opened ∨ (∃ m ∈ sessionLog lib ix lines, x = .logged m) ∨ x ∈ deferredClose f ending := by
            intro x hx
            rw [List.getLast?_append_of_ne_nil _ (by simp)] at hx
            have := List.mem_of_getLast? hx
            rcases List.mem_cons.1 this with h | h
            · exact .inl h
            · rcases List.mem_append.1 h with h | h
              · obtain ⟨m, hm, rfl⟩ := List.mem_map.1 h
                exact .inr (.inl ⟨m, hm, rfl⟩)
              · exact .inr (.inr h)
          have hdef : ∀ x ∈ deferredClose f ending, x = .closed ∨ ∃ t, x = .logged (.warn, t) := by
            intro x hx
            unfold deferredClose at hx
            split at hx
            · rcases List.mem_cons.1 hx with h | h
              · exact .inl h
              · split at h
                · cases h
                · exact .inr ⟨_, List.mem_singleton.1 h⟩
            · cases hx
            · cases hx
          have hbad : ∀ t : Str, (t.head? = some 0x6c ∨ t.head? = some 0x72) →
              (first ++ (ToolEvent.opened :: ((sessionLog lib ix lines).map ToolEvent.logged ++ deferredClose f ending))).getLast? ≠
                some (.logged (.error, t)) := by
            intro t ht hx
            rcases hmem _ hx with h | ⟨m, hm, h⟩ | h
            · cases h
            · obtain rfl := ToolEvent.logged.inj h
              have := hn _ hm rfl
              rcases ht with ht | ht
              · exact this.1 ht
              · exact this.2 ht
            · rcases hdef _ h with h | ⟨t, h⟩
              · cases h
              · cases h
          rcases h with ⟨e, h⟩ | ⟨e, h⟩ | ⟨e, h⟩
          · rcases hmem _ h with h | ⟨m, hm, h⟩ | h
            · cases h
            · cases h
            · rcases hdef _ h with h | ⟨t, h⟩
              · cases h
              · cases h
          · exact hbad (str "load index: " ++ e) (.inl rfl) h
          · exact hbad (str "readline: " ++ e) (.inr rfl) h
        · by_cases h : ending = .exit 1
          · exact .inl h
          · have h0 := (h2 h).2
            cases hx : ending with
            | exit c =>
              rw [h0 c hx]
              exact .inr (.inl rfl)
            | crash => exact .inr (.inr (.inl rfl))
            | hang => exact .inr (.inr (.inr rfl))

/-- C127, the line editor, exactly: it is opened unless the run fails before; and it is closed exactly in the runs that crash. -/
theorem C127_closed_exact (lib : Lib) (f : ToolFaults) (disk : Option Index) (took reason : Str) (lines : List TypedLine) :
    let r := toolRun lib f disk took reason lines
    (.opened ∈ r.1 ↔ f.init = none ∧ disk ≠ none ∧ f.opening = none) ∧
    (.closed ∈ r.1 ↔ r.2 = .crash) ∧ (.opened ∉ r.1 → r.2 = .exit 1) := by
  simp only
  unfold toolRun
  have hno : ∀ l : List (LogLevel × Str), ToolEvent.opened ∉ l.map ToolEvent.logged ∧
      ToolEvent.closed ∉ l.map ToolEvent.logged := by simp
  split
  · rename_i e he
    simp [he]
  · rename_i he
    split
    · refine ⟨⟨fun h => absurd h (hno _).1, fun h => absurd rfl h.2.1⟩, ⟨fun h => absurd h (hno _).2, fun h => by cases h⟩,
        fun _ => rfl⟩
    · split
      · rename_i ho
        refine ⟨⟨fun h => ?_, fun h => ?_⟩, ⟨fun h => ?_, fun h => by cases h⟩, fun _ => rfl⟩
        · rcases List.mem_append.1 h with h | h
          · exact absurd h (hno _).1
          · simp at h
        · rw [ho] at h
          cases h.2.2
        · rcases List.mem_append.1 h with h | h
          · exact absurd h (hno _).2
          · simp at h
      · rename_i ho
        simp only
        refine ⟨⟨fun _ => ⟨he, by simp, ho⟩, fun _ => List.mem_append_right _ List.mem_cons_self⟩, ⟨fun h => ?_, fun h => ?_⟩,
          fun h => absurd (List.mem_append_right _ List.mem_cons_self) h⟩
        · rcases List.mem_append.1 h with h | h
          · exact absurd h (hno _).2
          · rcases List.mem_cons.1 h with h | h
            · cases h
            · rcases List.mem_append.1 h with h | h
              · exact absurd h (hno _).2
              · unfold deferredClose at h
                split at h
                · rename_i hc
                  exact hc
                · cases h
                · cases h
        · rw [h]
          refine List.mem_append_right _ (List.mem_cons_of_mem _ (List.mem_append_right _ ?_))
          exact List.mem_cons_self

/-- C127, a healthy start: if logger and line editor can be set up, the run ends as `toolMain` says and logs what `mainLog` says,
up to a warning after a crash. -/
theorem C127_healthy (lib : Lib) (f : ToolFaults) (disk : Option Index) (took reason : Str) (lines : List TypedLine)
    (hi : f.init = none) (ho : f.opening = none) :
    let r := toolRun lib f disk took reason lines
    r.2 = (toolMain lib disk (lines.map fun e => (e.line, e.disk))).2 ∧
    loggedOf r.1 = mainLog lib disk took reason lines ++ loggedOf (if disk = none then [] else deferredClose f r.2) ∧
    (r.2 ≠ .crash → loggedOf r.1 = mainLog lib disk took reason lines) := by
  have hl : ∀ l : List (LogLevel × Str), loggedOf (l.map .logged) = l := by
    intro l
    induction l with
    | nil => rfl
    | cons a l ih => exact congrArg (a :: ·) ih
  have happ : ∀ a b, loggedOf (a ++ b) = loggedOf a ++ loggedOf b := fun _ _ => List.filterMap_append
  have hcons : ∀ l, loggedOf (.opened :: l) = loggedOf l := fun _ => rfl
  simp only
  unfold toolRun
  rw [hi, ho]
  cases disk with
  | none => exact ⟨rfl, rfl, fun _ => rfl⟩
  | some ix =>
    simp only
    have key : loggedOf (List.map ToolEvent.logged (mainLog lib (some ix) took reason []) ++
        (.opened :: ((sessionLog lib ix lines).map .logged ++
          deferredClose f (toolLoop lib ix (lines.map fun e => (e.line, e.disk))).2))) =
        mainLog lib (some ix) took reason lines ++
          loggedOf (deferredClose f (toolLoop lib ix (lines.map fun e => (e.line, e.disk))).2) := by
      rw [happ, hcons, happ, hl, hl, ← List.append_assoc]
      rfl
    refine ⟨rfl, ?_, fun h => ?_⟩
    · rw [if_neg (by simp)]
      exact key
    · rw [key]
      cases he : (toolLoop lib ix (lines.map fun e => (e.line, e.disk))).2 with
      | exit c => exact List.append_nil _
      | hang => exact List.append_nil _
      | crash => exact absurd he h

/-- C127 fails: a run that is left with `exit`, or by the end of the input, does not close the line editor, whatever the index. -/
theorem not_C127 (lib : Lib) (ix : Index) (took reason : Str) (e : TypedLine) (h : e.line = str "exit") :
    let f : ToolFaults := ⟨none, none, none⟩
    ∀ lines ∈ [[e], []], let r := toolRun lib f (some ix) took reason lines
      r.2 = .exit 0 ∧ .opened ∈ r.1 ∧ .closed ∉ r.1 := by
  intro f lines hl r
  have hx := C127_closed_exact lib f (some ix) took reason lines
  have h0 : r.2 = .exit 0 := by
    simp only [List.mem_cons, List.not_mem_nil, or_false] at hl
    rcases hl with rfl | rfl
    · show (toolLoop lib ix [(e.line, e.disk)]).2 = _
      rw [h]
      rfl
    · rfl
  refine ⟨h0, hx.1.2 ⟨rfl, by simp, rfl⟩, fun hc => ?_⟩
  have : r.2 = .crash := hx.2.1.1 hc
  rw [h0] at this
  cases this

/-! ## Examples -/

/-- A line editor that cannot be opened. -/
example : (toolRun (goLib fun a b => a == b) ⟨none, some (str "no terminal"), none⟩ (some (execAll sampleHistory)) (str "1ms") []
    sampleSession).1.getLast? = some (.logged (.error, str "readline: no terminal")) := by decide +kernel

/-- A session that ends with a failing reload: status 1, and the line editor stays open. -/
example : let r := toolRun (goLib fun a b => a == b) ⟨none, none, none⟩ (some (execAll sampleHistory)) (str "1ms") [] sampleSession;
    r.2 = .exit 1 ∧ r.1.getLast? = some (.logged (.error, str "load index: no such file")) ∧ .closed ∉ r.1 := by decide +kernel

/-- A line that crashes the tool. -/
def crashLine : TypedLine := ⟨str "tag -1", none, fun _ => [], []⟩

/-- A session that crashes: the line editor is closed, with a warning if that fails. -/
example : let r := toolRun (goLib fun a b => a == b) ⟨none, none, some (str "gone")⟩ (some (execAll sampleHistory)) [] [] [crashLine];
    r.2 = .crash ∧ r.1.drop (r.1.length - 2) = [.closed, .logged (.warn, str "readline: close: gone")] := by decide +kernel

end Verif
