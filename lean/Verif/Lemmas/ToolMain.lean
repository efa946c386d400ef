import Verif.Lemmas.SessionLog
import Verif.Lemmas.UpdateText

/-! # Helper lemmas: the end of a run of the tool, in its log -/

namespace Verif

/-- A message that is an error message begins neither with an `l` nor with an `r`. -/
def NotLoad (log : List (LogLevel × Str)) : Prop := ∀ m ∈ log, m.1 = .error → m.2.head? ≠ some 0x6c ∧ m.2.head? ≠ some 0x72

theorem notLoad_withError {x : List (LogLevel × Str) × Option Str} (h1 : NoErrors x.1)
    (h2 : ∀ t, x.2 = some t → t.head? ≠ some 0x6c ∧ t.head? ≠ some 0x72) : NotLoad (withError x) := by
  intro m hm he
  unfold withError at hm
  rcases List.mem_append.1 hm with h | h
  · exact absurd he (h1 m h)
  · split at h
    · rename_i t ht
      rw [List.mem_singleton] at h
      subst h
      exact h2 t ht
    · cases h

theorem tagLog_notLoad (lib : Lib) (ix : Index) (items : List Str) : NotLoad (withError (tagLog lib ix items)) := by
  unfold tagLog
  repeat' split
  all_goals
    refine notLoad_withError ?_ ?_
    · simp [NoErrors]
    · intro t ht
      first
        | (obtain rfl := Option.some.inj ht; exact ⟨of_decide_eq_false rfl, of_decide_eq_false rfl⟩)
        | exact nomatch ht

theorem setLog_notLoad (lib : Lib) (ix : Index) (items : List Str) : NotLoad (withError (setLog lib ix items)) := by
  unfold setLog
  simp only
  repeat' split
  all_goals
    refine notLoad_withError ?_ ?_
    · simp [NoErrors]
    · intro t ht
      first
        | (obtain rfl := Option.some.inj ht; exact ⟨of_decide_eq_false rfl, of_decide_eq_false rfl⟩)
        | exact nomatch ht

theorem varLog_notLoad (lib : Lib) (ix : Index) (items : List Str) : NotLoad (withError (varLog lib ix items)) := by
  unfold varLog
  simp only
  repeat' split
  all_goals
    refine notLoad_withError ?_ ?_
    · intro m hm
      simp only [collMessages, List.mem_cons, List.not_mem_nil, or_false, List.mem_flatMap] at hm <;> first
        | (subst hm; simp; done)
        | (rcases hm with rfl | rfl <;> simp; done)
        | (rcases hm with rfl | rfl | rfl | ⟨a, -, rfl | rfl⟩ <;> simp)
    · intro t ht
      first
        | (obtain rfl := Option.some.inj ht; exact ⟨of_decide_eq_false rfl, of_decide_eq_false rfl⟩)
        | exact nomatch ht

theorem nodeLog_notLoad (ix : Index) (items : List Str) : NotLoad (withError (nodeLog ix items)) := by
  unfold nodeLog
  simp only
  repeat' split
  all_goals
    refine notLoad_withError ?_ ?_
    · simp [NoErrors]
    · intro t ht
      first
        | (obtain rfl := Option.some.inj ht; exact ⟨of_decide_eq_false rfl, of_decide_eq_false rfl⟩)
        | exact nomatch ht

theorem readingMessages_info (eta : Nat → Str) : ∀ (L : List (List Tag)) (i : Nat), NoErrors (readingMessages eta i L)
  | [], _ => by simp [NoErrors, readingMessages]
  | t :: L, i => by
    intro m hm
    unfold readingMessages at hm
    rcases List.mem_cons.1 hm with rfl | hm
    · simp
    · exact readingMessages_info eta L (i + 1) m hm

theorem searchLog_noErrors (eta : Nat → Str) (ix : Index) (line : Str) : NoErrors (searchLog eta ix line) := by
  unfold searchLog
  repeat' split
  all_goals first
    | exact readingMessages_info eta _ _
    | simp [NoErrors]

theorem toolLog_notLoad (lib : Lib) (eta : Nat → Str) (ix : Index) (line : Str) : NotLoad (toolLog lib eta ix line) := by
  unfold toolLog
  simp only
  repeat' split
  · exact tagLog_notLoad lib ix _
  · exact setLog_notLoad lib ix _
  · exact nodeLog_notLoad ix _
  · exact varLog_notLoad lib ix _
  · simp [NotLoad]
  · simp [NotLoad]
  · exact fun m hm he => absurd he (searchLog_noErrors _ _ _ m hm)

theorem exit_code {lib : Lib} {disk : Option Index} {ix : Index} {line : Str} {c : Nat}
    (h : (processInput lib disk ix line).2 = .ok (.exit c)) : c = 0 ∨ c = 1 := by
  have ht : ∀ items, processTag lib ix items ≠ .ok (.exit c) := by
    intro items h
    unfold processTag at h
    repeat' split at h
    all_goals first
      | (cases h; done)
      | (obtain ⟨a, -, h⟩ := bind_reply h; cases h)
  have hs : ∀ items, processSet lib ix items ≠ .ok (.exit c) := by
    intro items h
    unfold processSet at h
    repeat' split at h
    all_goals first
      | (cases h; done)
      | (obtain ⟨a, -, h⟩ := bind_reply h; cases h)
  have hv : ∀ items, processVar lib ix items ≠ .ok (.exit c) := by
    intro items h
    unfold processVar at h
    repeat' split at h
    all_goals first
      | (cases h; done)
      | (obtain ⟨a, -, h⟩ := bind_reply h; cases h)
  have hn : ∀ items, (processNode ix items).2 ≠ .ok (.exit c) := by
    intro items h
    unfold processNode at h
    repeat' split at h
    all_goals first
      | (cases h; done)
      | (have := (showNode_by h).1; cases this)
  have hq : (processSearch ix line).2 ≠ .ok (.exit c) := by
    intro h
    unfold processSearch at h
    repeat' split at h
    all_goals first
      | (cases h; done)
      | (obtain ⟨a, -, h⟩ := bind_reply h; split at h <;> cases h)
  unfold processInput at h
  simp only at h
  split at h
  · exact absurd h (ht _)
  split at h
  · exact absurd h (hs _)
  split at h
  · exact absurd h (hn _)
  split at h
  · exact absurd h (hv _)
  split at h
  · split at h
    · cases h
    · cases h
      exact .inr rfl
  split at h
  · cases h
    exact .inl rfl
  · exact absurd h hq

/-- The tool has been left with status 1 in the middle of the log, or not at all. -/
theorem session_status (lib : Lib) : ∀ (lines : List TypedLine) (ix : Index),
    let ending := (toolLoop lib ix (lines.map fun e => (e.line, e.disk))).2
    (ending = .exit 1 → ∃ pre reason, sessionLog lib ix lines = pre ++ [(.error, str "load index: " ++ reason)] ∧ NotLoad pre) ∧
    (ending ≠ .exit 1 → NotLoad (sessionLog lib ix lines) ∧ ∀ c, ending = .exit c → c = 0)
  | [], ix => ⟨fun h => by simp [toolLoop] at h, fun _ => ⟨by simp [NotLoad, sessionLog], fun c h => by
      simp [toolLoop] at h; exact h.symm⟩⟩
  | e :: rest, ix => by
    have hl := toolLog_notLoad lib e.eta ix e.line
    have hcode : ∀ c nx, processInput lib e.disk ix e.line = (nx, .ok (.exit c)) → c = 0 ∨ c = 1 := by
      intro c nx hp
      exact exit_code (by rw [hp])
    rw [List.map_cons]
    unfold sessionLog toolLoop
    cases hp : processInput lib e.disk ix e.line with
    | mk nx x =>
      have ih := session_status lib rest nx
      simp only at ih ⊢
      have more : (((toolLoop lib nx (rest.map fun e => (e.line, e.disk))).2 = .exit 1 → ∃ pre reason,
            toolLog lib e.eta ix e.line ++ sessionLog lib nx rest = pre ++ [(.error, str "load index: " ++ reason)] ∧
              NotLoad pre) ∧
          ((toolLoop lib nx (rest.map fun e => (e.line, e.disk))).2 ≠ .exit 1 →
            NotLoad (toolLog lib e.eta ix e.line ++ sessionLog lib nx rest) ∧
              ∀ c, (toolLoop lib nx (rest.map fun e => (e.line, e.disk))).2 = .exit c → c = 0)) := by
        refine ⟨fun h => ?_, fun h => ?_⟩
        · obtain ⟨pre, reason, h1, h2⟩ := ih.1 h
          refine ⟨toolLog lib e.eta ix e.line ++ pre, reason, by rw [h1, List.append_assoc], ?_⟩
          intro m hm
          rcases List.mem_append.1 hm with hm | hm
          · exact hl m hm
          · exact h2 m hm
        · obtain ⟨h1, h2⟩ := ih.2 h
          refine ⟨?_, h2⟩
          intro m hm
          rcases List.mem_append.1 hm with hm | hm
          · exact hl m hm
          · exact h1 m hm
      cases x with
      | ok r =>
        cases r with
        | exit c =>
          rcases hcode c nx hp with rfl | rfl
          · exact ⟨fun h => by simp at h, fun _ => ⟨hl, fun c h => by simp at h; exact h.symm⟩⟩
          · exact ⟨fun _ => ⟨_, e.reason, rfl, hl⟩, fun h => absurd rfl h⟩
        | _ => exact more
      | err x => exact more
      | panic => exact ⟨fun h => by simp at h, fun _ => ⟨hl, fun c h => by simp at h⟩⟩
      | diverge => exact ⟨fun h => by simp at h, fun _ => ⟨hl, fun c h => by simp at h⟩⟩

end Verif
