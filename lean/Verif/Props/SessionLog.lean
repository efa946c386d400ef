import Verif.Lemmas.SessionLog

/-!
# C118: the log of a whole session tells all the answers

`sessionLog` is what a run of the interactive tool logs, one list of messages without any mark where the messages about one
line end; `sessionAnswers` (Spec/ToolLog.lean) are the answers to its lines.
-/

namespace Verif

/-- C118: two runs of the tool, whatever was typed, reloaded and however long it took, log the same only if they gave the same
answers, in the same order, to the same number of lines. (For names of tags of four bytes.) -/
theorem C118_answers_partial {ix ix' : Index} (hx : FourByteIndex ix) (hx' : FourByteIndex ix') (lib lib' : Lib)
    (lines lines' : List TypedLine) (hd : ∀ e ∈ lines, ∀ d, e.disk = some d → FourByteIndex d)
    (hd' : ∀ e ∈ lines', ∀ d, e.disk = some d → FourByteIndex d)
    (he : sessionLog lib ix lines = sessionLog lib' ix' lines') :
    sessionAnswers lib ix lines = sessionAnswers lib' ix' lines' := by
  obtain ⟨bs, h1, h2, h3⟩ := session_blocks lib lines ix hx.sound fun e hm d h => (hd e hm d h).sound
  obtain ⟨bs', h1', h2', h3'⟩ := session_blocks lib' lines' ix' hx'.sound fun e hm d h => (hd' e hm d h).sound
  have : bs = bs' := h1.unique h1' (by rw [h2, h2', he])
  subst this
  exact h3.unique h3'

/-- The answers are those to the lines of the run: what the loop of the tool replies, and how it was left. -/
theorem C118_replies (lib : Lib) : ∀ (lines : List TypedLine) (ix : Index),
    ∃ last, sessionAnswers lib ix lines = (toolLoop lib ix (lines.map fun e => (e.line, e.disk))).1.map Reply.answer ++ last ∧
      (last = [] ∨ last = [.exiting] ∧ (toolLoop lib ix (lines.map fun e => (e.line, e.disk))).2 = .exit 0 ∨
        last = [.failed] ∧ ∃ c, c ≠ 0 ∧ (toolLoop lib ix (lines.map fun e => (e.line, e.disk))).2 = .exit c)
  | [], ix => ⟨[], rfl, .inl rfl⟩
  | e :: rest, ix => by
    rw [List.map_cons]
    unfold sessionAnswers toolLoop
    cases hp : processInput lib e.disk ix e.line with
    | mk nx x =>
      obtain ⟨last, h1, h2⟩ := C118_replies lib rest nx
      cases x with
      | ok r =>
        by_cases hr : ∃ c, r = .exit c
        · obtain ⟨c, rfl⟩ := hr
          cases c with
          | zero => exact ⟨[.exiting], rfl, .inr (.inl ⟨rfl, rfl⟩)⟩
          | succ c => exact ⟨[.failed], rfl, .inr (.inr ⟨rfl, c + 1, by omega, rfl⟩)⟩
        · refine ⟨last, ?_⟩
          cases r with
          | exit c => exact absurd ⟨c, rfl⟩ hr
          | _ => exact ⟨by simp only [h1, List.map_cons, List.cons_append], h2⟩
      | err x => exact ⟨last, by simp only [h1, List.map_cons, List.cons_append]; rfl, h2⟩
      | panic => exact ⟨[], rfl, .inl rfl⟩
      | diverge => exact ⟨[], rfl, .inl rfl⟩

/-- What the log does not tell: a negative number of a tag crashes the tool without a word. The log is that of a run that was
left before the line was typed. -/
theorem not_C118_crash (lib : Lib) (ix : Index) (before : List TypedLine) (e : TypedLine) (he : e.line = str "tag -1") :
    sessionLog lib ix (before ++ [e]) = sessionLog lib ix before := by
  induction before generalizing ix with
  | nil =>
    have hp : processInput lib e.disk ix e.line = (ix, .panic) := by
      rw [he]
      have e1 : splitSpaces (str "tag -1") = [str "tag", str "-1"] := by decide
      have ha : atoi (str "-1") = some (-1) := by decide
      unfold processInput processTag
      simp only [e1, List.headD_cons]
      rw [if_pos (.inl trivial), if_neg (by decide), ha]
      simp only
      rw [if_neg (by omega)]
      rfl
    have hl : toolLog lib e.eta ix e.line = [] := by
      rw [he]
      have e1 : splitSpaces (str "tag -1") = [str "tag", str "-1"] := by decide
      have ha : atoi (str "-1") = some (-1) := by decide
      unfold toolLog tagLog
      simp only [e1, List.headD_cons]
      rw [if_pos (.inl trivial), if_neg (by decide), ha]
      simp only
      rw [if_neg (by omega)]
      rfl
    show sessionLog lib ix [e] = []
    unfold sessionLog
    rw [hp, hl]
  | cons b before ih =>
    rw [List.cons_append]
    unfold sessionLog
    cases processInput lib b.disk ix b.line with
    | mk nx x =>
      cases x with
      | ok r =>
        cases r with
        | exit c => cases c <;> rfl
        | _ => simp only [ih]
      | err x => simp only [ih]
      | panic => rfl
      | diverge => rfl

/-! ## Examples -/

/-- A session with a search of two readings, a failed command, a set, a reload, and the end. -/
def sampleSession : List TypedLine :=
  [⟨str "ab", none, fun _ => str "12ms", []⟩, ⟨str "t 9", none, fun _ => [], []⟩, ⟨str "set 0", none, fun _ => [], []⟩,
    ⟨str "r", some (execAll sampleHistory), fun _ => [], []⟩, ⟨str "a", none, fun _ => str "1s", []⟩,
    ⟨str "reload", none, fun _ => [], str "no such file"⟩, ⟨str "ab", none, fun _ => [], []⟩]

set_option maxRecDepth 8000 in
example : FourByteIndex (execAll sampleHistory) ∧ ∀ e ∈ sampleSession, ∀ d, e.disk = some d → FourByteIndex d := by
  have h : FourByteIndex (execAll sampleHistory) := ⟨sampleHistory, small_runs _ (by decide), by decide +kernel⟩
  refine ⟨h, ?_⟩
  intro e he d hd
  unfold sampleSession at he
  simp only [List.mem_cons, List.not_mem_nil, or_false] at he
  rcases he with rfl | rfl | rfl | rfl | rfl | rfl | rfl <;> first
    | (obtain rfl := Option.some.inj hd; exact h)
    | exact absurd hd (by simp)

example : (sessionLog (goLib fun a b => a == b) (execAll sampleHistory) sampleSession).map (·.2) =
    [str "< 00: NOUN, eta 12ms", str "< 01: NOUN,VERB, eta 12ms", str "tag: no such tag id: `9`",
      str "set.0: looking tag set 0", str "set.0(0x0): load tag set", str "set.0(0x0): tag set TS(0) loaded ok true",
      str "set.0(0x0): tag set TS(0) len 1",
      str "reloading index", str "< empty, eta 1s", str "reloading index", str "load index: no such file"] := by decide +kernel

end Verif
