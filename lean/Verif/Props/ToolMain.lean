import Verif.Lemmas.ToolMain
import Verif.Props.SessionLog
import Verif.Props.UpdateText

/-!
# C120: a run of the interactive tool, from start to end, in its log

`mainLog` is what `main` logs; `toolMain` (Model/Cli.lean) is what it replies and how it ends.
-/

namespace Verif

/-- C120, the end: the tool is left with status 1 exactly if the last message is an error message that begins with
"load index: ". Other runs end with status 0, or crash or hang. -/
theorem C120_status (lib : Lib) (disk : Option Index) (took reason : Str) (lines : List TypedLine) :
    let ending := (toolMain lib disk (lines.map fun e => (e.line, e.disk))).2
    (ending = .exit 1 ↔ ∃ x, (mainLog lib disk took reason lines).getLast? = some (.error, str "load index: " ++ x)) ∧
    (ending = .exit 1 ∨ ending = .exit 0 ∨ ending = .crash ∨ ending = .hang) := by
  intro ending
  have hhead : ∀ x : Str, (str "load index: " ++ x).head? = some 0x6c := fun _ => rfl
  cases disk with
  | none =>
    have h : ending = .exit 1 := rfl
    exact ⟨⟨fun _ => ⟨reason, rfl⟩, fun _ => h⟩, .inl h⟩
  | some ix =>
    have he : ending = (toolLoop lib ix (lines.map fun e => (e.line, e.disk))).2 := rfl
    obtain ⟨h1, h2⟩ := session_status lib lines ix
    rw [← he] at h1 h2
    have hl : ∀ log : List (LogLevel × Str), NotLoad log → ∀ a b : Str, ∀ x,
        ((.debug, a) :: (.debug, b) :: log : List (LogLevel × Str)).getLast? ≠ some (.error, str "load index: " ++ x) := by
      intro log hn a b x hg
      have hm := List.mem_of_getLast? hg
      rcases hm with _ | ⟨_, _ | ⟨_, hm⟩⟩
      exact (hn _ hm rfl).1 (hhead x)
    constructor
    · constructor
      · intro h
        obtain ⟨pre, x, e, -⟩ := h1 h
        refine ⟨x, ?_⟩
        unfold mainLog
        simp only
        rw [e, ← List.cons_append, ← List.cons_append, List.getLast?_concat]
      · rintro ⟨x, hx⟩
        by_contra h
        exact hl _ (h2 h).1 _ _ x hx
    · by_cases h : ending = .exit 1
      · exact .inl h
      · have h0 := (h2 h).2
        cases hx : ending with
        | exit c =>
          rw [h0 c hx]
          exact .inr (.inl rfl)
        | crash => exact .inr (.inr (.inl rfl))
        | hang => exact .inr (.inr (.inr rfl))

/-- What follows the first two messages. -/
theorem mainLog_inj {lib lib' : Lib} {disk disk' : Option Index} {took took' reason reason' : Str}
    {lines lines' : List TypedLine} (he : mainLog lib disk took reason lines = mainLog lib' disk' took' reason' lines') :
    (disk = none ∧ disk' = none ∧ reason = reason') ∨
    ∃ ix ix', disk = some ix ∧ disk' = some ix' ∧ took = took' ∧ ix.wordsCount = ix'.wordsCount ∧
      ix.nodesCount = ix'.nodesCount ∧ sessionLog lib ix lines = sessionLog lib' ix' lines' := by
  unfold mainLog at he
  cases disk with
  | none =>
    cases disk' with
    | none =>
      simp only [List.cons.injEq, Prod.mk.injEq, true_and, and_true] at he
      exact .inl ⟨rfl, rfl, List.append_cancel_left he⟩
    | some ix' => simp at he
  | some ix =>
    cases disk' with
    | none => simp at he
    | some ix' =>
      simp only [List.cons.injEq, Prod.mk.injEq, true_and] at he
      obtain ⟨h1, h2, h3⟩ := he
      refine .inr ⟨ix, ix', rfl, rfl, List.append_cancel_left h1, ?_⟩
      have h' : itoa ix.wordsCount ++ 0x20 :: (str "words " ++ (itoa ix.nodesCount ++ str " nodes")) =
          itoa ix'.wordsCount ++ 0x20 :: (str "words " ++ (itoa ix'.nodesCount ++ str " nodes")) :=
        List.append_cancel_left h2
      obtain ⟨e1, e2⟩ := stop_split (itoa_noSpace _) (itoa_noSpace _) h'
      exact ⟨itoa_inj e1, itoa_inj (List.append_cancel_right (List.append_cancel_left e2)), h3⟩

/-- C120: two runs that log the same both had a dictionary at the start or neither had, dictionaries with as many words and
nodes, they gave the same answers in the same order, and if one of them was left with status 1, so was the other. (For names
of tags of four bytes.) -/
theorem C120_partial (lib lib' : Lib) (disk disk' : Option Index) (took took' reason reason' : Str)
    (lines lines' : List TypedLine) (hx : ∀ d, disk = some d → FourByteIndex d) (hx' : ∀ d, disk' = some d → FourByteIndex d)
    (hd : ∀ e ∈ lines, ∀ d, e.disk = some d → FourByteIndex d) (hd' : ∀ e ∈ lines', ∀ d, e.disk = some d → FourByteIndex d)
    (he : mainLog lib disk took reason lines = mainLog lib' disk' took' reason' lines') :
    disk.map Index.wordsCount = disk'.map Index.wordsCount ∧ disk.map Index.nodesCount = disk'.map Index.nodesCount ∧
    disk.map (sessionAnswers lib · lines) = disk'.map (sessionAnswers lib' · lines') ∧
    ((toolMain lib disk (lines.map fun e => (e.line, e.disk))).2 = .exit 1 ↔
      (toolMain lib' disk' (lines'.map fun e => (e.line, e.disk))).2 = .exit 1) := by
  have hs := (C120_status lib disk took reason lines).1.trans
    (Iff.trans (by rw [he]) (C120_status lib' disk' took' reason' lines').1.symm)
  rcases mainLog_inj he with ⟨rfl, rfl, -⟩ | ⟨ix, ix', rfl, rfl, -, h1, h2, h3⟩
  · exact ⟨rfl, rfl, rfl, hs⟩
  · refine ⟨by simp [h1], by simp [h2], ?_, hs⟩
    simp only [Option.map_some]
    rw [C118_answers_partial (hx _ rfl) (hx' _ rfl) lib lib' lines lines' hd hd' h3]

/-- C120, the numbers: the second message says how many different words have readings and how many different beginnings of
words there are. -/
theorem C120_numbers {h : List Op} {ix : Index} (r : Run h ix) (lib : Lib) (took reason : Str) (lines : List TypedLine) :
    ∃ words nodes : List (List Rune), words.Nodup ∧ nodes.Nodup ∧
      (∀ v, v ∈ words ↔ (dictOf h).readingsFor v ≠ []) ∧ (∀ p, p ∈ nodes ↔ p ≠ [] ∧ p ∈ (dictOf h).nodes) ∧
      (mainLog lib (some ix) took reason lines)[1]? =
        some (.debug, str "indexed " ++ (itoa words.length ++ (str " words " ++ (itoa nodes.length ++ str " nodes")))) := by
  obtain ⟨L, h1, h2, h3⟩ := r.tagged_words
  have hnd := r.trie.nodup
  have hc := r.trie.nodesCount
  refine ⟨L, (dictOf h).nodes.filter (· ≠ []), h1, hnd.filter _, h3, ?_, ?_⟩
  · intro p
    rw [List.mem_filter]
    simp [and_comm]
  · have hlen : ((dictOf h).nodes.filter (· ≠ [])).length = ix.nodesCount := by
      rw [hc]
      have hroot := r.trie.root
      cases hN : (dictOf h).nodes with
      | nil => rw [hN] at hroot; simp at hroot
      | cons a N =>
        rw [hN] at hroot hnd
        simp only [List.getElem?_cons_zero, Option.some.injEq] at hroot
        subst hroot
        rw [List.nodup_cons] at hnd
        rw [List.filter_cons_of_neg (by simp), List.filter_eq_self.2]
        · simp
        · intro x hx
          have : x ≠ [] := by rintro rfl; exact hnd.1 hx
          simpa using this
    rw [hlen, h2]
    rfl

/-- C120, from the update to the tool: if `Update` logs that it indexed so many words and nodes and ends with "compiled index
saved", the dictionary being a document within capacity and no write error unnoticed, then the tool, started on the same
disk, loads the index and logs the very same line. -/
theorem C120_pipeline (cfg : LoaderCfg) (env : Env) (force : Bool) (w : World) (words nodes : Nat) (dataPath : Str)
    (hp : (update cfg env force w).1 ≠ .panic) (hi : .indexed words nodes ∈ updateLog cfg env force w)
    (hl : (updateLog cfg env force w).getLast? = some .saved) (hlate : ∀ n, env.late n = false) :
    ∃ d, (update cfg env force w).2.fs.file .xml = some d ∧
      ∀ doc, env.tokens d.data = (Xml.tokensAll doc, true) → Xml.ValidAll env.floatOK [] doc →
        Declared (entriesOf doc) → DocRoom (entriesOf doc) →
        ∀ (env' : Env) (v : World), v.fs = (update cfg env force w).2.fs → env'.openErr v.n = false →
          env'.readable v.n = none →
          ∃ ix, (loadIndex env' v).1 = .ok ix ∧ .loaded ∈ loadLog env' v ∧
            ∀ (lib : Lib) (took reason : Str) (lines : List TypedLine),
              (mainLog lib (some ix) took reason lines)[1]? = some (LogLine.bytes dataPath (.indexed words nodes, [])) := by
  obtain ⟨d, hd, H⟩ := C116_numbers cfg env force w words nodes hp hi
  refine ⟨d, hd, fun doc h1 h2 h3 h4 env' v e1 e2 e3 => ?_⟩
  obtain ⟨-, -, H⟩ := H doc h1 h2 h3 h4
  obtain ⟨ix, hload, rfl, rfl⟩ := H hl hlate
  have := hload env' v e1 e2 e3
  exact ⟨ix, this, (C116_load env' v).1.2 ⟨ix, this⟩, fun lib took reason lines => rfl⟩

/-! ## Examples -/

set_option maxRecDepth 8000 in
/-- A run with a dictionary, left because a reload fails. -/
example : ((mainLog (goLib fun a b => a == b) (some (execAll sampleHistory)) (str "3ms") [] sampleSession).map (·.2)).take 3 =
      [str "loaded in 3ms", str "indexed 2 words 6 nodes", str "< 00: NOUN, eta 12ms"] ∧
    (toolMain (goLib fun a b => a == b) (some (execAll sampleHistory)) (sampleSession.map fun e => (e.line, e.disk))).2 =
      .exit 1 := by
  constructor <;> decide +kernel

set_option maxRecDepth 8000 in
example : ∀ d, some (execAll sampleHistory) = some d → FourByteIndex d := by
  rintro d ⟨⟩
  exact ⟨sampleHistory, small_runs _ (by decide), by decide +kernel⟩

/-- The hypotheses of `C120_pipeline` about writing are met (for the others see the examples of C116). -/
example : ∀ n, (quietEnv (str "bz") 10 (fun n => 100 + n) (fun _ => (str "xml", true))
    (fun _ => (Xml.tokensAll sampleDoc, true))).late n = false := fun _ => rfl

end Verif
