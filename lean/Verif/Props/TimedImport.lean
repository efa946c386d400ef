import Verif.Lemmas.TimedImport
import Verif.Props.WholeLog
import Verif.Props.ParserExact

/-!
# C125 — timing has no influence on an import, and its log can be read in spite of it

`TState.run` is the import with a clock and with all messages of the parser (`Model/TimedImport.lean`); `PState.run` and
`PState.runLog` are the import and its log without (C40–C44, C122, C123). The clock is any that does not go backwards, as
Go's monotonic clock.
-/

namespace Verif

/-- C125: however fast the computer is and whenever it pauses, an import of any tokens into any index, with any limit, has the
same result and ends with the same error, if any; and what it logs beside the speed reports is the same. The speed report never
stops an import. -/
theorem C125 (fo : Str → Bool) (clock : Nat → Nat) (hm : Monotone clock) (ix : Index) (max : Int) (ts : List XTok) :
    let r := (TState.init clock ix max).run fo clock ts
    r.1.s = ((PState.init ix max).run fo ts).1 ∧
    r.2.2 = ((PState.init ix max).run fo ts).2.map .parser ∧
    withoutReports r.2.1 = (PState.init ix max).runLog fo ts :=
  let h := run_timed (fo := fo) hm ts (timeInv_init hm ix max)
  ⟨h.state, h.error, h.log⟩

theorem reports_time {a b x R : Nat} (h1 : a + (x * 10000000000 + 10000000000) ≤ R) (h2 : R ≤ b + 10000000000) :
    x * 10000000000 ≤ b - a := by
  generalize (10000000000 : Nat) = T at *
  generalize x * T = y at *
  omega

/-- C125, the speed reports: each comes at the end of an element, after all that is logged up to there; its number is the number
of lemmas up to there divided by the whole seconds since the start, which are at least ten; and between the first and the
last reading of the clock there are ten seconds for each report. -/
theorem C125_reports (fo : Str → Bool) (clock : Nat → Nat) (hm : Monotone clock) (ix : Index) (max : Int) (ts : List XTok) :
    let r := (TState.init clock ix max).run fo clock ts
    (∀ a v b, r.2.1 = a ++ .speed v :: b → ∃ p n q, ts = p ++ .stop n :: q ∧
      withoutReports a = (PState.init ix max).runLog fo (p ++ [.stop n]) ∧
      SpeedOf clock v ((PState.init ix max).run fo (p ++ [.stop n])).1.parsedLemmas) ∧
    (averages r.2.1).length * 10000000000 ≤ clock (r.1.reads - 1) - clock 0 := by
  intro r
  have h := run_timed (fo := fo) hm ts (timeInv_init hm ix max)
  refine ⟨fun a v b e => ?_, ?_⟩
  · obtain ⟨p, n, q, h1, -, h2⟩ := h.places a v b e
    exact ⟨p, n, q, h1, h2⟩
  have h1 := h.inv.due
  have h2 := h.inv.soon
  rw [Nat.zero_add] at h1
  exact reports_time h1 h2

theorem handler_lemma {p : Str} : handlerOf p = some .lem ↔ p = str ".dictionary.lemmata.lemma" := by
  constructor
  · intro h
    rw [(handler_only h).2.1.2 rfl]
    decide
  · rintro rfl
    decide

/-- What a token without error does to the path and to the number of lemmas. -/
theorem token_counts {fo : Str → Bool} {s s' : PState} {x : XTok} (h : s.token fo x = (s', none)) :
    s'.path = placeStep s.path x ∧ s'.maxLemmas = s.maxLemmas ∧
    s'.parsedLemmas = s.parsedLemmas + if endsLemma s.path x then 1 else 0 := by
  cases x with
  | other =>
    obtain ⟨rfl, -⟩ := Prod.mk.inj h
    exact ⟨rfl, rfl, rfl⟩
  | chars d =>
    have h : s.charData d = (s', none) := h
    unfold PState.charData at h
    split at h
    · cases h
    · split at h
      · cases h
      · obtain ⟨rfl, -⟩ := Prod.mk.inj h
        exact ⟨rfl, rfl, rfl⟩
    · obtain ⟨rfl, -⟩ := Prod.mk.inj h
      exact ⟨rfl, rfl, rfl⟩
  | start n as =>
    have h : s.startElement fo n as = (s', none) := h
    unfold PState.startElement at h
    simp only at h
    split at h
    · cases h
    · rename_i hd _
      cases hd <;> simp only [PState.onStart] at h <;> (repeat' split at h) <;>
        first
        | (cases h; done)
        | (obtain ⟨rfl, -⟩ := Prod.mk.inj h; exact ⟨rfl, rfl, rfl⟩)
  | stop n =>
    have h : s.endElement n = (s', none) := h
    unfold PState.endElement at h
    split at h
    · cases h
    · rename_i hd hh
      simp only at h
      split at h
      · cases h
      · obtain ⟨rfl, h2⟩ := Prod.mk.inj h
        refine ⟨rfl, ?_, ?_⟩
        · show (s.onEnd hd).1.maxLemmas = _
          cases hd <;> simp only [PState.onEnd] <;> (repeat' split) <;> rfl
        show (s.onEnd hd).1.parsedLemmas = _
        by_cases hl : hd = .lem
        · subst hl
          have e : endsLemma s.path (.stop n) = true := decide_eq_true (handler_lemma.1 hh)
          rw [e]
          unfold PState.onEnd at h2 ⊢
          simp only at h2 ⊢
          split at h2
          · cases h2
          · split at h2
            · cases h2
            · rfl
        · have e : endsLemma s.path (.stop n) = false := decide_eq_false fun hp => hl (by
            have := handler_lemma.2 hp
            rw [hh] at this
            exact Option.some.inj this)
          rw [e]
          show _ = s.parsedLemmas
          cases hd <;> simp only [PState.onEnd] <;> (repeat' split) <;> first | rfl | exact absurd rfl hl

/-- What tokens without error do to the path and to the number of lemmas. -/
theorem run_counts {fo : Str → Bool} : ∀ (ts : List XTok) {s : PState}, (s.run fo ts).2 = none →
    (s.run fo ts).1.path = ts.foldl placeStep s.path ∧ (s.run fo ts).1.maxLemmas = s.maxLemmas ∧
    (s.run fo ts).1.parsedLemmas = s.parsedLemmas + lemmasFrom s.path ts := by
  intro ts
  induction ts with
  | nil => exact fun _ => ⟨rfl, rfl, rfl⟩
  | cons x ts ih =>
    intro s h
    unfold PState.run at h ⊢
    cases ht : s.token fo x with
    | mk s1 e =>
      rw [ht] at h
      cases e with
      | some e => cases h
      | none =>
        simp only at h ⊢
        obtain ⟨h1, hx, h2⟩ := token_counts ht
        obtain ⟨h3, hy, h4⟩ := ih h
        rw [h3, h4, h1, h2, hy, hx]
        exact ⟨rfl, rfl, by rw [lemmasFrom, Nat.add_assoc]⟩

theorem lemmasFrom_append (a b : List XTok) : ∀ place : Str,
    lemmasFrom place (a ++ b) = lemmasFrom place a + lemmasFrom (a.foldl placeStep place) b := by
  induction a with
  | nil => exact fun _ => (Nat.zero_add _).symm
  | cons x a ih =>
    intro place
    rw [List.cons_append, lemmasFrom, ih, lemmasFrom, List.foldl_cons, Nat.add_assoc]

/-- C125, what the averages are: a report comes when a lemma ends, all that was logged for it and before it precedes the report,
and its number is the number of all lemmas that have ended in the text up to there, this one included, divided by the whole
seconds since the start. The number is counted in the tokens of the text (`lemmasFrom`), without the parser. -/
theorem C125_lemmas (fo : Str → Bool) (clock : Nat → Nat) (hm : Monotone clock) (ix : Index) (max : Int) (ts : List XTok) :
    ∀ a v b, ((TState.init clock ix max).run fo clock ts).2.1 = a ++ .speed v :: b → ∃ p n q, ts = p ++ .stop n :: q ∧
      placeOf p = str ".dictionary.lemmata.lemma" ∧
      withoutReports a = (PState.init ix max).runLog fo (p ++ [.stop n]) ∧
      SpeedOf clock v (lemmasFrom [] (p ++ [.stop n])) ∧
      (0 < max → (lemmasFrom [] (p ++ [.stop n]) : Int) < max) := by
  intro a v b e
  have h := run_timed (fo := fo) hm ts (timeInv_init hm ix max)
  obtain ⟨p, n, q, h1, ⟨h2, h3⟩, h4, h5⟩ := h.places a v b e
  rw [show (TState.init clock ix max).s = PState.init ix max from rfl] at h2 h3 h4 h5
  obtain ⟨c1, hmax, c2⟩ := run_counts p (s := PState.init ix max) h2
  have h3' := h3
  simp only [PState.lemmaEnds, Bool.and_eq_true, decide_eq_true_eq] at h3'
  obtain ⟨hl, he⟩ := h3'
  have hp : placeOf p = str ".dictionary.lemmata.lemma" := by
    have := handler_lemma.1 hl
    rw [← this]
    exact c1.symm
  have hn : lemmasFrom [] (p ++ [.stop n]) = ((PState.init ix max).run fo p).1.parsedLemmas + 1 := by
    rw [lemmasFrom_append, c2, lemmasFrom, lemmasFrom]
    have : endsLemma (List.foldl placeStep [] p) (.stop n) = true := decide_eq_true hp
    rw [this]
    show _ = 0 + lemmasFrom [] p + 1
    simp
  have hmax : ((PState.init ix max).run fo p).1.maxLemmas = max := hmax
  have hone : ∀ s : PState, (s.onEnd .lem).2 = none → (s.onEnd .lem).1.parsedLemmas = s.parsedLemmas + 1 ∧
      ¬ (0 < s.maxLemmas ∧ s.maxLemmas ≤ s.parsedLemmas + 1) := by
    intro s he
    unfold PState.onEnd at he ⊢
    simp only at he ⊢
    split at he
    · cases he
    · split at he
      · cases he
      · simp only
        refine ⟨trivial, fun hc => ?_⟩
        simp only [if_pos hc] at he
        cases he
  have hlast : ∀ (p : List XTok) (s : PState), (s.run fo p).2 = none →
      (s.run fo (p ++ [.stop n])).1 = ((s.run fo p).1.token fo (.stop n)).1 := by
    intro p
    induction p with
    | nil =>
      intro s _
      show (PState.run fo s [.stop n]).1 = _
      unfold PState.run
      show _ = (s.token fo (.stop n)).1
      cases s.token fo (.stop n) with
      | mk s' e => cases e <;> rfl
    | cons x p ih =>
      intro s hs
      rw [List.cons_append]
      unfold PState.run at hs ⊢
      cases ht : s.token fo x with
      | mk s1 e =>
        rw [ht] at hs
        cases e with
        | some e => cases hs
        | none => exact ih s1 hs
  refine ⟨p, n, q, h1, hp, h4, ?_, ?_⟩
  · have : ((PState.init ix max).run fo (p ++ [.stop n])).1.parsedLemmas = lemmasFrom [] (p ++ [.stop n]) := by
      rw [hn, hlast p _ h2, ← (lemmaEnds_count (fo := fo) h3).2]
      exact (hone _ he).1
    rw [← this]
    exact h5
  · intro h0
    rw [hn]
    have := (hone _ he).2
    rw [hmax] at this
    push Not at this
    have := this h0
    push_cast
    exact this

theorem execCounted_lemmas (max : Int) (es : List Entry) : ∀ (ix : Index) (c : Nat),
    (execCounted max ix c es).2.2 = none → (execCounted max ix c es).2.1 = c + lemmaCount es := by
  induction es with
  | nil => exact fun _ _ _ => rfl
  | cons e es ih =>
    intro ix c h
    cases e with
    | grammeme n p => exact ih _ _ h
    | lem fs =>
      unfold execCounted at h ⊢
      cases ha : addFormsSpec ix fs with
      | mk ix' o =>
        rw [ha] at h
        cases o with
        | some e => cases h
        | none =>
          simp only at h ⊢
          split at h
          · cases h
          · rename_i hl
            rw [if_neg hl, ih _ _ h]
            show c + 1 + lemmaCount es = c + (lemmaCount es + 1)
            omega

/-- C125, the count in terms of documents: of a document that can be imported, `lemmasFrom` counts just the lemmas; so the last
number that the reports of a long import come to is the number of the lemmas of the document. -/
theorem C125_document (fo : Str → Bool) (doc : List Xml) (hv : Xml.ValidAll fo [] doc) (ix : Index) (max : Int)
    (h : ((PState.init ix max).run fo (Xml.tokensAll doc)).2 = none) :
    lemmasFrom [] (Xml.tokensAll doc) = lemmaCount (entriesOf doc) := by
  have hs := sim_doc (fo := fo) doc (PState.init ix max) rfl ⟨rfl, rfl, rfl⟩ hv
  have hc : ((PState.init ix max).run fo (Xml.tokensAll doc)).1.parsedLemmas = 0 + lemmasFrom [] (Xml.tokensAll doc) :=
    (run_counts _ h).2.2
  have hl := execCounted_lemmas max (entriesOf doc) ix 0
  unfold Sim at hs
  rw [show (PState.init ix max).maxLemmas = max from rfl, show (PState.init ix max).ix = ix from rfl,
    show (PState.init ix max).parsedLemmas = 0 from rfl] at hs
  cases he : execCounted max ix 0 (entriesOf doc) with
  | mk ix' r =>
    obtain ⟨c, e⟩ := r
    rw [he] at hs hl
    cases e with
    | some e =>
      obtain ⟨s', hr, -⟩ := hs
      rw [hr] at h
      cases h
    | none =>
      have hc' : c = 0 + lemmaCount (entriesOf doc) := hl rfl
      have hs : PState.run fo (PState.init ix max) (Xml.tokensAll doc) = (_, none) := hs
      rw [hs] at hc
      have hc : c = 0 + lemmasFrom [] (Xml.tokensAll doc) := hc
      omega

/-- C125, when a report is due: if a token ends a lemma, all forms of which were accepted, below the limit, and more than ten
seconds have passed since the start or the last report, there is a report right then; and there is none otherwise. -/
theorem C125_due (fo : Str → Bool) (clock : Nat → Nat) (hm : Monotone clock) (ix : Index) (max : Int) (p : List XTok) (x : XTok) :
    let t := ((TState.init clock ix max).run fo clock p).1
    (t.s.lemmaEnds x = true ∧ t.reportAfter < clock t.reads → ∃ v, averages (t.token fo clock x).2.1 = [v]) ∧
    (¬ (t.s.lemmaEnds x = true ∧ t.reportAfter < clock t.reads) → averages (t.token fo clock x).2.1 = []) := by
  intro t
  have i : TimeInv clock t _ := (run_timed (fo := fo) hm p (timeInv_init hm ix max)).inv
  obtain ⟨t', lines, e, -, -⟩ := token_timed (fo := fo) hm i x
  constructor
  · rintro ⟨h1, h2⟩
    unfold TState.token
    simp only
    rw [if_pos h1]
    unfold TState.report
    rw [if_pos h2]
    have h10 : 10 ≤ (clock (t.reads + 1) - t.started) / second := by
      rw [second, Nat.le_div_iff_mul_le (by decide), i.started]
      exact due_ten i.due h2 (hm (by omega))
    simp only
    rw [if_neg (by omega)]
    exact ⟨_, by simp only [averages_append, averages_plain]; rfl⟩
  · intro hn
    unfold TState.token
    simp only
    split
    · rename_i h1
      unfold TState.report
      rw [if_neg fun h2 => hn ⟨h1, h2⟩]
      simp only [averages_append, averages_plain]
      rfl
    · exact averages_plain _

theorem atLevel_debug (log : List TimedLine) : atLevel .debug log = (withoutReports log).map ParseLine.text := by
  unfold atLevel withoutReports
  induction log with
  | nil => rfl
  | cons l log ih =>
    cases l with
    | plain l => simpa [TimedLine.bytes, ParseLine.bytes] using ih
    | speed n => simpa [TimedLine.bytes] using ih

theorem atLevel_info (log : List TimedLine) : atLevel .info log =
    (averages log).map fun n => str "avg " ++ (itoa n ++ str " lemma/sec") := by
  unfold atLevel averages
  induction log with
  | nil => rfl
  | cons l log ih =>
    cases l with
    | plain l => simpa [TimedLine.bytes, ParseLine.bytes] using ih
    | speed n => simpa [TimedLine.bytes] using ih

/-- C125, the bytes: the speed reports are just the info messages, the others the debug messages. So at the level of debug
messages the log of an import is the same on every computer, and at the level of info messages equal logs mean equal numbers. -/
theorem C125_bytes (fo : Str → Bool) (clock : Nat → Nat) (hm : Monotone clock) (ix : Index) (max : Int) (ts : List XTok) :
    let log := ((TState.init clock ix max).run fo clock ts).2.1
    atLevel .debug log = ((PState.init ix max).runLog fo ts).map ParseLine.text ∧
    (∀ v, v ≠ .debug → v ≠ .info → atLevel v log = []) ∧
    ∀ log', atLevel .info log = atLevel .info log' ↔ averages log = averages log' := by
  intro log
  refine ⟨?_, ?_, fun log' => ?_⟩
  · rw [atLevel_debug]
    exact congrArg _ (C125 fo clock hm ix max ts).2.2
  · intro v h1 h2
    unfold atLevel
    rw [List.map_eq_nil_iff, List.filter_eq_nil_iff]
    intro m hm
    obtain ⟨l, -, rfl⟩ := List.mem_map.1 hm
    cases l with
    | plain l => exact fun h => h1 (of_decide_eq_true h).symm
    | speed n => exact fun h => h2 (of_decide_eq_true h).symm
  · rw [atLevel_info, atLevel_info]
    constructor
    · intro h
      refine List.map_injective_iff.2 ?_ h
      intro a b hab
      exact itoa_inj (List.append_cancel_right (List.append_cancel_left hab))
    · intro h
      rw [h]

/-- C125 with C123: two imports of documents within capacity, on any two computers: if the debug messages of the parser are byte
for byte the same, the documents have the same forms with the same tags in the same order. -/
theorem C125_forms (fo : Str → Bool) (clock clock' : Nat → Nat) (hm : Monotone clock) (hm' : Monotone clock') (a b : List Xml)
    (va : Xml.ValidAll fo [] a) (vb : Xml.ValidAll fo [] b) (da : Declared (entriesOf a)) (db : Declared (entriesOf b))
    (ma : DocRoom (entriesOf a)) (mb : DocRoom (entriesOf b)) (max max' : Int)
    (h : atLevel .debug ((TState.init clock Index.new max).run fo clock (Xml.tokensAll a)).2.1 =
      atLevel .debug ((TState.init clock' Index.new max').run fo clock' (Xml.tokensAll b)).2.1) :
    allForms (wanted max (entriesOf a)) = allForms (wanted max' (entriesOf b)) := by
  rw [(C125_bytes fo clock hm Index.new max _).1, (C125_bytes fo clock' hm' Index.new max' _).1] at h
  refine C123_forms fo a b va vb da db ma mb max max' ?_
  have key : ∀ l : List ParseLine, l.map ParseLine.bytes = (l.map ParseLine.text).map fun t => (LogLevel.debug, t) := by
    intro l
    rw [List.map_map]
    rfl
  rw [key, key, h]

/-! ## Examples -/

/-- A computer that pauses for eleven seconds between any two readings of its clock. -/
def slowClock (k : Nat) : Nat := k * 11000000000

theorem slowClock_monotone : Monotone slowClock := fun _ _ h => Nat.mul_le_mul_right _ h

/-- It reports after each lemma; the rest of the log is that of a fast computer. -/
example : ((TState.init slowClock Index.new 0).run (fun _ => true) slowClock (Xml.tokensAll twiceDoc)).2.1 =
    [.plain (.word ⟨2, 3, 116, 0x10000⟩ (str "cat") [str "NOUN"]),
      .speed 0,
      .plain (.word ⟨2, 3, 116, 0x20000⟩ (str "cat") [str "VERB"]),
      .plain (.word ⟨1, 2, 97, 0x10001⟩ (str "ca") [str "VERB", str "NOUN"]),
      .speed 0,
      .plain (.closed (str ".dictionary"))] := by
  decide +kernel

/-- The hypotheses of `C125_document` are met. -/
example : lemmasFrom [] (Xml.tokensAll twiceDoc) = lemmaCount (entriesOf twiceDoc) :=
  C125_document (fun _ => true) twiceDoc twiceDoc_valid Index.new 0 (by decide +kernel)

/-- Both lemmas of this document are counted, each when it ends; the second report is about two. -/
example : lemmasFrom [] (Xml.tokensAll twiceDoc) = 2 := by decide +kernel

/-- The text of a report. -/
example : (TimedLine.speed 1234).bytes = (.info, str "avg 1234 lemma/sec") := by decide +kernel

/-- The hypotheses of `C125_forms` are met, by imports of two documents that are written differently, one on the slow computer
and one on a computer whose clock stands still. -/
example : allForms (wanted 0 (entriesOf twiceDoc)) = allForms (wanted 0 (entriesOf twiceDoc')) :=
  C125_forms (fun _ => true) slowClock (fun _ => 0) slowClock_monotone (fun _ _ _ => Nat.le_refl _) twiceDoc twiceDoc'
    twiceDoc_valid (by decide) twiceDoc_declared (declared_of_check _ (by decide)) twiceDoc_room twiceDoc'_room 0 0
    (by decide +kernel)

/-- A clock that shows twenty seconds, then half a second, then twenty again. -/
def brokenClock (k : Nat) : Nat := if k < 2 then 0 else if k = 3 then 500000000 else 20000000000

/-- C125 needs a clock that does not go backwards: otherwise a speed report may divide by zero, and the import of a document
without fault ends in a panic. -/
theorem not_C125_backwards : ¬ Monotone brokenClock ∧
    ((TState.init brokenClock Index.new 0).run (fun _ => true) brokenClock (Xml.tokensAll twiceDoc)).2.2 = some .divide ∧
    ((PState.init Index.new 0).run (fun _ => true) (Xml.tokensAll twiceDoc)).2 = none := by
  refine ⟨fun h => absurd (h (by decide : 2 ≤ 3)) (by decide), by decide +kernel, by decide +kernel⟩

end Verif
