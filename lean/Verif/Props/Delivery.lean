import Verif.Props.Tool
import Verif.Props.UpdateCmd

/-!
# C82 — from the published dictionary to the answer on the screen
-/

namespace Verif

/-- The line is not a command. -/
def IsSearch (line : Str) : Prop := firstWord line ∉ commands

/-- What the document says about a line: not found, if no form begins with it; otherwise the tag lists of the forms spelled
like it, each once. -/
def SaidBy (doc : List Xml) (line : Str) (reply : Reply) : Prop :=
  ((line ≠ [] ∧ ∃ f ∈ allForms (entriesOf doc), decodeRunes line <+: decodeRunes f.1) →
    ∃ L, ExactReadings (declaredTags (entriesOf doc)) (tagListsOf line (allForms (entriesOf doc))) L ∧
      reply = if L = [] then .empty else .readings L) ∧
  (¬ (line ≠ [] ∧ ∃ f ∈ allForms (entriesOf doc), decodeRunes line <+: decodeRunes f.1) → reply = .notFound)

/-- The answer to a line, from an index that answers as the document says. -/
theorem search_said {doc : List Xml} {ix : Index} (hs : Serves doc ix) (lib : Lib) (line : Str) (hc : IsSearch line)
    (hz : NoLeadingNul (decodeRunes line)) (he : [] ∉ tagListsOf line (allForms (entriesOf doc))) :
    ∃ reply, (processInput lib none ix line).2 = .ok reply ∧ (∀ c, reply ≠ .exit c) ∧ SaidBy doc line reply := by
  have hp : (processInput lib none ix line) = processSearch ix line := by
    unfold IsSearch firstWord commands at hc
    simp only [List.mem_cons, List.not_mem_nil, or_false, not_or] at hc
    unfold processInput
    simp only
    rw [if_neg (by tauto), if_neg (by tauto), if_neg (by tauto), if_neg (by tauto), if_neg (by tauto),
      if_neg (by tauto)]
  obtain ⟨hf, hr, hl⟩ := hs.2 line hz
  have o : Index.Obs ix (ix.fetchString line).1 := fetchFromItem_obs ix 0 (decodeRunes line)
  rw [hp]
  unfold processSearch SaidBy
  generalize ix.fetchString line = x at *
  obtain ⟨b, res⟩ := x
  simp only at *
  rcases hr with ⟨id, rfl⟩ | ⟨e, rfl⟩
  · obtain ⟨L, h1, h2⟩ := hl id rfl he
    refine ⟨if L = [] then .empty else .readings L, ?_, ?_, fun _ => ⟨L, by rw [← hs.1]; exact h2, rfl⟩,
      fun hn => absurd (hf.1 ⟨id, rfl⟩) hn⟩
    · show (b.tagSetsOf id).bind _ = _
      rw [(SameAnswers.of_obs o).tagSets, h1]
      simp only [Out.bind_ok, List.length_eq_zero_iff]
    · intro c h; split at h <;> cases h
  · refine ⟨.notFound, rfl, (fun c h => by cases h), fun h => ?_, fun _ => rfl⟩
    obtain ⟨id, hid⟩ := hf.2 h
    cases hid

/-- Line by line: as long as every reload finds the same dictionary, the reply to a line is the one it would get first. -/
theorem session_replies (lib : Lib) (ix : Index) : ∀ (lines : List (Str × Option Index)) (jx : Index), Index.Obs ix jx →
    (∀ l ∈ lines, IsReload l.1 → l.2 = some ix) →
    ∀ (i : Nat) (l : Str × Option Index) (reply : Reply), lines[i]? = some l → ¬ IsReload l.1 → (toolLoop lib jx lines).1[i]? = some reply →
      (processInput lib none ix l.1).2 = .ok reply ∨
      (∃ e, (processInput lib none ix l.1).2 = .err e ∧ reply = .message)
  | [], _, _, _, _, _, _, h, _, _ => by simp at h
  | (line, disk) :: rest, jx, ho, hd, i, l, reply, hi, hl, hrep => by
    have ih := fun kx (hk : Index.Obs ix kx) => session_replies lib ix rest kx hk
      fun l hl => hd l (List.mem_cons_of_mem _ hl)
    have h3 := processInput_congr ho lib none line
    by_cases hr : IsReload line
    · have hdisk : disk = some ix := hd (line, disk) List.mem_cons_self hr
      have e : processInput lib disk jx line = (ix, .ok .reloaded) := by
        rw [hdisk]
        unfold IsReload firstWord at hr
        unfold processInput
        simp only
        rcases hr with hr | hr <;> rw [hr] <;> rfl
      rw [toolLoop, e] at hrep
      simp only at hrep
      cases i with
      | zero =>
        rw [List.getElem?_cons_zero] at hi
        rw [← Option.some.inj hi] at hl
        exact absurd hr hl
      | succ i =>
        rw [List.getElem?_cons_succ] at hi hrep
        exact ih ix (.refl ix) i l reply hi hl hrep
    · have h2 : processInput lib disk jx line = processInput lib none jx line := processInput_disk hr
      have h4 := ho.trans (processInput_keeps (lib := lib) (line := line))
      rw [toolLoop, h2] at hrep
      have hcons : ∀ kx (p : Reply), Index.Obs ix kx →
          ((processInput lib none jx line).2 = .ok p ∨ ∃ e, (processInput lib none jx line).2 = .err e ∧ p = .message) →
          (p :: (toolLoop lib kx rest).1)[i]? = some reply →
          (processInput lib none ix l.1).2 = .ok reply ∨
          (∃ e, (processInput lib none ix l.1).2 = .err e ∧ reply = .message) := by
        intro kx p hk hp hq
        cases i with
        | zero =>
          rw [List.getElem?_cons_zero] at hi hq
          rw [← Option.some.inj hi, ← Option.some.inj hq, ← h3]
          exact hp
        | succ i =>
          rw [List.getElem?_cons_succ] at hi hq
          exact ih kx hk i l reply hi hl hq
      generalize processInput lib none jx line = y at *
      obtain ⟨kx, o⟩ := y
      cases o with
      | ok r =>
        cases r with
        | exit c => simp at hrep
        | _ => exact hcons kx _ h4 (.inl rfl) hrep
      | err e => exact hcons kx _ h4 (.inr ⟨e, rfl, rfl⟩) hrep
      | panic => simp at hrep
      | diverge => simp at hrep

/-- A session of searches and reloads answers every line and ends well. -/
theorem session_ends {doc : List Xml} {ix : Index} (hs : Serves doc ix) (lib : Lib) :
    ∀ (lines : List (Str × Option Index)) (jx : Index), Index.Obs ix jx →
    (∀ l ∈ lines, (IsReload l.1 ∧ l.2 = some ix) ∨ (IsSearch l.1 ∧ NoLeadingNul (decodeRunes l.1) ∧
      [] ∉ tagListsOf l.1 (allForms (entriesOf doc)))) →
    (toolLoop lib jx lines).2 = .exit 0 ∧ (toolLoop lib jx lines).1.length = lines.length
  | [], _, _, _ => ⟨rfl, rfl⟩
  | (line, disk) :: rest, jx, ho, h => by
    have ih := fun kx (hk : Index.Obs ix kx) => session_ends hs lib rest kx hk
      fun l hl => h l (List.mem_cons_of_mem _ hl)
    rcases h (line, disk) List.mem_cons_self with ⟨hr, hdisk⟩ | ⟨hc, hz, he⟩
    · simp only at hr hdisk
      have e : processInput lib disk jx line = (ix, .ok .reloaded) := by
        rw [hdisk]
        unfold IsReload firstWord at hr
        unfold processInput
        simp only
        rcases hr with hr | hr <;> rw [hr] <;> rfl
      rw [toolLoop, e]
      obtain ⟨h1, h2⟩ := ih ix (.refl ix)
      exact ⟨h1, by simp [h2]⟩
    · simp only at hc hz he
      have hr : ¬ IsReload line := by
        intro hr
        apply hc
        rcases hr with hr | hr <;> rw [hr] <;> decide
      have h2 : processInput lib disk jx line = processInput lib none jx line := processInput_disk hr
      have h3 := processInput_congr ho lib none line
      have h4 := ho.trans (processInput_keeps (lib := lib) (line := line))
      obtain ⟨reply, h5, h6, _⟩ := search_said hs lib line hc hz he
      rw [← h3] at h5
      rw [toolLoop, h2]
      generalize processInput lib none jx line = y at *
      obtain ⟨kx, o⟩ := y
      simp only at h5
      subst h5
      obtain ⟨h7, h8⟩ := ih kx h4
      cases reply with
      | exit c => exact absurd rfl (h6 c)
      | _ => exact ⟨h7, by simp [h8]⟩

/-- C82 (up to lines that are commands, lines starting with NUL and forms without tags): if nothing fails, an update is
required, and the server delivers an archive that unpacks to the text of a document of the format within capacity, then the
update command ends with status 0; and in every later session of the interactive tool on that disk — whatever is asked before,
with or without reloads — a line is answered with exactly what the document says about it. A session of searches and reloads
answers every line and ends with status 0. -/
theorem C82_partial (args : List Str) (ss : List (FlagName × Bool)) (ha : Accepted args ss)
    (hh : lastSetting .h false ss = false) (env : Env) (w : World) (hc : env.Calm)
    (hreq : ∀ v, v.fs = w.fs → (isUpdateRequired env v).1 = .ok true)
    (body xml : Str) (hget : ∀ n, env.get n = .answer 200 body true) (hbz : env.bunzip body = (xml, true))
    (doc : List Xml) (htok : env.tokens xml = (Xml.tokensAll doc, true))
    (hv : Xml.ValidAll env.floatOK [] doc) (hd : Declared (entriesOf doc)) (m : DocRoom (entriesOf doc)) :
    ∃ w' ix, updateMain args true env w = (0, w') ∧ LoadsTo w'.fs ix ∧
      ∀ (lib : Lib) (lines : List (Str × Option Index)), (∀ l ∈ lines, IsReload l.1 → l.2 = some ix) →
        (∀ (i : Nat) (l : Str × Option Index) (reply : Reply), lines[i]? = some l →
          (toolMain lib (some ix) lines).1[i]? = some reply →
          IsSearch l.1 → NoLeadingNul (decodeRunes l.1) → [] ∉ tagListsOf l.1 (allForms (entriesOf doc)) →
          SaidBy doc l.1 reply) ∧
        ((∀ l ∈ lines, IsReload l.1 ∨ (IsSearch l.1 ∧ NoLeadingNul (decodeRunes l.1) ∧
            [] ∉ tagListsOf l.1 (allForms (entriesOf doc)))) →
          (toolMain lib (some ix) lines).2 = .exit 0 ∧ (toolMain lib (some ix) lines).1.length = lines.length) := by
  obtain ⟨w', ix, hu, _, hl, hs⟩ := C62_partial env (lastSetting .f true ss) w hc hreq body xml hget hbz doc htok hv hd m
  refine ⟨w', ix, ?_, hl, ?_⟩
  · have hp := parse_values (f := Flags.default) (g := ⟨lastSetting .f true ss, lastSetting .d false ss,
      lastSetting .h false ss⟩) |>.2 ⟨ss, ha, rfl, rfl, rfl⟩
    unfold updateMain
    rw [hp, hh]
    simp only [Bool.false_eq_true, if_false, Bool.not_true]
    rw [hu]
  · intro lib lines hrel
    refine ⟨?_, ?_⟩
    · intro i l reply hi hrep h1 h2 h3
      have hr : ¬ IsReload l.1 := by
        intro hr
        apply h1
        rcases hr with hr | hr <;> rw [hr] <;> decide
      obtain ⟨p, hp, -, hsaid⟩ := search_said hs lib l.1 h1 h2 h3
      rcases session_replies lib ix lines ix (.refl ix) hrel i l reply hi hr hrep with h | ⟨e, h, _⟩
      · rw [hp] at h
        rw [← Out.ok.inj h]; exact hsaid
      · rw [hp] at h; cases h
    · intro h
      refine session_ends hs lib lines ix (.refl ix) ?_
      intro l hm
      rcases h l hm with h' | h'
      · exact .inl ⟨h', hrel l hm h'⟩
      · exact .inr h'

/-! ## The hypotheses are met -/

/-- The update command with `-f` on an empty disk, then a session of three lines: the first reply is what the sample
document says about `cat`. -/
example (lib : Lib) : ∃ w' ix reply, updateMain [str "-f"] true (quietEnv (str "bz") 10 (fun n => 100 + n)
      (fun _ => (str "xml", true)) (fun _ => (Xml.tokensAll sampleDoc, true))) emptyWorld = (0, w') ∧ LoadsTo w'.fs ix ∧
    (toolMain lib (some ix) [(str "reload", some ix), (str "cat", none), (str "dog", none)]).1[1]? = some reply ∧
    SaidBy sampleDoc (str "cat") reply := by
  obtain ⟨w', ix, h1, h2, h3⟩ := C82_partial [str "-f"] [(.f, true)]
    (.cons _ _ _ _ _ ⟨str "-", by simp, .inl ⟨rfl, rfl⟩⟩ .nil) rfl
    (quietEnv (str "bz") 10 (fun n => 100 + n) (fun _ => (str "xml", true)) (fun _ => (Xml.tokensAll sampleDoc, true)))
    emptyWorld (quietEnv_calm _ _ _ _ _)
    (by intro v hv; unfold isUpdateRequired statFile; rw [hv]; rfl) (str "bz") (str "xml") (fun _ => rfl) rfl
    sampleDoc rfl sampleDoc_valid sampleDoc_declared sampleDoc_room
  obtain ⟨h4, h5⟩ := h3 lib [(str "reload", some ix), (str "cat", none), (str "dog", none)] (by
    intro l hl hr
    simp only [List.mem_cons, List.not_mem_nil, or_false] at hl
    rcases hl with rfl | rfl | rfl
    · rfl
    · exact absurd (show IsReload (str "cat") from hr) (by decide)
    · exact absurd (show IsReload (str "dog") from hr) (by decide))
  have hcat : IsSearch (str "cat") ∧ NoLeadingNul (decodeRunes (str "cat")) ∧
      [] ∉ tagListsOf (str "cat") (allForms (entriesOf sampleDoc)) := by
    unfold IsSearch NoLeadingNul; decide
  have hdog : IsSearch (str "dog") ∧ NoLeadingNul (decodeRunes (str "dog")) ∧
      [] ∉ tagListsOf (str "dog") (allForms (entriesOf sampleDoc)) := by
    unfold IsSearch NoLeadingNul; decide
  obtain ⟨-, h6⟩ := h5 (by
    intro l hl
    simp only [List.mem_cons, List.not_mem_nil, or_false] at hl
    rcases hl with rfl | rfl | rfl
    · exact .inl (show IsReload (str "reload") by decide)
    · exact .inr hcat
    · exact .inr hdog)
  have h7 : 1 < (toolMain lib (some ix) [(str "reload", some ix), (str "cat", none), (str "dog", none)]).1.length := by
    rw [h6]; exact Nat.lt_of_sub_eq_succ rfl
  exact ⟨w', ix, _, h1, h2, List.getElem?_eq_getElem h7,
    h4 1 (str "cat", none) _ rfl (List.getElem?_eq_getElem h7) hcat.1 hcat.2.1 hcat.2.2⟩

/-- What the sample document says: `cat` is a noun and in singular, `ca` has no readings, `dog` is not found. -/
example : tagListsOf (str "cat") (allForms (entriesOf sampleDoc)) ≠ [] ∧
    tagListsOf (str "ca") (allForms (entriesOf sampleDoc)) = [] ∧
    (∃ f ∈ allForms (entriesOf sampleDoc), decodeRunes (str "ca") <+: decodeRunes f.1) ∧
    ¬ ∃ f ∈ allForms (entriesOf sampleDoc), decodeRunes (str "dog") <+: decodeRunes f.1 := by decide

end Verif
