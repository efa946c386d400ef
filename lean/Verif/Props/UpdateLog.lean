import Verif.Lemmas.UpdateLog
import Verif.Lemmas.Alike
import Verif.Props.Exact

/-!
# C116 — what an update logs is true

`updateLog cfg env force w` are the messages of `Update`, in order (`Model/UpdateLog.lean`). `LogTrue`
(`Spec/UpdateLog.lean`) says, message by message, what has to be so if the log is true.
-/

namespace Verif

/-- C116, unless the call panics: the last message is an error message exactly if `Update` returns an error; the log tells
exactly which steps were taken, in which order and with which success; files it does not mention were not touched at any
time; after "downloaded" the archive is a complete body the server sent, after "lemmata updated" the dictionary is the
whole content of the archive, and if the last message is "compiled index saved" the compiled index is that of the whole
dictionary (as far as the disk took it: all of it unless a failure was noticed only on closing, see `not_C116_saved`);
the numbers of words and nodes are those of the index of the whole dictionary. "lemmata up to date", "update required" and
the messages of a failed check are logged exactly if the check came to that. -/
theorem C116_partial (cfg : LoaderCfg) (env : Env) (force : Bool) (w : World) :
    let log := updateLog cfg env force w
    ((update cfg env force w).1 ≠ .panic → LogTrue env log (update cfg env force w).1 w (update cfg env force w).2) ∧
    (.upToDate ∈ log ↔ (isUpdateRequired env w).1 = .ok false) ∧
    (.downloading ∈ log ↔ (isUpdateRequired env w).1 = .ok true) ∧
    (.recompile ∈ log ↔ (isUpdateRequired env w).1 = .ok false ∧ force = true) ∧
    ((.checkFailed ∈ log ∨ .recompileUnpacked ∈ log ∨ .recompileDownloaded ∈ log) ↔
      (isUpdateRequired env w).1 = .err) :=
  update_says cfg env force w

/-- A non-trivial case: a first update in which the disk fails when the index is written. -/
example : updateLog ⟨true⟩ { plainEnv with room := fun n => if n = 14 then some 4 else none } false emptyWorld =
    [.checkUpdates, .checkRequired, .checkFile .archive, .noArchive, .checkExists .archive, .checkFile .archive,
      .fileMissing .archive, .checkExists .xml, .checkFile .xml, .fileMissing .xml, .downloading, .checkRequired,
      .checkFile .archive, .noArchive, .downloaded, .unpacked, .startParse, .saveStart, .indexed 0 0, .optimizing, .saving,
      .finishing, .closeIndex, .saveError, .compileFailed] ∧
    (update ⟨true⟩ { plainEnv with room := fun n => if n = 14 then some 4 else none } false emptyWorld).1 = .err := by
  constructor <;> decide +kernel

/-- The words of the forms, counted: what the index of a document within capacity has. -/
theorem doc_counts {es : List Entry} (hd : Declared es) (m : DocRoom es) {h : List Op} {ix : Index} (r : Run h ix)
    (hn : (dictOf h).nodes = (dictOf (callsOf es)).nodes) (hr : (dictOf h).readings = (dictOf (callsOf es)).readings) :
    (∃ L : List (List Rune), L.Nodup ∧ L.length = ix.nodesCount ∧
      ∀ p, p ∈ L ↔ p ≠ [] ∧ ∃ f ∈ allForms es, p <+: decodeRunes f.1) ∧
    (∃ L : List (List Rune), L.Nodup ∧ L.length = ix.wordsCount ∧
      ∀ v, v ∈ L ↔ ∃ f ∈ allForms es, decodeRunes f.1 = v) := by
  have hi := callsOf_imp hd m
  constructor
  · have hroot := hi.root
    rw [← hn] at hroot
    have hnd := r.trie.nodup
    cases hN : (dictOf h).nodes with
    | nil => rw [hN] at hroot; simp at hroot
    | cons a N =>
      rw [hN] at hroot hnd
      simp only [List.getElem?_cons_zero, Option.some.injEq] at hroot
      subst hroot
      rw [List.nodup_cons] at hnd
      refine ⟨N, hnd.2, by rw [r.trie.nodesCount, hN]; simp, ?_⟩
      intro p
      have hm := hi.nodes p
      rw [← hn, hN, List.mem_cons] at hm
      constructor
      · intro hp
        have h0 : p ≠ [] := by rintro rfl; exact hnd.1 hp
        refine ⟨h0, ?_⟩
        rcases hm.1 (.inr hp) with h | ⟨v, hv, hpv⟩
        · exact absurd h h0
        · obtain ⟨f, hf, rfl⟩ := List.mem_map.1 hv
          exact ⟨f, hf, hpv⟩
      · rintro ⟨h0, f, hf, hpv⟩
        rcases hm.2 (.inr ⟨_, List.mem_map.2 ⟨f, hf, rfl⟩, hpv⟩) with h | h
        · exact absurd h h0
        · exact h
  · obtain ⟨L, h1, h2, h3⟩ := r.tagged_words
    refine ⟨L, h1, h2, fun v => (h3 v).trans ?_⟩
    have hatt : ∀ k, (dictOf h).attached k = (dictOf (callsOf es)).attached k := by
      intro k; unfold Dict.attached; rw [hr]
    constructor
    · intro h0
      obtain ⟨x, hx⟩ := List.exists_mem_of_ne_nil _ h0
      unfold Dict.readingsFor at hx
      obtain ⟨e, he, rfl⟩ := List.mem_map.1 hx
      rw [List.mem_filter] at he
      have hw := of_decide_eq_true he.2
      rw [readingsFor_eq r.trie.nodup hw, hatt, hi.attached _ _ (hn ▸ hw)] at h0
      obtain ⟨y, hy⟩ := List.exists_mem_of_ne_nil _ h0
      obtain ⟨f, hf, -⟩ := List.mem_map.1 hy
      rw [List.mem_filter] at hf
      exact ⟨f, hf.1, of_decide_eq_true hf.2⟩
    · rintro ⟨f, hf, rfl⟩
      have hmem : decodeRunes f.1 ∈ (dictOf h).nodes := by
        rw [hn, hi.nodes]
        exact .inr ⟨_, List.mem_map.2 ⟨f, hf, rfl⟩, List.prefix_refl _⟩
      obtain ⟨k, hk⟩ := List.mem_iff_getElem?.1 hmem
      rw [readingsFor_eq r.trie.nodup hk, hatt, hi.attached _ _ (hn ▸ hk)]
      intro h0
      have : f.2 ∈ ((allForms es).filter fun g => decodeRunes g.1 = decodeRunes f.1).map (·.2) :=
        List.mem_map.2 ⟨f, List.mem_filter.2 ⟨hf, by simp⟩, rfl⟩
      rw [h0] at this
      cases this

/-- C116, the numbers: if the dictionary on the disk is a document within capacity, the number of nodes in the log is the
number of different non-empty beginnings of its forms, and the number of words that of its differently spelled forms. If
the log ends with "compiled index saved" and no write error went unnoticed, the index loads, and counts just as many. -/
theorem C116_numbers (cfg : LoaderCfg) (env : Env) (force : Bool) (w : World) (words nodes : Nat)
    (hp : (update cfg env force w).1 ≠ .panic) (hi : .indexed words nodes ∈ updateLog cfg env force w) :
    ∃ d, (update cfg env force w).2.fs.file .xml = some d ∧
      ∀ doc, env.tokens d.data = (Xml.tokensAll doc, true) → Xml.ValidAll env.floatOK [] doc →
        Declared (entriesOf doc) → DocRoom (entriesOf doc) →
        (∃ L : List (List Rune), L.Nodup ∧ L.length = nodes ∧
          ∀ p, p ∈ L ↔ p ≠ [] ∧ ∃ f ∈ allForms (entriesOf doc), p <+: decodeRunes f.1) ∧
        (∃ L : List (List Rune), L.Nodup ∧ L.length = words ∧
          ∀ v, v ∈ L ↔ ∃ f ∈ allForms (entriesOf doc), decodeRunes f.1 = v) ∧
        ((updateLog cfg env force w).getLast? = some .saved → (∀ n, env.late n = false) →
          ∃ ix, LoadsTo (update cfg env force w).2.fs ix ∧ ix.wordsCount = words ∧ ix.nodesCount = nodes) := by
  have ht := (update_says cfg env force w).1 hp
  obtain ⟨d, s, hd, -, hs, rfl, rfl⟩ := ht.indexed _ _ hi
  refine ⟨d, hd, fun doc htok hv hdec m => ?_⟩
  obtain ⟨-, -, -, ix, hload, -, s4⟩ := imported hv hdec m
  have r1 := room_runs _ (room_of_doc hdec m)
  have he : execEntries Index.new (entriesOf doc) = (execAll (callsOf (entriesOf doc)), none) :=
    entries_ok (entriesOf doc) Run.nil (by simp [NoReload]) Holds.empty [] (by simp) hdec.steps r1
  have hr : _ = execEntries Index.new (entriesOf doc) := C40 env.floatOK doc hv Index.new 0 (by decide)
  rw [htok] at hs
  rw [hs, he] at hr
  rw [hs] at hload
  have hsix : s.ix = execAll (callsOf (entriesOf doc)) := (Prod.mk.inj hr).1
  rw [← hsix] at r1
  obtain ⟨-, hn, hrd, -⟩ := imported_dict hdec m
  obtain ⟨c1, c2⟩ := doc_counts hdec m r1 rfl rfl
  refine ⟨c1, c2, fun hl hlate => ⟨ix, ?_, ?_, ?_⟩⟩
  · obtain ⟨d', s', n, t, a1, a2, a3, a4, a5⟩ := ht.saved hl
    rw [hd] at a1
    obtain rfl := Option.some.inj a1
    rw [htok, hs] at a2
    obtain rfl := (Prod.mk.inj a2).1
    rw [a5 (hlate n)] at a4
    refine (load_full a4 hload ?_).2
    intro q hq hne
    obtain ⟨r, hr⟩ := hq
    simp only at hload
    rw [← hr] at hload
    refine (Framed_load Index.new).strict_prefix (NoCrash_load Index.new) hload ?_
    rintro rfl
    rw [List.append_nil] at hr
    exact hne hr
  · refine sameContent_wordsCount s4 r1 fun v => ?_
    have e : (dictOf (callsOf (entriesOf doc) ++ [.optimize] ++ [.reload])).readingsFor v =
        (dictOf (callsOf (entriesOf doc))).readingsFor v := by
      unfold Dict.readingsFor; rw [hn, hrd]
    rw [e]
    exact ⟨fun x hx => ⟨x, hx, List.Perm.refl _⟩, fun x hx => ⟨x, hx, List.Perm.refl _⟩⟩
  · rw [s4.trie.nodesCount, r1.trie.nodesCount, hn]

/-- The hypotheses are met: the sample document, a first update; the log ends with "compiled index saved". -/
example : let env := (quietEnv (str "bz") 10 (fun n => 100 + n) (fun _ => (str "xml", true))
      (fun _ => (Xml.tokensAll sampleDoc, true)))
    (update ⟨true⟩ env true emptyWorld).1 ≠ .panic ∧
    (∃ words nodes, .indexed words nodes ∈ updateLog ⟨true⟩ env true emptyWorld) ∧
    (updateLog ⟨true⟩ env true emptyWorld).getLast? = some .saved ∧
    ((update ⟨true⟩ env true emptyWorld).2.fs.file .xml).map (·.data) = some (str "xml") := by
  intro env
  obtain ⟨w', ix, h1, h2, -⟩ := C62_partial env true emptyWorld (quietEnv_calm _ _ _ _ _)
    (by intro v hv; unfold isUpdateRequired statFile; rw [hv]; rfl) (str "bz") (str "xml") (fun _ => rfl) rfl
    sampleDoc rfl sampleDoc_valid sampleDoc_declared sampleDoc_room
  have hp : (update ⟨true⟩ env true emptyWorld).1 ≠ .panic := by rw [h1]; simp
  have ht := (update_says ⟨true⟩ env true emptyWorld).1 hp
  have hst := ht.steps
  rw [h1, h2] at hst
  have hl : (updateLog ⟨true⟩ env true emptyWorld).getLast? = some .saved := by
    by_contra hne
    unfold toldSteps at hst
    rw [if_neg hne, List.append_nil] at hst
    have hm : Ev.compiled true ∈ (updateLog ⟨true⟩ env true emptyWorld).filterMap LogLine.tells := by
      rw [← List.append_cancel_left hst]; simp
    obtain ⟨l, -, hl⟩ := List.mem_filterMap.1 hm
    cases l <;> simp [LogLine.tells] at hl
  have hu : LogLine.unpacked ∈ updateLog ⟨true⟩ env true emptyWorld := by
    unfold toldSteps at hst
    have hm : Ev.unpacked true ∈ (updateLog ⟨true⟩ env true emptyWorld).filterMap LogLine.tells ++ [.compiled true] := by
      rw [if_pos hl] at hst
      rw [← List.append_cancel_left hst]; simp
    rcases List.mem_append.1 hm with hm | hm
    · obtain ⟨l, hml, hl⟩ := List.mem_filterMap.1 hm
      cases l <;> simp [LogLine.tells] at hl
      exact hml
    · simp at hm
  obtain ⟨a, x, t, -, hx, hf⟩ := ht.unpacked hu
  refine ⟨hp, ht.numbers (List.mem_of_getLast? hl), hl, ?_⟩
  rw [hf]
  have hx' : (str "xml", true) = (x, true) := hx
  rw [← (Prod.mk.inj hx').1]; rfl

/-! ## The other messages -/

/-- The file the answer of a check is about. -/
def LogLine.about : LogLine → Option FName
  | .fileMissing f | .fileAccess f | .fileFound f _ _ => some f
  | _ => none

/-- C116, the check for updates: each of its messages is logged exactly if it is true. -/
theorem C116_required (env : Env) (w : World) :
    let log := requiredLog env w
    let asked := env.statErr w.n = true ∨ w.fs.file .archive ≠ none
    (.noArchive ∈ log ↔ ¬ asked) ∧ (.checkRemote ∈ log ↔ asked) ∧
    (.remoteError ∈ log ↔ asked ∧ env.head (w.n + 1) = .fail) ∧
    (∀ status, .remoteStatus status ∈ log ↔ asked ∧ status ≠ 200 ∧ ∃ lm, env.head (w.n + 1) = .answer status lm) ∧
    (.remoteNoTime ∈ log ↔ asked ∧ env.head (w.n + 1) = .answer 200 .absent) ∧
    (∀ lm, .remoteTime lm ∈ log ↔ asked ∧ lm ≠ .absent ∧ env.head (w.n + 1) = .answer 200 lm) := by
  intro log asked
  have key : ∀ (S : StatAns), S ≠ .missing → statFile env .archive w = (S, w.tick) → asked →
      log = .checkRequired :: .checkFile .archive :: .checkRemote ::
        match env.head (w.n + 1) with
        | .fail => [.remoteError]
        | .answer status lm =>
          if status ≠ 200 then [.remoteStatus status]
          else match lm with
            | .absent => [.remoteNoTime]
            | lm => [.remoteTime lm] := by
    intro S h0 h1 _
    show requiredLog env w = _
    unfold requiredLog
    rw [h1]
    cases S with
    | missing => exact absurd rfl h0
    | other => rfl
    | found m => rfl
  by_cases ha : asked
  · obtain ⟨L, hL⟩ : ∃ L, L = LogLine.checkRequired :: .checkFile .archive :: .checkRemote ::
        match env.head (w.n + 1) with
        | .fail => [.remoteError]
        | .answer status lm =>
          if status ≠ 200 then [.remoteStatus status]
          else match lm with
            | .absent => [.remoteNoTime]
            | lm => [.remoteTime lm] := ⟨_, rfl⟩
    rw [← hL] at key
    have hl : log = L := by
      rcases ha with h | h
      · exact key .other (by simp) (by simp [statFile, h]) (.inl h)
      · cases hs : env.statErr w.n with
        | true => exact key .other (by simp) (by simp [statFile, hs]) (.inl hs)
        | false =>
          cases hf : w.fs.file .archive with
          | none => exact absurd hf h
          | some d => exact key (.found d.mtime) (by simp) (by simp [statFile, hs, hf]) (.inr h)
    rw [hl, hL]
    cases hh : env.head (w.n + 1) with
    | fail => simp [ha]
    | answer st lm =>
      simp only
      by_cases h2 : st = 200
      · subst h2
        cases lm <;> simp [ha, eq_comm]
      · simp only [ne_eq, h2, not_false_eq_true, if_true]
        simp only [List.mem_cons, reduceCtorEq, List.not_mem_nil, or_false, or_true, false_or, ha, not_true_eq_false,
          and_false, HeadAns.answer.injEq, LogLine.remoteStatus.injEq, h2, false_and, true_and, iff_self,
          and_self, implies_true, and_true]
        intro x
        constructor
        · rintro rfl; exact ⟨h2, lm, rfl, rfl⟩
        · rintro ⟨-, y, h, -⟩; exact h.symm
  · have h1 : env.statErr w.n = false := by
      cases h : env.statErr w.n with
      | false => rfl
      | true => exact absurd (.inl h) ha
    have h2 : w.fs.file .archive = none := by
      by_contra h; exact ha (.inr h)
    have hl : log = [.checkRequired, .checkFile .archive, .noArchive] := by
      show requiredLog env w = _
      unfold requiredLog statFile
      rw [h1, h2]; rfl
    rw [hl]
    simp [ha]

/-- C116, the checks for files: "exists", with time and size, "not exists" and "access" are logged exactly if that is so, and
a forced update after a failed check says which file it uses. (`k` is the number of the first of the two checks.) -/
theorem C116_checks (cfg : LoaderCfg) (env : Env) (force : Bool) (w : World)
    (hp : (isUpdateRequired env w).1 ≠ .panic) :
    let log := updateLog cfg env force w
    let k := (isUpdateRequired env w).2.n
    let at_ : FName → Nat := fun f => match f with | .archive => k | _ => k + 1
    (∀ f, f ≠ .compiled →
      (.fileAccess f ∈ log ↔ env.statErr (at_ f) = true) ∧
      (.fileMissing f ∈ log ↔ env.statErr (at_ f) = false ∧ w.fs.file f = none) ∧
      ∀ m size, .fileFound f m size ∈ log ↔ env.statErr (at_ f) = false ∧
        ∃ d, w.fs.file f = some d ∧ d.mtime = m ∧ d.data.length = size) ∧
    (.recompileUnpacked ∈ log ↔ (isUpdateRequired env w).1 = .err ∧ force = true ∧
      ∃ m size, .fileFound .xml m size ∈ log) ∧
    (.recompileDownloaded ∈ log ↔ (isUpdateRequired env w).1 = .err ∧ force = true ∧
      (¬ ∃ m size, .fileFound .xml m size ∈ log) ∧ ∃ m size, .fileFound .archive m size ∈ log) := by
  intro log k at_
  have hsame := required_same env w
  obtain ⟨rest, w1, hw1, hlog, hrest⟩ := update_parts cfg env force w hp
  rw [← hw1] at hsame
  have hk : k = w1.n := by rw [hw1]
  have hfs1 : w1.fs = w.fs := hsame.1
  have hfs2 : w1.tick.fs = w.fs := hsame.1
  -- what the two checks say
  have hex : ∀ (f : FName) (v : World), v.fs = w.fs → existsLog env f v = .checkExists f :: .checkFile f ::
      (if env.statErr v.n = true then [.fileAccess f] else match w.fs.file f with
        | none => [.fileMissing f]
        | some d => [.fileFound f d.mtime d.data.length]) ∧
      ((fileExists env f v).1 = true ↔ env.statErr v.n = false ∧ w.fs.file f ≠ none) := by
    intro f v hv
    unfold existsLog fileExists statFile
    rw [hv]
    cases hs : env.statErr v.n with
    | true => simp
    | false =>
      cases hf : w.fs.file f with
      | none => simp
      | some d => simp
  have hdec : ∀ c a b d, ∀ l ∈ decideLog c a b d, l.kind = 1 := by
    intro c a b d
    rcases c with _ | _ | _ <;> cases a <;> cases b <;> cases d <;> decide
  have hmem2 : ∀ l : LogLine, l.kind = 2 →
      (l ∈ log ↔ l ∈ existsLog env .archive w1 ∨ l ∈ existsLog env .xml w1.tick) := by
    intro l hl
    show l ∈ updateLog cfg env force w ↔ _
    rw [hlog]
    simp only [List.mem_append, List.mem_cons]
    constructor
    · rintro (((((rfl | h) | h) | h) | h) | h)
      · cases hl
      · rw [(required_aside _ _ l h).2] at hl; cases hl
      · exact .inl h
      · exact .inr h
      · rw [hdec _ _ _ _ l h] at hl; cases hl
      · rw [hrest l h] at hl; cases hl
    · rintro (h | h)
      · exact .inl (.inl (.inl (.inr h)))
      · exact .inl (.inl (.inr h))
  have hmem1 : ∀ l : LogLine, l.kind = 1 →
      (l ∈ log ↔ l ∈ decideLog (match (isUpdateRequired env w).1 with | .ok b => some b | _ => none) force
          (fileExists env .archive w1).1 (fileExists env .xml w1.tick).1) := by
    intro l hl
    show l ∈ updateLog cfg env force w ↔ _
    rw [hlog]
    simp only [List.mem_append, List.mem_cons]
    constructor
    · rintro (((((rfl | h) | h) | h) | h) | h)
      · cases hl
      · rw [(required_aside _ _ l h).2] at hl; cases hl
      · exact absurd hl (exists_aside _ _ _ l h).2
      · exact absurd hl (exists_aside _ _ _ l h).2
      · exact h
      · rw [hrest l h] at hl; cases hl
    · exact fun h => .inl (.inr h)
  have hfile : ∀ f, f ≠ .compiled →
      (.fileAccess f ∈ log ↔ env.statErr (at_ f) = true) ∧
      (.fileMissing f ∈ log ↔ env.statErr (at_ f) = false ∧ w.fs.file f = none) ∧
      ∀ m size, .fileFound f m size ∈ log ↔ env.statErr (at_ f) = false ∧
        ∃ d, w.fs.file f = some d ∧ d.mtime = m ∧ d.data.length = size := by
    have one : ∀ (f : FName) (v : World), v.fs = w.fs → at_ f = v.n →
        (∀ l : LogLine, l.kind = 2 → l.about = some f → (l ∈ log ↔ l ∈ existsLog env f v)) →
        (.fileAccess f ∈ log ↔ env.statErr (at_ f) = true) ∧
        (.fileMissing f ∈ log ↔ env.statErr (at_ f) = false ∧ w.fs.file f = none) ∧
        ∀ m size, .fileFound f m size ∈ log ↔ env.statErr (at_ f) = false ∧
          ∃ d, w.fs.file f = some d ∧ d.mtime = m ∧ d.data.length = size := by
      intro f v hv ha hl
      rw [hl _ rfl rfl, hl _ rfl rfl, (hex f v hv).1, ha]
      refine ⟨?_, ?_, fun m size => ?_⟩
      · cases hs : env.statErr v.n with
        | true => simp
        | false => cases hf : w.fs.file f <;> simp
      · cases hs : env.statErr v.n with
        | true => simp
        | false => cases hf : w.fs.file f <;> simp
      · rw [hl _ rfl rfl, (hex f v hv).1]
        cases hs : env.statErr v.n with
        | true => simp
        | false =>
          cases hf : w.fs.file f with
          | none => simp
          | some d =>
            simp only [Bool.false_eq_true, if_false, List.mem_cons, reduceCtorEq, List.not_mem_nil, or_false, false_or,
              LogLine.fileFound.injEq, true_and, Option.some.injEq, exists_eq_left']
            exact ⟨fun h => ⟨h.1.symm, h.2.symm⟩, fun h => ⟨h.1.symm, h.2.symm⟩⟩
    have about : ∀ (f g : FName) (v : World) (l : LogLine), v.fs = w.fs → l.kind = 2 → l ∈ existsLog env g v →
        l.about = some f → g = f := by
      intro f g v l hv hk hl ha
      rw [(hex g v hv).1] at hl
      simp only [List.mem_cons] at hl
      rcases hl with rfl | rfl | hl
      · cases hk
      · cases hk
      · split at hl
        · simp at hl; subst hl; exact Option.some.inj ha
        · split at hl <;> (simp at hl; subst hl; exact Option.some.inj ha)
    intro f hf
    cases f with
    | compiled => exact absurd rfl hf
    | archive =>
      refine one .archive w1 hfs1 hk fun l h2 ha => (hmem2 l h2).trans ⟨?_, .inl⟩
      rintro (h | h)
      · exact h
      · cases about _ _ _ l hfs2 h2 h ha
    | xml =>
      refine one .xml w1.tick hfs2 (by show k + 1 = w1.n + 1; rw [hk]) fun l h2 ha => (hmem2 l h2).trans ⟨?_, .inr⟩
      rintro (h | h)
      · cases about _ _ _ l hfs1 h2 h ha
      · exact h
  have hfound : ∀ f, f ≠ .compiled → ((∃ m size, LogLine.fileFound f m size ∈ log) ↔
      env.statErr (at_ f) = false ∧ w.fs.file f ≠ none) := by
    intro f hf
    constructor
    · rintro ⟨m, size, h⟩
      obtain ⟨h1, d, h2, -⟩ := ((hfile f hf).2.2 m size).1 h
      exact ⟨h1, by rw [h2]; simp⟩
    · rintro ⟨h1, h2⟩
      cases hd : w.fs.file f with
      | none => exact absurd hd h2
      | some d => exact ⟨d.mtime, d.data.length, ((hfile f hf).2.2 _ _).2 ⟨h1, d, hd, rfl, rfl⟩⟩
  have hdl : ((fileExists env .archive w1).1 = true ↔ ∃ m size, LogLine.fileFound .archive m size ∈ log) := by
    rw [hfound _ (by simp), (hex .archive w1 hfs1).2, show at_ .archive = w1.n from hk]
  have hun : ((fileExists env .xml w1.tick).1 = true ↔ ∃ m size, LogLine.fileFound .xml m size ∈ log) := by
    rw [hfound _ (by simp), (hex .xml w1.tick hfs2).2,
      show at_ .xml = w1.tick.n by show k + 1 = w1.n + 1; rw [hk]]
  refine ⟨hfile, ?_, ?_⟩
  · rw [hmem1 _ rfl, ← hun]
    cases hreq : (isUpdateRequired env w).1 with
    | panic => exact absurd hreq hp
    | ok b => cases b <;> cases force <;> simp [decideLog]
    | err => cases force <;> cases (fileExists env .archive w1).1 <;> cases (fileExists env .xml w1.tick).1 <;> simp [decideLog]
  · rw [hmem1 _ rfl, ← hun, ← hdl]
    cases hreq : (isUpdateRequired env w).1 with
    | panic => exact absurd hreq hp
    | ok b => cases b <;> cases force <;> simp [decideLog]
    | err => cases force <;> cases (fileExists env .archive w1).1 <;> cases (fileExists env .xml w1.tick).1 <;> simp [decideLog]

/-- The hypothesis is met; here an old archive is used. -/
example : (isUpdateRequired { plainEnv with head := fun _ => .fail } archiveWorld).1 ≠ .panic ∧
    .recompileDownloaded ∈ updateLog ⟨true⟩ { plainEnv with head := fun _ => .fail } true archiveWorld ∧
    .fileFound .archive 50 3 ∈ updateLog ⟨true⟩ { plainEnv with head := fun _ => .fail } true archiveWorld := by
  refine ⟨?_, ?_, ?_⟩ <;> decide +kernel

/-- C116, saving: "compiled index saved" is logged exactly if saving succeeds or panics, an error exactly if it fails after
the file was created, and "remove incomplete index" exactly if then the incomplete index stays on the disk. -/
theorem C116_save (env : Env) (ix : Index) (w : World) :
    let log := saveLog env ix w
    let r := saveIndex env ix w
    (.saved ∈ log ↔ r.1 = .ok () ∨ r.1 = .panic) ∧
    (log = [.saveStart] ↔ env.createErr w.n = true ∨ w.fs.dir = false) ∧
    (.saveError ∈ log ↔ r.1 = .err ∧ log ≠ [.saveStart]) ∧
    (.removeError ∈ log ↔ .saveError ∈ log ∧ r.2.fs.file .compiled ≠ none) := by
  intro log r
  have hr : r = saveIndex env ix w := rfl
  have hl : log = saveLog env ix w := rfl
  unfold saveIndex createFile at hr
  unfold saveLog createFile at hl
  by_cases hc : env.createErr w.n = true ∨ w.fs.dir = false
  · rw [if_pos hc] at hr hl
    simp only at hr hl
    rw [hr, hl]
    simp [hc]
  · rw [if_neg hc] at hr hl
    simp only at hr hl
    cases ho : ix.optimize with
    | mk ix' o =>
      rw [ho] at hr hl
      cases o with
      | err e => simp only at hr hl; rw [hr, hl]; simp [hc]
      | panic => simp only at hr hl; rw [hr, hl]; simp [hc]
      | diverge => simp only at hr hl; rw [hr, hl]; simp [hc]
      | ok u =>
        simp only at hr hl
        split at hr
        · rename_i hb
          rw [if_pos hb] at hl
          have hn : (World.tick (World.grow (World.tick (w.set (w.fs.put .compiled (some ⟨[], env.now w.n⟩)))) .compiled
            (accepted (env.room (World.tick (w.set (w.fs.put .compiled (some ⟨[], env.now w.n⟩)))).n) ix'.save.bytes)
            (env.now (World.tick (w.set (w.fs.put .compiled (some ⟨[], env.now w.n⟩)))).n))).n = w.n + 2 := rfl
          have hn1 : (World.tick (w.set (w.fs.put .compiled (some ⟨[], env.now w.n⟩)))).n + 1 = w.n + 2 := rfl
          rw [hn1] at hl
          unfold removeFile at hr
          rw [hn] at hr
          cases hm : env.removeErr (w.n + 2) with
          | true =>
            rw [hm] at hr hl
            rw [hr, hl]
            simp [hc, World.tick, World.grow, FS.put]
          | false =>
            rw [hm] at hr hl
            rw [hr, hl]
            simp [hc, World.tick, World.grow, World.set, FS.put]
        · rename_i hb
          rw [if_neg hb] at hl
          rw [hr, hl]
          simp [hc]

/-- C116 fails in general, "compiled index saved": the disk takes only a part of the index, which is noticed when the file
is closed - and then not looked at. The log ends with "compiled index saved", `Update` returns nil, nothing loads. -/
theorem not_C116_saved : ∃ (env : Env) (w : World), (updateLog ⟨true⟩ env false w).getLast? = some .saved ∧
    (update ⟨true⟩ env false w).1 = .ok () ∧ LoadFails (update ⟨true⟩ env false w).2.fs := by
  refine ⟨{ plainEnv with room := fun n => if n = 14 then some 4 else none, late := fun _ => true }, emptyWorld,
    by decide +kernel, by decide +kernel, ?_⟩
  refine load_prefix (p := [84, 68, 0, 0]) (t := 114) (by decide +kernel) ?_
  intro q hq
  have hl : Index.new.optimize.1.InLimits := by constructor <;> decide
  have hp : ([84, 68, 0, 0] : Str) <+: Index.new.optimize.1.save.bytes := by decide
  rcases prefix_cases hl (hq.trans hp) with h | ⟨h, -⟩
  · exact h
  · exfalso
    have h1 := hq.length_le
    rw [h] at h1
    exact absurd h1 (by decide)

/-- C116 fails in general, "lemmata updated": the server cannot be reached and the update is forced; "lemmata updated" is
logged although nothing was downloaded and the archive is the old one. -/
theorem not_C116_updated : ∃ (env : Env) (w : World), .unpacked ∈ updateLog ⟨true⟩ env true w ∧
    (update ⟨true⟩ env true w).1 = .ok () ∧ .downloaded ∉ updateLog ⟨true⟩ env true w ∧
    (update ⟨true⟩ env true w).2.fs.file .archive = w.fs.file .archive :=
  ⟨{ plainEnv with head := fun _ => .fail }, archiveWorld, by decide +kernel, by decide +kernel, by decide +kernel,
    by decide +kernel⟩

/-- C116 fails in general, "downloaded": the server answers 404; its page is stored and "downloaded, unpacking" is logged. -/
theorem not_C116_downloaded : ∃ (env : Env) (w : World), .downloaded ∈ updateLog ⟨true⟩ env false w ∧
    ∀ n status body c, env.get n = .answer status body c → status = 404 := by
  refine ⟨{ plainEnv with get := fun _ => .answer 404 (str "not found") true }, emptyWorld, by decide +kernel, ?_⟩
  intro n st body c h
  exact (GetAns.answer.inj h).1.symm

/-- C116 fails in general, "lemmata up to date": after a download that broke off, the next update logs "lemmata up to date"
though the archive is not what the server offers. -/
theorem not_C116_upToDate : ∃ (broken : Env) (w : World), (update ⟨true⟩ broken false w).1 = .err ∧
    .upToDate ∈ updateLog ⟨true⟩ plainEnv false (update ⟨true⟩ broken false w).2 ∧
    (update ⟨true⟩ plainEnv false (update ⟨true⟩ broken false w).2).1 = .ok () ∧
    (∀ n, plainEnv.get n = .answer 200 (str "abc") true) ∧
    ((update ⟨true⟩ plainEnv false (update ⟨true⟩ broken false w).2).2.fs.file .archive).map (·.data) = some (str "a") :=
  ⟨{ plainEnv with room := fun n => if n = 7 then some 1 else none }, emptyWorld, by decide +kernel, by decide +kernel,
    by decide +kernel, fun _ => rfl, by decide +kernel⟩

/-- C116 fails in general, the last message: if the archive cannot be examined, `Update` panics, and no message is a
warning or an error. -/
theorem not_C116_panic : ∃ (env : Env) (w : World), (update ⟨true⟩ env true w).1 = .panic ∧
    ∀ l ∈ updateLog ⟨true⟩ env true w, l.level = .debug ∨ l.level = .info :=
  ⟨{ plainEnv with statErr := fun _ => true }, archiveWorld, rfl, by decide +kernel⟩

/-- C116, `LoadIndex`: it logs that the index was loaded exactly if it returns one. If it returns an error, its last message
is an error message - except that nothing but the attempt is logged if the file cannot be opened. -/
theorem C116_load (env : Env) (w : World) :
    (.loaded ∈ loadLog env w ↔ ∃ ix, (loadIndex env w).1 = .ok ix) ∧
    ((loadIndex env w).1 = .err ↔ EndsInError (loadLog env w) ∨ loadLog env w = [.opening]) ∧
    (loadLog env w = [.opening] ↔ env.openErr w.n = true ∨ w.fs.file .compiled = none) := by
  have hno : ∀ bytes, Index.new.load bytes ≠ .panic ∧ Index.new.load bytes ≠ .diverge :=
    fun bytes => by rcases NoCrash_load Index.new bytes with ⟨x, h⟩ | ⟨e, h⟩ <;> rw [h] <;> simp
  unfold loadLog loadIndex openFile
  by_cases ho : env.openErr w.n = true
  · simp [ho]
  · rw [if_neg ho]
    cases hf : w.fs.file .compiled with
    | none => simp
    | some d =>
      simp only
      cases hl : Index.new.load (accepted (env.readable w.n) d.data) with
      | ok p => simp [EndsInError, LogLine.level, ho]
      | err e => simp [EndsInError, LogLine.level, ho]
      | panic => exact absurd hl (hno _).1
      | diverge => exact absurd hl (hno _).2

/-- Both cases occur. -/
example : loadLog plainEnv emptyWorld = [.opening] ∧
    .loaded ∈ loadLog plainEnv (update ⟨true⟩ plainEnv false emptyWorld).2 := by
  constructor <;> decide +kernel

end Verif
