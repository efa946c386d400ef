import Verif.Lemmas.WholeLog
import Verif.Props.ImportText
import Verif.Props.UpdateLog

/-!
# C124 — the log of a whole update is a record of what was compiled

`updateWhole cfg env force w` is what the loader, the parser and `Optimize` log during `Update`, in order
(`Model/WholeLog.lean`); `parserPart` and the like pick the lines of one logger.
-/

namespace Verif

theorem loaderPart_append (a b : List WholeLine) : loaderPart (a ++ b) = loaderPart a ++ loaderPart b :=
  List.filterMap_append

theorem parserPart_append (a b : List WholeLine) : parserPart (a ++ b) = parserPart a ++ parserPart b :=
  List.filterMap_append

theorem optimizePart_append (a b : List WholeLine) : optimizePart (a ++ b) = optimizePart a ++ optimizePart b :=
  List.filterMap_append

theorem parts_loader (l : List LogLine) : loaderPart (l.map .loader) = l ∧ parserPart (l.map .loader) = [] ∧
    optimizePart (l.map .loader) = [] := by
  refine ⟨?_, ?_, ?_⟩ <;> induction l with
  | nil => rfl
  | cons a l ih => first | exact congrArg (a :: ·) ih | exact ih

theorem parts_parser (l : List ParseLine) : loaderPart (l.map .parser) = [] ∧ parserPart (l.map .parser) = l ∧
    optimizePart (l.map .parser) = [] := by
  refine ⟨?_, ?_, ?_⟩ <;> induction l with
  | nil => rfl
  | cons a l ih => first | exact congrArg (a :: ·) ih | exact ih

theorem parts_optimize (l : List OptLine) : loaderPart (l.map .optimize) = [] ∧ parserPart (l.map .optimize) = [] ∧
    optimizePart (l.map .optimize) = l := by
  refine ⟨?_, ?_, ?_⟩ <;> induction l with
  | nil => rfl
  | cons a l ih => first | exact congrArg (a :: ·) ih | exact ih

/-- The parts of a log made of the blocks. -/
theorem parts_blocks (a b c : List LogLine) (p : List ParseLine) (o : List OptLine) :
    let log : List WholeLine := a.map .loader ++ p.map .parser ++ b.map .loader ++ o.map .optimize ++ c.map .loader
    loaderPart log = a ++ b ++ c ∧ parserPart log = p ∧ optimizePart log = o := by
  intro log
  show loaderPart (_ ++ _ ++ _ ++ _ ++ _) = _ ∧ parserPart (_ ++ _ ++ _ ++ _ ++ _) = _ ∧
    optimizePart (_ ++ _ ++ _ ++ _ ++ _) = _
  simp only [loaderPart_append, parserPart_append, optimizePart_append, parts_loader, parts_parser, parts_optimize,
    List.nil_append, List.append_nil, and_self]

/-- All about the log of an update. -/
theorem update_blocks (cfg : LoaderCfg) (env : Env) (force : Bool) (w : World) :
    (.startParse ∉ updateLog cfg env force w ∧ .optimizing ∉ updateLog cfg env force w ∧
      .saved ∉ updateLog cfg env force w ∧ updateWhole cfg env force w = (updateLog cfg env force w).map .loader) ∨
    ∃ a w1 p b o c, ImportLog env w1 p b o c ∧ .startParse ∉ a ∧ .optimizing ∉ a ∧
      (update cfg env force w).2.fs.file .xml = w1.fs.file .xml ∧
      updateLog cfg env force w = (a ++ [.startParse]) ++ b ++ c ∧
      updateWhole cfg env force w = (a ++ [.startParse]).map .loader ++ p.map .parser ++ b.map .loader ++
        o.map .optimize ++ c.map .loader := by
  rcases updateWhole_cases cfg env force w with h | ⟨a, w1, h1, h2, h3, h4, h5⟩
  · exact .inl h
  · obtain ⟨p, b, o, c, hi, e1, e2⟩ := compileWhole_blocks env w1
    refine .inr ⟨a, w1, p, b, o, c, hi, h1, h2, ?_, by rw [h3, e1]; simp, by rw [h4, e2]; simp⟩
    rw [h5]
    obtain ⟨l, -, hl⟩ := (parse_wrote env w1).2
    have := hl (parseUpdate env w1).2.fs (by simp) .xml (by simp)
    unfold stepCompile
    cases e : parseUpdate env w1 with
    | mk r w2 =>
      rw [e] at this
      rcases r with _ | _ | _ <;> exact this

/-- C124, the order: the loader's lines are those of C116 and C119; what the parser logs comes in one block after "start
parse", what `Optimize` logs in one block after "optimize index", and there is nothing of either kind elsewhere, or if these
messages are missing. The log ends with a message of the loader, which is an error message exactly if `Update` returns an
error. -/
theorem C124_order (cfg : LoaderCfg) (env : Env) (force : Bool) (w : World) :
    let log := updateWhole cfg env force w
    loaderPart log = updateLog cfg env force w ∧
    (∃ a b c, Blocks3 log a b c ∧ updateLog cfg env force w = a ++ b ++ c) ∧
    log.getLast? = (updateLog cfg env force w).getLast?.map .loader ∧
    ((update cfg env force w).1 ≠ .panic →
      ((update cfg env force w).1 = .err ↔ ∃ l, log.getLast? = some (.loader l) ∧ l.level = .error)) := by
  intro log
  have hlast : log.getLast? = (updateLog cfg env force w).getLast?.map .loader := by
    show (updateWhole cfg env force w).getLast? = _
    rcases update_blocks cfg env force w with ⟨_, _, _, h⟩ | ⟨a, w1, p, b, o, c, hi, _, _, _, e1, e2⟩
    · rw [h, List.getLast?_map]
    · have hc : c.map WholeLine.loader ≠ [] := by simp [hi.ended]
      rw [e1, e2, List.getLast?_append_of_ne_nil _ hc, List.getLast?_append_of_ne_nil _ hi.ended, List.getLast?_map]
  have hparts : loaderPart log = updateLog cfg env force w ∧
      ∃ a b c, Blocks3 log a b c ∧ updateLog cfg env force w = a ++ b ++ c := by
    rcases update_blocks cfg env force w with ⟨h1, h2, hnl, h⟩ | ⟨a, w1, p, b, o, c, hi, ha, ha', _, e1, e2⟩
    · have hl : log = _ := h
      obtain ⟨x1, x2, x3⟩ := parts_loader (updateLog cfg env force w)
      rw [← hl] at x1 x2 x3
      refine ⟨x1, updateLog cfg env force w, [], [], ⟨?_, ?_, ?_, by simp, by simpa using h2⟩, by simp⟩
      · rw [x2, x3, hl]; simp
      · rw [x2]; exact fun h => absurd rfl h
      · rw [x3]; exact fun h => absurd rfl h
    · have hl : log = _ := e2
      obtain ⟨x1, x2, x3⟩ := parts_blocks (a ++ [.startParse]) b c p o
      rw [← hl] at x1 x2 x3
      refine ⟨by rw [x1, e1], a ++ [.startParse], b, c, ⟨?_, ?_, ?_, hi.parse, ?_⟩, e1⟩
      · rw [x2, x3]; exact hl
      · intro _; simp
      · rw [x3]; exact hi.optimizing
      · simp [ha', hi.once]
  refine ⟨hparts.1, hparts.2, hlast, fun hp => ?_⟩
  rw [((C116_partial cfg env force w).1 hp).failed]
  unfold EndsInError
  rw [hlast]
  constructor
  · rintro ⟨l, h1, h2⟩
    exact ⟨l, by rw [h1]; rfl, h2⟩
  · rintro ⟨l, h1, h2⟩
    cases hx : (updateLog cfg env force w).getLast? with
    | none => rw [hx] at h1; cases h1
    | some m =>
      rw [hx] at h1
      cases h1
      exact ⟨l, rfl, h2⟩

/-- C124, what is in the blocks. The parser logs nothing unless "start parse" is logged; then what it logs is its log (C122) of
the dictionary on the disk, as far as it could be read, and it logs nothing only if there is no dictionary or it cannot be
opened, or if this is its log. If "optimize index" is logged, all of the dictionary was read and imported, and what `Optimize`
logs is its log (C121) of the index imported; this is so if "compiled index saved" is the last message. -/
theorem C124_content (cfg : LoaderCfg) (env : Env) (force : Bool) (w : World) :
    let log := updateWhole cfg env force w
    let w' := (update cfg env force w).2
    (.loader .startParse ∉ log → parserPart log = []) ∧
    (.loader .startParse ∈ log →
      (parserPart log = [] ∧ (w'.fs.file .xml = none ∨ ∃ n, env.openErr n = true)) ∨
      ∃ d n, w'.fs.file .xml = some d ∧ parserPart log =
        PState.runLog env.floatOK (PState.init Index.new 0) (env.tokens (accepted (env.readable n) d.data)).1) ∧
    (.loader .optimizing ∉ log → optimizePart log = []) ∧
    (.loader .optimizing ∈ log → ∃ d s, w'.fs.file .xml = some d ∧ (env.tokens d.data).2 = true ∧
      (PState.init Index.new 0).run env.floatOK (env.tokens d.data).1 = (s, none) ∧
      parserPart log = PState.runLog env.floatOK (PState.init Index.new 0) (env.tokens d.data).1 ∧
      optimizePart log = s.ix.optimizeTold.1) ∧
    (log.getLast? = some (.loader .saved) → .loader .optimizing ∈ log) := by
  intro log w'
  rcases update_blocks cfg env force w with ⟨h1, h2, hnl, h⟩ | ⟨a, w1, p, b, o, c, hi, ha, ha', hx, e1, e2⟩
  · have hl : log = _ := h
    obtain ⟨x1, x2, x3⟩ := parts_loader (updateLog cfg env force w)
    rw [← hl] at x1 x2 x3
    refine ⟨fun _ => x2, fun hs => absurd ?_ h1, fun _ => x3, fun hs => absurd ?_ h2, fun hs => absurd ?_ hnl⟩
    · rw [hl] at hs; simpa using hs
    · rw [hl] at hs; simpa using hs
    · rw [hl] at hs; simpa using List.mem_of_getLast? hs
  · have hl : log = _ := e2
    obtain ⟨x1, x2, x3⟩ := parts_blocks (a ++ [.startParse]) b c p o
    rw [← hl] at x1 x2 x3
    have hxml : w'.fs.file .xml = w1.fs.file .xml := hx
    have hopt : .loader .optimizing ∈ log ↔ .optimizing ∈ b := by
      rw [hl]
      simp [ha', hi.once]
    rw [x2, x3, hxml, hopt]
    refine ⟨fun hs => absurd (by rw [hl]; simp) hs, fun _ => ?_, fun hs => ?_, hi.done, fun hs => hi.saved ?_⟩
    · rcases hi.read with ⟨r1, r2⟩ | ⟨d, r1, r2⟩
      · exact .inl ⟨r1, r2.imp_right fun r => ⟨_, r⟩⟩
      · exact .inr ⟨d, _, r1, r2⟩
    · cases o with
      | nil => rfl
      | cons x o => exact absurd (List.mem_of_getLast? (hi.optimizing (by simp))) hs
    · have hc : c.map WholeLine.loader ≠ [] := by simp [hi.ended]
      rw [hl, List.getLast?_append_of_ne_nil _ hc, List.getLast?_map] at hs
      cases hg : c.getLast? with
      | none => rw [hg] at hs; cases hs
      | some m =>
        rw [hg] at hs
        cases hs
        exact List.mem_append_right _ (List.mem_of_getLast? hg)

/-- C124, the record: if `Update` succeeds, the last message is "compiled index saved", and no write error went unnoticed, and
if the dictionary on the disk is then a document of the format within capacity, the log shows all its forms with their tags,
in order; the compiled index loads and answers as the document says; and what `Optimize` logged is true of the index that was
imported (C121). -/
theorem C124_record (cfg : LoaderCfg) (env : Env) (force : Bool) (w : World) (hlate : ∀ n, env.late n = false)
    (hr : (update cfg env force w).1 = .ok ()) (hl : (updateWhole cfg env force w).getLast? = some (.loader .saved)) :
    let log := updateWhole cfg env force w
    let w' := (update cfg env force w).2
    ∃ d, w'.fs.file .xml = some d ∧ ∀ doc, env.tokens d.data = (Xml.tokensAll doc, true) →
      Xml.ValidAll env.floatOK [] doc → Declared (entriesOf doc) → DocRoom (entriesOf doc) →
      parserPart log = PState.runLog env.floatOK (PState.init Index.new 0) (Xml.tokensAll doc) ∧
      (wordsIn (parserPart log)).map (·.2) = allForms (entriesOf doc) ∧
      (∃ ix, LoadsTo w'.fs ix ∧ ServesExactly doc ix) ∧
      ∃ ix, Run (callsOf (entriesOf doc)) ix ∧
        ∀ P R S, Inventory (dictOf (callsOf (entriesOf doc))) P R S → ∃ extra,
          TellsOf ix ix.optimize.1 (fun id => (dictOf (callsOf (entriesOf doc))).attached id.toNat ≠ []) R S extra
            (optimizePart log) := by
  intro log w'
  obtain ⟨d, s, hd, -, hs, hp, ho⟩ := (C124_content cfg env force w).2.2.2.1
    ((C124_content cfg env force w).2.2.2.2 hl)
  refine ⟨d, hd, fun doc htok hv hdec m => ?_⟩
  have ht := (C116_partial cfg env force w).1 (by rw [hr]; simp)
  have hl' : (updateLog cfg env force w).getLast? = some .saved := by
    rw [(C124_order cfg env force w).2.2.1] at hl
    cases hg : (updateLog cfg env force w).getLast? with
    | none => rw [hg] at hl; cases hl
    | some l => rw [hg] at hl; cases hl; rfl
  obtain ⟨-, -, -, ix, hload, hserves⟩ := C44_exact env.floatOK doc hv hdec m
  have r1 := room_runs _ (room_of_doc hdec m)
  have he : execEntries Index.new (entriesOf doc) = (execAll (callsOf (entriesOf doc)), none) :=
    entries_ok (entriesOf doc) Run.nil (by simp [NoReload]) Holds.empty [] (by simp) hdec.steps r1
  have hrun : _ = execEntries Index.new (entriesOf doc) := C40 env.floatOK doc hv Index.new 0 (by decide)
  rw [htok] at hs hp
  rw [hs, he] at hrun
  rw [hs] at hload
  have hsix : s.ix = execAll (callsOf (entriesOf doc)) := (Prod.mk.inj hrun).1
  rw [← hsix] at r1
  refine ⟨hp, ?_, ⟨ix, ?_, hserves⟩, s.ix, r1, ?_⟩
  · show (wordsIn (parserPart (updateWhole cfg env force w))).map (·.2) = _
    rw [hp, words_doc hv]
    have := (entryLines_forms (wanted 0 (entriesOf doc)) Index.new).1 (by unfold wanted; rw [if_neg (by decide), he])
    rw [this]
    unfold wanted
    rw [if_neg (by decide)]
  · obtain ⟨d', s', n, t, a1, a2, a3, a4, a5⟩ := ht.saved hl'
    rw [hd] at a1
    obtain rfl := Option.some.inj a1
    rw [htok, hs] at a2
    obtain rfl := (Prod.mk.inj a2).1
    rw [a5 (hlate n)] at a4
    refine (load_full a4 hload ?_).2
    intro q hq hne
    obtain ⟨r, hr⟩ := hq
    simp only at hload
    rw [← hr] at hload
    refine (Framed_load Index.new).strict_prefix (NoCrash_load Index.new) hload ?_
    rintro rfl
    rw [List.append_nil] at hr
    exact hne hr
  · intro P R S inv
    obtain ⟨-, -, extra, -, h⟩ := C121 r1 inv
    refine ⟨extra, ?_⟩
    show TellsOf _ _ _ _ _ _ (optimizePart (updateWhole cfg env force w))
    rw [ho]
    exact h

/-- C124: two updates on any disks, forced or not, that succeed and log "compiled index saved" in the end, of dictionaries
that are documents of the format within capacity, while no write error goes unnoticed: if the parser logged the same, byte for
byte, the two compiled indexes answer every lookup alike. -/
theorem C124 (cfg cfg' : LoaderCfg) (env env' : Env) (force force' : Bool) (w v : World)
    (hfo : env'.floatOK = env.floatOK) (hlate : ∀ n, env.late n = false) (hlate' : ∀ n, env'.late n = false)
    (hr : (update cfg env force w).1 = .ok ()) (hr' : (update cfg' env' force' v).1 = .ok ())
    (hl : (updateWhole cfg env force w).getLast? = some (.loader .saved))
    (hl' : (updateWhole cfg' env' force' v).getLast? = some (.loader .saved))
    (d d' : FileData) (hd : (update cfg env force w).2.fs.file .xml = some d)
    (hd' : (update cfg' env' force' v).2.fs.file .xml = some d')
    (a b : List Xml) (ha : env.tokens d.data = (Xml.tokensAll a, true)) (hb : env'.tokens d'.data = (Xml.tokensAll b, true))
    (va : Xml.ValidAll env.floatOK [] a) (vb : Xml.ValidAll env.floatOK [] b)
    (da : Declared (entriesOf a)) (db : Declared (entriesOf b)) (ma : DocRoom (entriesOf a)) (mb : DocRoom (entriesOf b))
    (h : (parserPart (updateWhole cfg env force w)).map ParseLine.bytes =
      (parserPart (updateWhole cfg' env' force' v)).map ParseLine.bytes) :
    allForms (entriesOf a) = allForms (entriesOf b) ∧
    ∃ ix ix', LoadsTo (update cfg env force w).2.fs ix ∧ LoadsTo (update cfg' env' force' v).2.fs ix' ∧
      ∀ x, (∃ e e', (ix.fetchString x).2 = .err e ∧ (ix'.fetchString x).2 = .err e') ∨
        ∃ i j, (ix.fetchString x).2 = .ok i ∧ (ix'.fetchString x).2 = .ok j ∧
          ((ix.tagSetsOf i = .panic ∧ ix'.tagSetsOf j = .panic) ∨
            ∃ L M, ix.tagSetsOf i = .ok L ∧ ix'.tagSetsOf j = .ok M ∧ SameReadings L M) := by
  obtain ⟨c, hc, hx⟩ := C124_record cfg env force w hlate hr hl
  obtain ⟨c', hc', hy⟩ := C124_record cfg' env' force' v hlate' hr' hl'
  rw [hd] at hc
  rw [hd'] at hc'
  obtain rfl := Option.some.inj hc
  obtain rfl := Option.some.inj hc'
  obtain ⟨x1, -, ⟨ix, x3, x4⟩, -⟩ := hx a ha va da ma
  obtain ⟨y1, -, ⟨ix', y3, y4⟩, -⟩ := hy b hb (by rw [hfo]; exact vb) db mb
  rw [x1, y1, hfo] at h
  have hforms : allForms (entriesOf a) = allForms (entriesOf b) := C123_forms env.floatOK a b va vb da db ma mb 0 0 h
  exact ⟨hforms, ix, ix', x3, y3, serve_alike hforms x4 y4⟩

/-! ## Examples -/

/-- A server that delivers the document, a disk without failures. -/
def docEnv (doc : List Xml) : Env :=
  quietEnv (str "bz") 10 (fun n => 100 + n) (fun _ => (str "xml", true)) (fun _ => (Xml.tokensAll doc, true))

/-- The log of a first update with `twiceDoc`, from "start parse" on. -/
example : (updateWhole ⟨true⟩ (docEnv twiceDoc) true emptyWorld).drop 16 =
    [.loader .startParse,
      .parser (.word ⟨2, 3, 116, 0x10000⟩ (str "cat") [str "NOUN"]),
      .parser (.word ⟨2, 3, 116, 0x20000⟩ (str "cat") [str "VERB"]),
      .parser (.word ⟨1, 2, 97, 0x10001⟩ (str "ca") [str "VERB", str "NOUN"]),
      .parser (.closed (str ".dictionary")),
      .loader .saveStart, .loader (.indexed 2 3), .loader .optimizing,
      .optimize (.check 3), .optimize .lookup, .optimize (.eliminate 1), .optimize (.pair 0x10001 0x10000),
      .optimize (.pair 0x20000 0x20000), .optimize (.toReplace 2),
      .optimize (.item 2 0x10001 [0x10000] 0x10000 [0x10000]), .optimize (.item 3 0x20000 [0, 1] 0x20000 [0, 1]),
      .optimize (.updated 2), .optimize (.reduced 3 2), .optimize (.tagSets 3),
      .loader .saving, .loader .finishing, .loader .saved] := by
  decide +kernel

/-- The same, but the dictionary can be read only in part. -/
def partEnv : Env :=
  { docEnv twiceDoc with
    readable := fun _ => some 2
    tokens := fun q => if q = str "xm" then ((Xml.tokensAll twiceDoc).take 24, false) else (Xml.tokensAll twiceDoc, true) }

/-- What was imported until then is in the log. -/
example : (updateWhole ⟨true⟩ partEnv true emptyWorld).drop 16 =
    [.loader .startParse,
      .parser (.word ⟨2, 3, 116, 0x10000⟩ (str "cat") [str "NOUN"]),
      .loader .compileFailed] := by
  decide +kernel

theorem twice_dictionary : (update ⟨true⟩ (docEnv twiceDoc) true emptyWorld).1 = .ok () ∧
    (update ⟨true⟩ (docEnv twiceDoc) true emptyWorld).2.fs.file .xml = some ⟨str "xml", 111⟩ := by
  constructor <;> decide +kernel

/-- The hypotheses of C124 are met, by updates with two documents that are written differently. -/
example : ∃ ix ix', LoadsTo (update ⟨true⟩ (docEnv twiceDoc) true emptyWorld).2.fs ix ∧
    LoadsTo (update ⟨true⟩ (docEnv twiceDoc') false emptyWorld).2.fs ix' ∧
    ∀ x, (∃ e e', (ix.fetchString x).2 = .err e ∧ (ix'.fetchString x).2 = .err e') ∨
      ∃ i j, (ix.fetchString x).2 = .ok i ∧ (ix'.fetchString x).2 = .ok j ∧
        ((ix.tagSetsOf i = .panic ∧ ix'.tagSetsOf j = .panic) ∨
          ∃ L M, ix.tagSetsOf i = .ok L ∧ ix'.tagSetsOf j = .ok M ∧ SameReadings L M) := by
  refine (C124 ⟨true⟩ ⟨true⟩ (docEnv twiceDoc) (docEnv twiceDoc') true false emptyWorld emptyWorld rfl (fun _ => rfl)
    (fun _ => rfl) twice_dictionary.1 (by decide +kernel) (by decide +kernel) (by decide +kernel) ⟨str "xml", 111⟩
    ⟨str "xml", 111⟩ twice_dictionary.2 (by decide +kernel) twiceDoc twiceDoc' rfl rfl twiceDoc_valid (by decide)
    twiceDoc_declared (declared_of_check _ (by decide)) twiceDoc_room twiceDoc'_room (by decide +kernel)).2

/-- A document with one form and the declared tag NOUN, and further grammemes. -/
def nounDoc (more : List Xml) : List Xml :=
  [.elem (str "dictionary") [] [
    .elem (str "grammemes") [] (
      .elem (str "grammeme") [⟨str "parent", []⟩] [.elem (str "name") [] [.text (str "NOUN")]] :: more),
    .elem (str "lemmata") [] [
      .elem (str "lemma") [⟨str "id", str "1"⟩, ⟨str "rev", str "1"⟩] [
        .elem (str "f") [⟨str "t", str "cat"⟩] [.elem (str "g") [⟨str "v", str "NOUN"⟩] []]]]]]

/-- The grammeme VERB. -/
def verbItem : Xml := .elem (str "grammeme") [⟨str "parent", []⟩] [.elem (str "name") [] [.text (str "VERB")]]

/-- The grammemes of the dictionary are not in the log: two updates with one log, by all loggers, that leave indexes with
different tags. -/
theorem not_C124_tags : ∃ (env env' : Env),
    updateWhole ⟨true⟩ env true emptyWorld = updateWhole ⟨true⟩ env' true emptyWorld ∧
    (update ⟨true⟩ env true emptyWorld).1 = .ok () ∧ (update ⟨true⟩ env' true emptyWorld).1 = .ok () ∧
    ∃ ix ix', LoadsTo (update ⟨true⟩ env true emptyWorld).2.fs ix ∧ LoadsTo (update ⟨true⟩ env' true emptyWorld).2.fs ix' ∧
      ix.tags.length = 1 ∧ ix'.tags.length = 2 := by
  have h1 : (update ⟨true⟩ (docEnv (nounDoc [])) true emptyWorld).1 = .ok () := by decide +kernel
  have h2 : (update ⟨true⟩ (docEnv (nounDoc [verbItem])) true emptyWorld).1 = .ok () := by decide +kernel
  refine ⟨docEnv (nounDoc []), docEnv (nounDoc [verbItem]), by decide +kernel, h1, h2, ?_⟩
  obtain ⟨d, -, hd⟩ := C124_record ⟨true⟩ (docEnv (nounDoc [])) true emptyWorld (fun _ => rfl) h1 (by decide +kernel)
  obtain ⟨d', -, hd'⟩ := C124_record ⟨true⟩ (docEnv (nounDoc [verbItem])) true emptyWorld (fun _ => rfl) h2 (by decide +kernel)
  obtain ⟨-, -, ⟨ix, l1, s1⟩, -⟩ := hd (nounDoc []) rfl (by decide) (declared_of_check _ (by decide)) (by
    apply DocSmall.room
    have e : entriesOf (nounDoc []) = [.grammeme (str "NOUN") [], .lem [(str "cat", [str "NOUN"])]] := by decide
    rw [e]
    constructor <;> decide)
  obtain ⟨-, -, ⟨ix', l2, s2⟩, -⟩ := hd' (nounDoc [verbItem]) rfl (by decide) (declared_of_check _ (by decide)) (by
    apply DocSmall.room
    have e : entriesOf (nounDoc [verbItem]) =
      [.grammeme (str "NOUN") [], .grammeme (str "VERB") [], .lem [(str "cat", [str "NOUN"])]] := by decide
    rw [e]
    constructor <;> decide)
  refine ⟨ix, ix', l1, l2, ?_, ?_⟩
  · rw [s1.1]; decide
  · rw [s2.1]; decide

end Verif
