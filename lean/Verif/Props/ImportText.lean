import Verif.Spec.ImportText
import Verif.Lemmas.ImportTextNodes
import Verif.Props.ParserLog
import Verif.Props.OptimizeTold
import Verif.Props.Exact
import Verif.Props.Order
import Verif.Props.Tagging

/-!
# C123 — the bytes of the log of an import tell which dictionary was imported

`PState.runLog` and `Index.optimizeTold` are the messages of the parser and of `Optimize`; `bytes` gives the level and the
text of a message (`Model/ImportText.lean`).
-/

namespace Verif

open PState

/-- C123: messages of `Optimize` with the same bytes say the same, whatever the numbers and lists in them. -/
theorem C123_optimize (l m : List OptLine) : l.map OptLine.bytes = m.map OptLine.bytes ↔ l = m := by
  refine ⟨fun h => ?_, fun h => h ▸ rfl⟩
  refine List.map_injective_iff.2 (fun x y e => ?_) h
  exact OptLine.text_inj (Prod.mk.inj e).2

/-- What two reports about forms with the same text have in common. -/
theorem word_text {it it' : Item} {w w' : Str} {t t' : List Str}
    (h : (ParseLine.word it w t).text = (ParseLine.word it' w' t').text) :
    it.id = it'.id ∧ it.parent = it'.parent ∧ it.variants = it'.variants ∧
    w ++ (str " [" ++ joinComma t) = w' ++ (str " [" ++ joinComma t') := by
  obtain ⟨e1, h1⟩ := space_split (zeroPad_noSpace _ _) (zeroPad_noSpace _ _)
    (List.append_cancel_left (as := str "IDX+ I") h)
  obtain ⟨e2, h2⟩ := space_split (zeroPad_noSpace _ _) (zeroPad_noSpace _ _)
    (List.append_cancel_left (as := str "P") h1)
  obtain ⟨e3, h3⟩ := space_split (hex8_noSpace _) (hex8_noSpace _) h2
  have h3 : w ++ (str " [" ++ (joinComma t ++ str "] ")) = w' ++ (str " [" ++ (joinComma t' ++ str "] ")) := h3
  exact ⟨UInt32.toNat_inj.1 (zeroPad_inj e1), UInt32.toNat_inj.1 (zeroPad_inj e2), hex8_inj e3,
    List.append_cancel_right (bs := str "] ") (by simpa only [List.append_assoc] using h3)⟩

/-- C123: messages of the parser with the same bytes show the same: the ID and the parent of the node, the number of its
readings, the spelling of the form and its tags. The form may have any spelling; the names of
tags have four bytes, and none ends in " [". -/
theorem C123_line (l m : ParseLine) (hl : ∀ t ∈ l.tags, PlainTag t) (hm : ∀ t ∈ m.tags, PlainTag t) :
    l.bytes = m.bytes ↔ l.visible = m.visible := by
  constructor
  · intro h
    have h : l.text = m.text := (Prod.mk.inj h).2
    have hne : ∀ (p : Str) it w t, str "= " ++ p ≠ (ParseLine.word it w t).text ∧
        str "< " ++ p ≠ (ParseLine.word it w t).text := by
      intro p it w t
      exact ⟨fun e => absurd (congrArg (List.take 2) e) (of_decide_eq_false rfl),
        fun e => absurd (congrArg (List.take 2) e) (of_decide_eq_false rfl)⟩
    have hdc : ∀ p q : Str, str "= " ++ p ≠ str "< " ++ q :=
      fun p q e => absurd (congrArg (List.take 2) e) (of_decide_eq_false rfl)
    cases l with
    | data p => cases m with
      | data q => obtain rfl := List.append_cancel_left (as := str "= ") h; rfl
      | closed q => exact absurd h (hdc p q)
      | word it w t => exact absurd h (hne p it w t).1
    | closed p => cases m with
      | data q => exact absurd h.symm (hdc q p)
      | closed q => obtain rfl := List.append_cancel_left (as := str "< ") h; rfl
      | word it w t => exact absurd h (hne p it w t).2
    | word it w t => cases m with
      | data q => exact absurd h.symm (hne q it w t).1
      | closed q => exact absurd h.symm (hne q it w t).2
      | word it' w' t' =>
        obtain ⟨i1, i2, i3, h4⟩ := word_text h
        obtain ⟨e5, e6⟩ := form_split (t := t) (t' := t') (fun x hx => (hl x hx).1) (fun x hx => (hm x hx).1)
          (fun x hx => (hl x hx).2) (fun x hx => (hm x hx).2) h4
        obtain ⟨a1, a2, a3, a4⟩ := it
        obtain ⟨b1, b2, b3, b4⟩ := it'
        simp only at i1 i2 i3
        subst i1 i2 i3 e5 e6
        rfl
  · intro h
    have : ∀ l : ParseLine, l.bytes = l.visible.bytes := by
      intro l; cases l <;> rfl
    rw [this l, this m, h]

theorem wordsIn_visible (ls : List ParseLine) :
    (wordsIn (ls.map ParseLine.visible)).map (·.2) = (wordsIn ls).map (·.2) := by
  induction ls with
  | nil => rfl
  | cons l ls ih => cases l <;> simp [ParseLine.visible, wordsIn, ih]

theorem tags_wordsIn {ls : List ParseLine} {l : ParseLine} (hl : l ∈ ls) {t : Str} (ht : t ∈ l.tags) :
    ∃ x ∈ wordsIn ls, t ∈ x.2.2 := by
  induction ls with
  | nil => cases hl
  | cons m ls ih =>
    rcases List.mem_cons.1 hl with rfl | hl
    · cases l with
      | word it w tags => exact ⟨_, List.mem_cons_self, ht⟩
      | data p => cases ht
      | closed p => cases ht
    · obtain ⟨x, hx, hxt⟩ := ih hl
      cases m with
      | word it w tags => exact ⟨x, List.mem_cons_of_mem _ hx, hxt⟩
      | data p => exact ⟨x, hx, hxt⟩
      | closed p => exact ⟨x, hx, hxt⟩

theorem allForms_split {es : List Entry} {f : Str × List Str} (h : f ∈ allForms es) :
    ∃ es1 fs es2, es = es1 ++ .lem fs :: es2 ∧ f ∈ fs := by
  induction es with
  | nil => cases h
  | cons x es ih =>
    cases x with
    | grammeme n p =>
      obtain ⟨es1, fs, es2, rfl, hf⟩ := ih h
      exact ⟨.grammeme n p :: es1, fs, es2, rfl, hf⟩
    | lem fs =>
      rcases List.mem_append.1 h with h | h
      · exact ⟨[], fs, es, rfl, h⟩
      · obtain ⟨es1, fs', es2, rfl, hf⟩ := ih h
        exact ⟨.lem fs :: es1, fs', es2, rfl, hf⟩

/-- The forms in the log are forms of the document. -/
theorem told_sub {fo : Str → Bool} {doc : List Xml} (hv : Xml.ValidAll fo [] doc) (ix : Index) (max : Int)
    {x : Item × Str × List Str} (hx : x ∈ wordsIn (PState.runLog fo (PState.init ix max) (Xml.tokensAll doc))) :
    x.2 ∈ allForms (entriesOf doc) := by
  have sub : ∀ f ∈ allForms (wanted max (entriesOf doc)), f ∈ allForms (entriesOf doc) := by
    obtain ⟨t, ht⟩ := wanted_prefix max (entriesOf doc)
    intro f hf
    rw [← ht, allForms_append]
    exact List.mem_append_left _ hf
  apply sub
  rw [words_doc hv] at hx
  obtain ⟨a, b⟩ := entryLines_forms (wanted max (entriesOf doc)) ix
  have hm : x.2 ∈ (entryLines ix (wanted max (entriesOf doc))).map (·.2) := List.mem_map.2 ⟨x, hx, rfl⟩
  cases hq : (execEntries ix (wanted max (entriesOf doc))).2 with
  | none => rw [a hq] at hm; exact hm
  | some e =>
    obtain ⟨f, es1, fs1, fs2, es2, h1, _, _, h4⟩ := b e hq
    rw [← h4] at hm
    have hfl : ∀ es : List Entry, (es.flatMap fun
        | .lem fs => fs
        | .grammeme _ _ => []) = allForms es := by
      intro es
      induction es with
      | nil => rfl
      | cons x es ih => cases x <;> rw [List.flatMap_cons, ih] <;> rfl
    have hm : x.2 ∈ allForms es1 ++ fs1 := by
      rw [← hfl es1]
      exact hm
    rw [h1, allForms_append]
    rcases List.mem_append.1 hm with h | h
    · exact List.mem_append_left _ h
    · exact List.mem_append_right _ (List.mem_append_left _ (List.mem_append_left _ h))

/-- C123: from the bytes of the parser's log the forms that were imported can be told. Two imports, of any documents of the
format into any indexes with any limits, whose logs have the same bytes: they show the same, and the same forms with the
same tags were imported in the same order. -/
theorem C123_any (fo : Str → Bool) (a b : List Xml) (va : Xml.ValidAll fo [] a) (vb : Xml.ValidAll fo [] b)
    (pa : PlainForms (allForms (entriesOf a))) (pb : PlainForms (allForms (entriesOf b))) (ix ix' : Index)
    (max max' : Int) :
    let log := PState.runLog fo (PState.init ix max) (Xml.tokensAll a)
    let log' := PState.runLog fo (PState.init ix' max') (Xml.tokensAll b)
    log.map ParseLine.bytes = log'.map ParseLine.bytes →
      log.map ParseLine.visible = log'.map ParseLine.visible ∧
      (wordsIn log).map (·.2) = (wordsIn log').map (·.2) := by
  intro log log' h
  have hv : log.map ParseLine.visible = log'.map ParseLine.visible := by
    have h1 : ∀ l ∈ log, ∀ t ∈ l.tags, PlainTag t := by
      intro l hl t ht
      obtain ⟨x, hx, hxt⟩ := tags_wordsIn hl ht
      exact pa _ (told_sub va ix max hx) t hxt
    have h2 : ∀ l ∈ log', ∀ t ∈ l.tags, PlainTag t := by
      intro l hl t ht
      obtain ⟨x, hx, hxt⟩ := tags_wordsIn hl ht
      exact pb _ (told_sub vb ix' max' hx) t hxt
    clear_value log log'
    induction log generalizing log' with
    | nil =>
      cases log' with
      | nil => rfl
      | cons m ms => cases h
    | cons l ls ih =>
      cases log' with
      | nil => cases h
      | cons m ms =>
        obtain ⟨e1, e2⟩ := List.cons.inj h
        rw [List.map_cons, List.map_cons, (C123_line l m (h1 l List.mem_cons_self) (h2 m List.mem_cons_self)).1 e1,
          ih ms e2 (fun x hx => h1 x (List.mem_cons_of_mem _ hx)) (fun x hx => h2 x (List.mem_cons_of_mem _ hx))]
  exact ⟨hv, by rw [← wordsIn_visible log, ← wordsIn_visible log', hv]⟩

/-- The reports about forms can be told from the other messages by their first bytes. -/
theorem word_texts (ls : List ParseLine) :
    (wordsIn ls).map (fun x => (ParseLine.word x.1 x.2.1 x.2.2).text) =
      (ls.map ParseLine.text).filter fun s => s.take 2 = str "ID" := by
  induction ls with
  | nil => rfl
  | cons l ls ih =>
    cases l with
    | word it w t =>
      rw [List.map_cons, List.filter_cons_of_pos (by exact decide_eq_true rfl), ← ih]
      rfl
    | data p =>
      rw [List.map_cons, List.filter_cons_of_neg (by simpa using of_decide_eq_false rfl), ← ih]
      rfl
    | closed p =>
      rw [List.map_cons, List.filter_cons_of_neg (by simpa using of_decide_eq_false rfl), ← ih]
      rfl

/-- The ID in a report is the number of its word among the nodes made by the words reported so far. -/
theorem word_number (fo : Str → Bool) (doc : List Xml) (hv : Xml.ValidAll fo [] doc) (max : Int)
    (hd : Declared (entriesOf doc)) (m : DocRoom (entriesOf doc)) (a b : List (Item × Str × List Str)) (it : Item)
    (w : Str) (tags : List Str)
    (hw : wordsIn (PState.runLog fo (PState.init Index.new max) (Xml.tokensAll doc)) = a ++ (it, w, tags) :: b) :
    (nodesAfter (nodesAfter [[]] (a.map fun x => decodeRunes x.2.1)) [decodeRunes w])[it.id.toNat]? =
      some (decodeRunes w) := by
  have hit := (C122_items fo doc hv max hd m a b it w tags hw).1
  obtain ⟨o1, o2, o3⟩ := outcome_wanted hv Index.new max
  obtain ⟨l1, l2⟩ := limited_run hd m (wanted_prefix max (entriesOf doc))
  have hix : (PState.run fo (PState.init Index.new max) (Xml.tokensAll doc)).1.ix =
      execAll (callsOf (wanted max (entriesOf doc))) := by
    rw [o1, l1]
  rw [hix] at hit
  unfold Index.fetchString at hit
  rw [l2.trie.fetchRoot_iff, Run.root_join (.inl (callsOf_plain _))] at hit
  have hnodes : (dictOf (callsOf (wanted max (entriesOf doc)))).nodes =
      nodesAfter [[]] ((allForms (wanted max (entriesOf doc))).map fun f => decodeRunes f.1) := by
    have := steps_nodes (stepsOf (wanted max (entriesOf doc))) Dict.empty rfl rfl
    rw [stepForms_stepsOf, ← importCalls_steps] at this
    exact this
  have hq : (execEntries Index.new (wanted max (entriesOf doc))).2 = none := by rw [l1]
  have htold := (C122 fo doc hv Index.new max).1 (o3 hq)
  have hall : (allForms (wanted max (entriesOf doc))).map (fun f => decodeRunes f.1) =
      ((a.map fun x => decodeRunes x.2.1) ++ [decodeRunes w]) ++ b.map fun x => decodeRunes x.2.1 := by
    rw [← htold, hw]
    simp [Function.comp_def]
  rw [hnodes, hall] at hit
  obtain ⟨hne, hk⟩ := hit
  rw [← nodesAfter_append]
  refine index_before (M := nodesAfter [[]] (((a.map fun x => decodeRunes x.2.1) ++ [decodeRunes w]) ++
    b.map fun x => decodeRunes x.2.1)) ?_ (nodesAfter_nodup (by simp) _) (mem_nodesAfter hne) hk
  rw [nodesAfter_append _ (_ ++ _)]
  exact nodesAfter_prefix _ _

/-- C123: from the bytes of the log of an import into a new index the forms that were imported can be told: two imports
whose logs have the same bytes, of any documents with declared tags within capacity and with any limits, imported the same
forms with the same tags in the same order. -/
theorem C123_forms (fo : Str → Bool) (a b : List Xml) (va : Xml.ValidAll fo [] a) (vb : Xml.ValidAll fo [] b)
    (da : Declared (entriesOf a)) (db : Declared (entriesOf b)) (ma : DocRoom (entriesOf a)) (mb : DocRoom (entriesOf b))
    (max max' : Int)
    (h : (PState.runLog fo (PState.init Index.new max) (Xml.tokensAll a)).map ParseLine.bytes =
      (PState.runLog fo (PState.init Index.new max') (Xml.tokensAll b)).map ParseLine.bytes) :
    allForms (wanted max (entriesOf a)) = allForms (wanted max' (entriesOf b)) := by
  have told : ∀ (doc : List Xml) (mx : Int), Xml.ValidAll fo [] doc → Declared (entriesOf doc) → DocRoom (entriesOf doc) →
      (wordsIn (PState.runLog fo (PState.init Index.new mx) (Xml.tokensAll doc))).map (·.2) =
        allForms (wanted mx (entriesOf doc)) := by
    intro doc mx hv hd m
    obtain ⟨o1, o2, o3⟩ := outcome_wanted hv Index.new mx
    obtain ⟨l1, l2⟩ := limited_run hd m (wanted_prefix mx (entriesOf doc))
    have hq : (execEntries Index.new (wanted mx (entriesOf doc))).2 = none := by rw [l1]
    exact (C122 fo doc hv Index.new mx).1 (o3 hq)
  have four : ∀ (doc : List Xml) (mx : Int), Xml.ValidAll fo [] doc → Declared (entriesOf doc) → DocRoom (entriesOf doc) →
      ∀ x ∈ wordsIn (PState.runLog fo (PState.init Index.new mx) (Xml.tokensAll doc)), ∀ t ∈ x.2.2, t.length = 4 := by
    intro doc mx hv hd m x hx t ht
    have hf := told_sub hv Index.new mx hx
    obtain ⟨es1, fs, es2, he, hfs⟩ := allForms_split hf
    obtain ⟨p, hp⟩ := (hd es1 fs es2 he _ hfs).2 t ht
    exact (m.names t p (by rw [he]; exact List.mem_append_left _ hp)).1
  rw [← told a max va da ma, ← told b max' vb db mb]
  have ht : (wordsIn (PState.runLog fo (PState.init Index.new max) (Xml.tokensAll a))).map
        (fun x => (ParseLine.word x.1 x.2.1 x.2.2).text) =
      (wordsIn (PState.runLog fo (PState.init Index.new max') (Xml.tokensAll b))).map
        (fun x => (ParseLine.word x.1 x.2.1 x.2.2).text) := by
    rw [word_texts, word_texts]
    have e : ∀ ls : List ParseLine, ls.map ParseLine.text = (ls.map ParseLine.bytes).map (·.2) := by
      intro ls; rw [List.map_map]; rfl
    rw [e, e, h]
  have na := word_number fo a va max da ma
  have nb := word_number fo b vb max' db mb
  have fa := four a max va da ma
  have fb := four b max' vb db mb
  generalize wordsIn (PState.runLog fo (PState.init Index.new max) (Xml.tokensAll a)) = L at *
  generalize wordsIn (PState.runLog fo (PState.init Index.new max') (Xml.tokensAll b)) = M at *
  have key : ∀ (L' M' A B : List (Item × Str × List Str)), L = A ++ L' → M = B ++ M' → A.map (·.2) = B.map (·.2) →
      L'.map (fun x => (ParseLine.word x.1 x.2.1 x.2.2).text) = M'.map (fun x => (ParseLine.word x.1 x.2.1 x.2.2).text) →
      L'.map (·.2) = M'.map (·.2) := by
    intro L'
    induction L' with
    | nil =>
      intro M' A B _ _ _ h
      cases M' with
      | nil => rfl
      | cons y M' => cases h
    | cons x L' ih =>
      intro M' A B hL hM hAB h
      cases M' with
      | nil => cases h
      | cons y M' =>
        obtain ⟨e1, e2⟩ := List.cons.inj h
        obtain ⟨it, w, t⟩ := x
        obtain ⟨it', w', t'⟩ := y
        have hxy : (w, t) = (w', t') := by
          obtain ⟨i1, -, -, h4⟩ := word_text e1
          have p1 := na A L' it w t hL
          have p2 := nb B M' it' w' t' hM
          have hd : (A.map fun x => decodeRunes x.2.1) = B.map fun x => decodeRunes x.2.1 := by
            have := congrArg (List.map fun f : Str × List Str => decodeRunes f.1) hAB
            simpa only [List.map_map, Function.comp_def] using this
          rw [← hd, ← i1] at p2
          rcases form_cases (fa (it, w, t) (by rw [hL]; simp)) (fb (it', w', t') (by rw [hM]; simp)) h4 with
            ⟨rfl, rfl⟩ | ⟨x, rfl⟩ | ⟨x, rfl⟩
          · rfl
          · obtain ⟨v, hv, ev⟩ := decodeRunes_ascii 0x20 (by decide) w x
            rw [ev] at p2
            exact (numbers_differ hv p1 p2).elim
          · obtain ⟨v, hv, ev⟩ := decodeRunes_ascii 0x20 (by decide) w' x
            rw [ev] at p1
            exact (numbers_differ hv p2 p1).elim
        rw [List.map_cons, List.map_cons,
          ih M' (A ++ [(it, w, t)]) (B ++ [(it', w', t')]) (by rw [hL]; simp) (by rw [hM]; simp)
            (by rw [List.map_append, List.map_append, hAB]; simp [Prod.mk.inj hxy]) e2]
        exact congrArg (· :: _) hxy
  exact key L M [] [] rfl rfl rfl ht

theorem OneEach.length_le {A D E : List (List Str)} (hD : OneEach A D) (hE : OneEach A E) : D.length ≤ E.length := by
  let f : List Str → List Tag := fun l => l.map fun n => ⟨[], n⟩
  have hf : ∀ l, tagNames (f l) = l := by
    intro l
    show (l.map _).map _ = l
    rw [List.map_map]
    exact List.map_id l
  have := pairwise_cover_length (L₁ := D.map f) (L₂ := E.map f) (by
    rw [List.pairwise_map]
    exact hD.once.imp fun h e => h (by rwa [hf, hf] at e)) (by
    intro t ht
    obtain ⟨l, hl, rfl⟩ := List.mem_map.1 ht
    obtain ⟨m, hm, hp⟩ := hE.complete l (hD.sub l hl)
    exact ⟨f m, List.mem_map.2 ⟨m, hm, rfl⟩, by rwa [hf, hf]⟩)
  simpa using this

theorem readings_agree {T T' : List Tag} {A : List (List Str)} {L M : List (List Tag)} (h : ExactReadings T A L)
    (h' : ExactReadings T' A M) : SameReadings L M := by
  have fwd : ∀ {T T' : List Tag} {L M : List (List Tag)}, ExactReadings T A L → ExactReadings T' A M →
      ∀ t ∈ L, ∃ t' ∈ M, (tagNames t).Perm (tagNames t') := by
    intro T T' L M h h' t ht
    obtain ⟨n, hn, hp⟩ := h.sound t ht
    obtain ⟨t', ht', hp'⟩ := h'.complete n hn
    exact ⟨t', ht', hp.trans hp'.symm⟩
  exact ⟨Nat.le_antisymm (pairwise_cover_length h.once (fwd h h')) (pairwise_cover_length h'.once (fwd h' h)), fwd h h',
    fwd h' h⟩

theorem shown_agree {T T' : List Tag} {x : Option Str} {A : List (List Str)} {L M : List (List Tag)}
    (h : Shown T x A L) (h' : Shown T' x A M) : SameReadings L M := by
  cases x with
  | some x => exact readings_agree h h'
  | none =>
    by_cases he : [] ∈ A
    · obtain ⟨D, hD, rfl⟩ := h.2 he
      obtain ⟨E, hE, rfl⟩ := h'.2 he
      have hl : D.length = E.length := Nat.le_antisymm (hD.length_le hE) (hE.length_le hD)
      rw [List.map_const', List.map_const', hl]
      exact ⟨rfl, fun t ht => ⟨t, ht, .refl _⟩, fun t ht => ⟨t, ht, .refl _⟩⟩
    · exact readings_agree (h.1 he) (h'.1 he)

/-- Two indexes that serve documents with the same forms answer alike. -/
theorem serve_alike {a b : List Xml} {ix ix' : Index} (hforms : allForms (entriesOf a) = allForms (entriesOf b))
    (ha : ServesExactly a ix) (hb : ServesExactly b ix') (w : Str) :
    (∃ e e', (ix.fetchString w).2 = .err e ∧ (ix'.fetchString w).2 = .err e') ∨
      ∃ i j, (ix.fetchString w).2 = .ok i ∧ (ix'.fetchString w).2 = .ok j ∧
        ((ix.tagSetsOf i = .panic ∧ ix'.tagSetsOf j = .panic) ∨
          ∃ L M, ix.tagSetsOf i = .ok L ∧ ix'.tagSetsOf j = .ok M ∧ SameReadings L M) := by
  have sa := ha.2
  have sb := hb.2
  obtain ⟨x1, x2, x3⟩ := sa w
  obtain ⟨y1, y2, y3⟩ := sb w
  rw [← hforms] at y1 y2 y3
  by_cases hw : w = []
  · obtain ⟨e, he⟩ := x3 (.inl hw)
    obtain ⟨e', he'⟩ := y3 (.inl hw)
    exact .inl ⟨e, e', he, he'⟩
  by_cases hq : lookedUp (allForms (entriesOf a)) w = []
  · obtain ⟨p1, p2⟩ := x1 ⟨hw, hq⟩
    obtain ⟨q1, q2⟩ := y1 ⟨hw, hq⟩
    exact .inr ⟨0, 0, p1, q1, .inl ⟨p2, q2⟩⟩
  by_cases hp : ∃ f ∈ allForms (entriesOf a), lookedUp (allForms (entriesOf a)) w <+: decodeRunes f.1
  · obtain ⟨i, L, p1, p2, p3⟩ := x2 ⟨hw, hq, hp⟩
    obtain ⟨j, M, q1, q2, q3⟩ := y2 ⟨hw, hq, hp⟩
    exact .inr ⟨i, j, p1, q1, .inr ⟨L, M, p2, q2, shown_agree p3 q3⟩⟩
  · obtain ⟨e, he⟩ := x3 (.inr ⟨hq, hp⟩)
    obtain ⟨e', he'⟩ := y3 (.inr ⟨hq, hp⟩)
    exact .inl ⟨e, e', he, he'⟩

/-- C123: the bytes of the log of an import tell which dictionary was imported. If the logs of the imports of two
documents into new indexes have the same bytes, the documents have the same forms with the same tags in the same order,
and the two dictionaries — optimized, saved and loaded — answer every string alike: both with an error, or both with a
node, and then both with the same readings (or both with a panic, for a string of NULs). -/
theorem C123 (fo : Str → Bool) (a b : List Xml) (va : Xml.ValidAll fo [] a) (vb : Xml.ValidAll fo [] b)
    (da : Declared (entriesOf a)) (db : Declared (entriesOf b)) (ma : DocRoom (entriesOf a)) (mb : DocRoom (entriesOf b))
    (h : (PState.runLog fo (PState.init Index.new 0) (Xml.tokensAll a)).map ParseLine.bytes =
      (PState.runLog fo (PState.init Index.new 0) (Xml.tokensAll b)).map ParseLine.bytes) :
    allForms (entriesOf a) = allForms (entriesOf b) ∧
    ∃ ix ix', Index.new.load (PState.run fo (PState.init Index.new 0) (Xml.tokensAll a)).1.ix.optimize.1.save.bytes = .ok (ix, []) ∧
      Index.new.load (PState.run fo (PState.init Index.new 0) (Xml.tokensAll b)).1.ix.optimize.1.save.bytes = .ok (ix', []) ∧
      ∀ w, (∃ e e', (ix.fetchString w).2 = .err e ∧ (ix'.fetchString w).2 = .err e') ∨
        ∃ i j, (ix.fetchString w).2 = .ok i ∧ (ix'.fetchString w).2 = .ok j ∧
          ((ix.tagSetsOf i = .panic ∧ ix'.tagSetsOf j = .panic) ∨
            ∃ L M, ix.tagSetsOf i = .ok L ∧ ix'.tagSetsOf j = .ok M ∧ SameReadings L M) := by
  obtain ⟨a1, _, _, ix, a4, sa⟩ := C44_exact fo a va da ma
  obtain ⟨b1, _, _, ix', b4, sb⟩ := C44_exact fo b vb db mb
  have hforms : allForms (entriesOf a) = allForms (entriesOf b) := C123_forms fo a b va vb da db ma mb 0 0 h
  exact ⟨hforms, ix, ix', a4, b4, serve_alike hforms sa sb⟩

/-! ## Where it fails -/

/-- A document with one form, one declared tag. -/
def oneForm (tag form : Str) (tags : List Str) : List Xml :=
  [.elem (str "dictionary") [] [
    .elem (str "grammemes") [] [
      .elem (str "grammeme") [⟨str "parent", []⟩] [.elem (str "name") [] [.text tag]]],
    .elem (str "lemmata") [] [
      .elem (str "lemma") [⟨str "id", str "1"⟩, ⟨str "rev", str "1"⟩] [
        .elem (str "f") [⟨str "t", form⟩] (tags.map fun t => .elem (str "g") [⟨str "v", t⟩] [])]]]]

/-- A single message can be ambiguous, without the condition on the end of tag names: the form "a" with the tag "AB [" and the form
"a [AB" without tags, in documents within capacity with declared tags of four bytes, have the same text in the log; only
the numbers of the nodes, which C123 makes use of, tell them apart. -/
theorem not_C123_line : let a := oneForm (str "AB [") (str "a") [str "AB ["]
    let b := oneForm (str "AB [") (str "a [AB") []
    Xml.ValidAll (fun _ => true) [] a ∧ Xml.ValidAll (fun _ => true) [] b ∧
    Declared (entriesOf a) ∧ Declared (entriesOf b) ∧ DocRoom (entriesOf a) ∧ DocRoom (entriesOf b) ∧
    allForms (entriesOf a) ≠ allForms (entriesOf b) ∧
    ∀ it, (ParseLine.word it (str "a") [str "AB ["]).bytes = (ParseLine.word it (str "a [AB") []).bytes := by
  refine ⟨by decide, by decide, declared_of_check _ (by decide), declared_of_check _ (by decide), ?_, ?_, by decide,
    fun _ => rfl⟩
  · apply DocSmall.room
    have e : entriesOf (oneForm (str "AB [") (str "a") [str "AB ["]) =
      [.grammeme (str "AB [") [], .lem [(str "a", [str "AB ["])]] := by decide
    rw [e]
    constructor <;> decide
  · apply DocSmall.room
    have e : entriesOf (oneForm (str "AB [") (str "a [AB") []) =
      [.grammeme (str "AB [") [], .lem [(str "a [AB", [])]] := by decide
    rw [e]
    constructor <;> decide

/-! ## Examples -/

/-- The log of `twiceDoc`, as bytes. -/
example : (PState.runLog (fun _ => true) (PState.init Index.new 0) (Xml.tokensAll twiceDoc)).map ParseLine.bytes =
    [(.debug, str "IDX+ I0000003 P0000002 0x00010000 cat [NOUN] "),
     (.debug, str "IDX+ I0000003 P0000002 0x00020000 cat [VERB] "),
     (.debug, str "IDX+ I0000002 P0000001 0x00010001 ca [VERB,NOUN] "),
     (.debug, str "< .dictionary")] := by
  decide +kernel

/-- What `Optimize` logs after the import of `twiceDoc`, as bytes. -/
example : let ix := (PState.run (fun _ => true) (PState.init Index.new 0) (Xml.tokensAll twiceDoc)).1.ix
    ix.optimizeTold.1.map OptLine.bytes =
      [(.info, str "check 3 known collections"), (.debug, str "lookup unused collections"),
       (.debug, str "eliminate 1 unused collections"), (.debug, str "IDX? O0x00010001 N0x00010000"),
       (.debug, str "IDX? O0x00020000 N0x00020000"), (.info, str "have 2 collectionID to replace in items"),
       (.debug, str "IDX# I00000002 O0x00010001 OL[10000] N0x00010000 NL[10000]"),
       (.debug, str "IDX# I00000003 O0x00020000 OL[0,1] N0x00020000 NL[0,1]"), (.info, str "2 items VariantID updated"),
       (.info, str "reduced collection from 3 to 2 items"), (.info, str "has 3 possible tag sets")] := by
  decide +kernel

/-- `twiceDoc` written otherwise: a comment, a third grammeme, the two forms of the second lemma in lemmas of their own, and
tags that are given with the form, not with the lemma. -/
def twiceDoc' : List Xml :=
  [.other, .elem (str "dictionary") [] [
    .elem (str "grammemes") [] [
      .elem (str "grammeme") [⟨str "parent", []⟩] [.elem (str "name") [] [.text (str "VERB")]],
      .elem (str "grammeme") [⟨str "parent", []⟩] [.elem (str "name") [] [.text (str "NOUN")]],
      .elem (str "grammeme") [⟨str "parent", []⟩] [.elem (str "name") [] [.text (str "ADJF")]]],
    .elem (str "lemmata") [] [
      .elem (str "lemma") [⟨str "id", str "7"⟩, ⟨str "rev", str "1"⟩] [
        .elem (str "f") [⟨str "t", str "cat"⟩] [.elem (str "g") [⟨str "v", str "NOUN"⟩] []]],
      .elem (str "lemma") [⟨str "id", str "8"⟩, ⟨str "rev", str "1"⟩] [
        .elem (str "f") [⟨str "t", str "cat"⟩] [.elem (str "g") [⟨str "v", str "VERB"⟩] []]],
      .elem (str "lemma") [⟨str "id", str "9"⟩, ⟨str "rev", str "1"⟩] [
        .elem (str "f") [⟨str "t", str "ca"⟩] [.elem (str "g") [⟨str "v", str "VERB"⟩] [],
          .elem (str "g") [⟨str "v", str "NOUN"⟩] []]]]]]

theorem twiceDoc'_room : DocRoom (entriesOf twiceDoc') := by
  apply DocSmall.room
  have e : entriesOf twiceDoc' = [.grammeme (str "VERB") [], .grammeme (str "NOUN") [], .grammeme (str "ADJF") [],
    .lem [(str "cat", [str "NOUN"])], .lem [(str "cat", [str "VERB"])], .lem [(str "ca", [str "VERB", str "NOUN"])]] := by
    decide
  rw [e]
  constructor <;> decide

/-- Both have the same log; C123 says that they are the same dictionary, for example about "cat". -/
example : ∃ ix ix', Index.new.load (PState.run (fun _ => true) (PState.init Index.new 0)
      (Xml.tokensAll twiceDoc)).1.ix.optimize.1.save.bytes = .ok (ix, []) ∧
    Index.new.load (PState.run (fun _ => true) (PState.init Index.new 0)
      (Xml.tokensAll twiceDoc')).1.ix.optimize.1.save.bytes = .ok (ix', []) ∧
    ∃ i j L M, (ix.fetchString (str "cat")).2 = .ok i ∧ (ix'.fetchString (str "cat")).2 = .ok j ∧
      ix.tagSetsOf i = .ok L ∧ ix'.tagSetsOf j = .ok M ∧ SameReadings L M := by
  obtain ⟨-, ix, ix', h1, h2, h⟩ := C123 (fun _ => true) twiceDoc twiceDoc' twiceDoc_valid (by decide) twiceDoc_declared
    (declared_of_check _ (by decide)) twiceDoc_room twiceDoc'_room (by decide +kernel)
  refine ⟨ix, ix', h1, h2, ?_⟩
  obtain ⟨_, _, _, _, h4, _, hs⟩ := C44_partial _ twiceDoc twiceDoc_valid twiceDoc_declared twiceDoc_room
  rw [h1] at h4
  obtain ⟨rfl, -⟩ := Prod.mk.inj (Out.ok.inj h4)
  obtain ⟨s1, _, s3⟩ := hs (str "cat") (by unfold NoLeadingNul; decide)
  obtain ⟨k, hk⟩ := s1.2 ⟨by decide, (str "cat", [str "NOUN"]), by decide, by decide⟩
  obtain ⟨K, hK, -⟩ := s3 k hk (by decide)
  rcases h (str "cat") with ⟨e, _, he, _⟩ | ⟨i, j, hi, hj, h⟩
  · rw [hk] at he; cases he
  · rw [hk] at hi
    obtain rfl := Out.ok.inj hi
    rcases h with ⟨hp, _⟩ | ⟨L, M, hL, hM, hLM⟩
    · rw [hK] at hp; cases hp
    · exact ⟨k, j, L, M, hk, hj, hL, hM, hLM⟩

end Verif
