import Verif.Lemmas.DocRoom
import Verif.Props.Import
import Verif.Props.EmptyReading

/-!
# C44 — from the document to the answers, and the capacity of an index

`Declared es` and `DocRoom es` (`Spec/DocRoom.lean`) speak about what the document says: forms use declared
grammemes, and nothing exceeds the capacity. `Room h` (`Spec/Room.lean`) is the same for any history of calls.
-/

namespace Verif

/-- A history whose dictionary stays within capacity is a run. (No bound on the number of calls.) -/
theorem room_runs (h : List Op) (m : Room h) : Run h (execAll h) := (run_of_room h m).1

/-- The import of a document within capacity is within capacity. -/
theorem doc_runs {es : List Entry} (hd : Declared es) (m : DocRoom es) :
    Run (callsOf es ++ [.optimize, .reload]) (execAll (callsOf es ++ [.optimize, .reload])) := by
  have := room_runs _ (room_of_doc hd m).optimize.reload
  simpa using this

theorem declaredTags_mem (es : List Entry) : ∀ t ∈ declaredTags es, ∃ n p, Entry.grammeme n p ∈ es ∧
    t = { name := n, parent := if p = [] then str "----" else p } := by
  unfold declaredTags
  induction es using list_reverse_induction with
  | nil => intro t ht; cases ht
  | snoc es e ih =>
    rw [List.foldl_append]
    simp only [List.foldl_cons, List.foldl_nil]
    intro t ht
    have old : ∀ t ∈ declaredTags es, ∃ n p, Entry.grammeme n p ∈ es ++ [e] ∧
        t = { name := n, parent := if p = [] then str "----" else p } := by
      intro t ht
      obtain ⟨n, p, a, b⟩ := ih t ht
      exact ⟨n, p, List.mem_append_left _ a, b⟩
    cases e with
    | grammeme n p =>
      simp only at ht
      split at ht
      · exact old t ht
      · rcases List.mem_append.1 ht with ht | ht
        · exact old t ht
        · exact ⟨n, p, by simp, List.mem_singleton.1 ht⟩
    | lem fs => exact old t ht

theorem plain_declared {es : List Entry} (m : DocRoom es) : PlainTags (declaredTags es) := by
  intro t ht
  obtain ⟨n, p, h1, rfl⟩ := declaredTags_mem es t ht
  obtain ⟨a, b, c⟩ := m.names n p h1
  refine ⟨a, b, ?_⟩
  simp only
  by_cases h0 : p = []
  · rw [if_pos h0]; decide
  · rw [if_neg h0]
    exact c.resolve_left h0

/-- The whole way: parse, optimize, save, load. -/
theorem imported {fo : Str → Bool} {doc : List Xml} (hv : Xml.ValidAll fo [] doc) (hd : Declared (entriesOf doc))
    (m : DocRoom (entriesOf doc)) :
    let r := PState.run fo (PState.init Index.new 0) (Xml.tokensAll doc)
    r.2 = none ∧ r.1.ix.optimize.2 = .ok () ∧ r.1.ix.optimize.1.save.err = none ∧
    ∃ ix, Index.new.load r.1.ix.optimize.1.save.bytes = .ok (ix, []) ∧ ix.tags = declaredTags (entriesOf doc) ∧
      Run (callsOf (entriesOf doc) ++ [.optimize] ++ [.reload]) ix := by
  intro r
  have room := room_of_doc hd m
  have r1 := room_runs _ room
  have he : execEntries Index.new (entriesOf doc) = (execAll (callsOf (entriesOf doc)), none) :=
    entries_ok (entriesOf doc) Run.nil (by simp [NoReload]) Holds.empty [] (by simp) hd.steps r1
  have hr : (r.1.ix, r.2) = execEntries Index.new (entriesOf doc) := C40 fo doc hv Index.new 0 (by decide)
  rw [he] at hr
  obtain ⟨hr1, hr2⟩ := Prod.mk.inj hr
  rw [hr1]
  obtain ⟨r2, o2⟩ := run_of_room _ room.optimize
  have e2 : execAll (callsOf (entriesOf doc) ++ [.optimize]) = (execAll (callsOf (entriesOf doc))).optimize.1 := by
    unfold execAll; rw [List.foldl_append]; rfl
  rw [e2] at r2 o2
  have hl : (execAll (callsOf (entriesOf doc))).optimize.1.InLimits :=
    (o2.allowed r2.refines.1 room.optimize .reload).1
  have htags : (execAll (callsOf (entriesOf doc))).optimize.1.tags = declaredTags (entriesOf doc) := by
    rw [r2.tag.tags, dictOf_append, ← callsOf_tags]; rfl
  obtain ⟨s1, ix, s2, s3, s4⟩ := C17 r2 hl (by rw [htags]; exact plain_declared m)
  exact ⟨hr2, (C23 r1).1, s1, ix, s2, s3.tags.trans htags, s4⟩

/-- The optimized import is within the limits of the file format. -/
theorem imported_limits {fo : Str → Bool} {doc : List Xml} (hv : Xml.ValidAll fo [] doc) (hd : Declared (entriesOf doc))
    (m : DocRoom (entriesOf doc)) :
    (PState.run fo (PState.init Index.new 0) (Xml.tokensAll doc)).1.ix.optimize.1.InLimits := by
  have room := room_of_doc hd m
  have he : execEntries Index.new (entriesOf doc) = (execAll (callsOf (entriesOf doc)), none) :=
    entries_ok (entriesOf doc) Run.nil (by simp [NoReload]) Holds.empty [] (by simp) hd.steps (room_runs _ room)
  have hr := C40 fo doc hv Index.new 0 (by decide)
  rw [he] at hr
  rw [(Prod.mk.inj hr).1]
  obtain ⟨r2, o2⟩ := run_of_room _ room.optimize
  have e2 : execAll (callsOf (entriesOf doc) ++ [.optimize]) = (execAll (callsOf (entriesOf doc))).optimize.1 := by
    unfold execAll; rw [List.foldl_append]; rfl
  rw [e2] at r2 o2
  exact (o2.allowed r2.refines.1 room.optimize .reload).1

/-- What the loaded index stands for. -/
theorem imported_dict {es : List Entry} (hd : Declared es) (m : DocRoom es) :
    let d := dictOf (callsOf es ++ [.optimize] ++ [.reload])
    d.words = (allForms es).map (fun f => decodeRunes f.1) ∧ d.nodes = (dictOf (callsOf es)).nodes ∧
    d.readings = (dictOf (callsOf es)).readings ∧
    ∀ k w, d.nodes[k]? = some w → d.attached k = ((allForms es).filter fun f => decodeRunes f.1 = w).map (·.2) := by
  have hi := callsOf_imp hd m
  have e : dictOf (callsOf es ++ [.optimize] ++ [.reload]) = Op.spec (dictOf (callsOf es)) .reload := by
    rw [dictOf_append, dictOf_append]; rfl
  simp only [e]
  exact ⟨hi.words, rfl, rfl, hi.attached⟩

/-- C44, except for forms without any tag and queries starting with NUL: a document of the format, with declared
tags and within capacity, is imported, optimized, saved and loaded without an error. In the loaded index a string is
found exactly if it is a non-empty prefix of a form. The readings of a found string are exactly the tag lists of the
forms spelled like it, each once; each tag is shown with the parent its (first) declaration gives. -/
theorem C44_partial (fo : Str → Bool) (doc : List Xml) (hv : Xml.ValidAll fo [] doc) (hd : Declared (entriesOf doc))
    (m : DocRoom (entriesOf doc)) :
    let r := PState.run fo (PState.init Index.new 0) (Xml.tokensAll doc)
    let forms := allForms (entriesOf doc)
    r.2 = none ∧ r.1.ix.optimize.2 = .ok () ∧ r.1.ix.optimize.1.save.err = none ∧
    ∃ ix, Index.new.load r.1.ix.optimize.1.save.bytes = .ok (ix, []) ∧
      ix.tags = declaredTags (entriesOf doc) ∧
      ∀ w, NoLeadingNul (decodeRunes w) →
        ((∃ id, (ix.fetchString w).2 = .ok id) ↔ w ≠ [] ∧ ∃ f ∈ forms, decodeRunes w <+: decodeRunes f.1) ∧
        ((∃ id, (ix.fetchString w).2 = .ok id) ∨ ∃ e, (ix.fetchString w).2 = .err e) ∧
        ∀ id, (ix.fetchString w).2 = .ok id → [] ∉ tagListsOf w forms →
          ∃ L, ix.tagSetsOf id = .ok L ∧ ExactReadings ix.tags (tagListsOf w forms) L := by
  intro r forms
  obtain ⟨h1, h2, h3, ix, h4, h5, s4⟩ := imported hv hd m
  obtain ⟨hdd, _, _, hat⟩ := imported_dict hd m
  refine ⟨h1, h2, h3, ix, h4, h5, ?_⟩
  intro w hw
  have hw2 := C02_string s4 w (.inr hw)
  refine ⟨?_, hw2.2, ?_⟩
  · rw [hw2.1, hdd]
    constructor
    · rintro ⟨h0, v, hv, hp⟩
      obtain ⟨f, hf, rfl⟩ := List.mem_map.1 hv
      exact ⟨h0, f, hf, hp⟩
    · rintro ⟨h0, f, hf, hp⟩
      exact ⟨h0, _, List.mem_map.2 ⟨f, hf, rfl⟩, hp⟩
  · intro id hid hne
    unfold Index.fetchString at hid
    rw [s4.trie.fetchRoot_iff, Run.root_join (.inr hw)] at hid
    have ha := hat id.toNat _ hid.2
    have hlt := (List.getElem?_eq_some_iff.1 hid.2).1
    have h1 : 1 ≤ id.toNat ∧ id.toNat ≤ ix.nodesCount := by
      rw [s4.trie.nodesCount]
      refine ⟨?_, by omega⟩
      rcases Nat.eq_zero_or_pos id.toNat with h0 | h0
      · have := hid.2
        rw [h0, s4.trie.root] at this
        exact absurd (Option.some.inj this).symm hid.1
      · exact h0
    have := C09 s4 id h1 (by rw [ha]; exact hne)
    rw [ha] at this
    exact this

/-! ## The hypotheses are met -/

theorem tagListsOf_le (w : Str) (F : List (Str × List Str)) : (tagListsOf w F).length ≤ F.length := by
  unfold tagListsOf; rw [List.length_map]; exact List.length_filter_le _ _

/-- A small document is within capacity. -/
theorem DocSmall.room {es : List Entry} (s : DocSmall es) : DocRoom es := by
  have hF := s.forms
  constructor
  · refine ⟨[] :: (allForms es).flatMap fun f => Verif.prefixes (decodeRunes f.1), ?_, List.mem_cons_self .., ?_⟩
    · have hl : ∀ rs : List Rune, (Verif.prefixes rs).length = rs.length := by
        intro rs
        induction rs with
        | nil => rfl
        | cons a rs ih => simp [Verif.prefixes, ih]
      have := s.chars
      rw [List.length_cons, List.length_flatMap]
      simp only [hl]
      omega
    · intro f hf p hp
      by_cases h0 : p = []
      · rw [h0]; exact List.mem_cons_self ..
      · exact List.mem_cons_of_mem _ (List.mem_flatMap.2 ⟨f, hf, mem_prefixes.2 ⟨h0, hp⟩⟩)
  · refine ⟨(es.filter fun | .grammeme _ _ => true | .lem _ => false).map fun | .grammeme n _ => n | .lem _ => [],
      by rw [List.length_map]; exact s.grammemes, ?_⟩
    intro n p h
    exact List.mem_map.2 ⟨_, List.mem_filter.2 ⟨h, rfl⟩, rfl⟩
  · intro n p h
    exact s.names _ h
  · exact s.tags
  · exact ⟨(allForms es).map (·.2), by rw [List.length_map]; omega, fun f hf => ⟨_, List.mem_map.2 ⟨f, hf, rfl⟩, .refl _⟩⟩
  · intro w
    exact ⟨tagListsOf w (allForms es), (tagListsOf_le _ _).trans hF, fun n hn => ⟨n, hn, .refl _⟩⟩
  · refine ⟨(List.range ((allForms es).length + 1)).flatMap fun j => (allForms es).map fun f =>
      tagListsOf f.1 ((allForms es).take j), ?_, ?_⟩
    · rw [List.length_flatMap]
      simp only [List.length_map]
      rw [List.map_const', List.sum_replicate_nat, List.length_range]
      have : ((allForms es).length + 1) * (allForms es).length ≤ 256 * 255 := Nat.mul_le_mul (by omega) hF
      omega
    · intro F hp w hne
      have hex : ∃ f ∈ F, decodeRunes f.1 = decodeRunes w := by
        unfold tagListsOf at hne
        obtain ⟨x, hx⟩ := List.exists_mem_of_ne_nil _ hne
        obtain ⟨f, hf, _⟩ := List.mem_map.1 hx
        obtain ⟨a, b⟩ := List.mem_filter.1 hf
        exact ⟨f, a, of_decide_eq_true b⟩
      obtain ⟨f, hf, he⟩ := hex
      refine ⟨tagListsOf w F, List.mem_flatMap.2 ⟨F.length, ?_, List.mem_map.2 ⟨f, hp.subset hf, ?_⟩⟩,
        fun a ha => ⟨a, ha, .refl _⟩, fun a ha => ⟨a, ha, .refl _⟩⟩
      · rw [List.mem_range]; have := hp.length_le; omega
      · rw [← List.prefix_iff_eq_take.1 hp]
        unfold tagListsOf
        rw [he]

/-- The check means what it should. -/
theorem declared_of_check (es : List Entry) (h : declaredB [] es = true) : Declared es := by
  have key : ∀ (es : List Entry) (G : List Str), declaredB G es = true → ∀ es1 fs es2, es = es1 ++ .lem fs :: es2 →
      ∀ f ∈ fs, f.1 ≠ [] ∧ ∀ x ∈ f.2, x ∈ G ∨ ∃ p, Entry.grammeme x p ∈ es1 := by
    intro es
    induction es with
    | nil => intro G _ es1 fs es2 he; simp at he
    | cons e es ih =>
      intro G h es1 fs es2 he f hf
      cases es1 with
      | nil =>
        simp only [List.nil_append, List.cons.injEq] at he
        obtain ⟨rfl, rfl⟩ := he
        rw [declaredB, Bool.and_eq_true, List.all_eq_true] at h
        have := h.1 f hf
        simp only [ne_eq, decide_not, Bool.and_eq_true, Bool.not_eq_true', decide_eq_false_iff_not,
          List.all_eq_true, decide_eq_true_eq] at this
        exact ⟨this.1, fun x hx => .inl (this.2 x hx)⟩
      | cons e' es1 =>
        simp only [List.cons_append, List.cons.injEq] at he
        obtain ⟨rfl, rfl⟩ := he
        cases e with
        | grammeme n p =>
          obtain ⟨a, b⟩ := ih (n :: G) h es1 fs es2 rfl f hf
          refine ⟨a, fun x hx => ?_⟩
          rcases b x hx with b | ⟨q, b⟩
          · rcases List.mem_cons.1 b with rfl | b
            · exact .inr ⟨p, List.mem_cons_self ..⟩
            · exact .inl b
          · exact .inr ⟨q, List.mem_cons_of_mem _ b⟩
        | lem gs =>
          rw [declaredB, Bool.and_eq_true] at h
          obtain ⟨a, b⟩ := ih G h.2 es1 fs es2 rfl f hf
          exact ⟨a, fun x hx => (b x hx).imp_right fun ⟨q, b⟩ => ⟨q, List.mem_cons_of_mem _ b⟩⟩
  intro es1 fs es2 he f hf
  obtain ⟨a, b⟩ := key es [] h es1 fs es2 he f hf
  exact ⟨a, fun x hx => (b x hx).resolve_left (by simp)⟩

theorem sampleDoc_declared : Declared (entriesOf sampleDoc) := declared_of_check _ (by decide)

theorem sampleDoc_room : DocRoom (entriesOf sampleDoc) := by
  apply DocSmall.room
  rw [sampleDoc_entries]
  constructor <;> decide

/-- What C44 says about the word "cats" of the sample document. -/
example : let r := PState.run (fun _ => true) (PState.init Index.new 0) (Xml.tokensAll sampleDoc)
    ∃ ix, Index.new.load r.1.ix.optimize.1.save.bytes = .ok (ix, []) ∧ ∃ id, (ix.fetchString (str "cats")).2 = .ok id ∧
      ∃ L, ix.tagSetsOf id = .ok L ∧ ExactReadings ix.tags [[str "NOUN", str "plur"]] L := by
  obtain ⟨_, _, _, ix, h4, _, h⟩ := C44_partial _ sampleDoc sampleDoc_valid sampleDoc_declared sampleDoc_room
  obtain ⟨h1, _, h3⟩ := h (str "cats") (by unfold NoLeadingNul; decide)
  obtain ⟨id, hid⟩ := h1.2 ⟨by decide, (str "cats", [str "NOUN", str "plur"]), by rw [sampleDoc_entries]; decide, List.prefix_refl _⟩
  have e : tagListsOf (str "cats") (allForms (entriesOf sampleDoc)) = [[str "NOUN", str "plur"]] := by
    rw [sampleDoc_entries]; decide
  rw [e] at h3
  exact ⟨ix, h4, id, hid, h3 id hid (by decide)⟩

/-! ## What does not hold -/

/-- C44 does not hold for queries starting with NUL: in the imported sample document "\x00cat" is found, although no
form starts with it. -/
theorem not_C44_nul : let r := PState.run (fun _ => true) (PState.init Index.new 0) (Xml.tokensAll sampleDoc)
    ∃ ix, Index.new.load r.1.ix.optimize.1.save.bytes = .ok (ix, []) ∧
      (∃ id, (ix.fetchString (0 :: str "cat")).2 = .ok id) ∧
      ∀ f ∈ allForms (entriesOf sampleDoc), ¬ decodeRunes (0 :: str "cat") <+: decodeRunes f.1 := by
  obtain ⟨_, _, _, ix, h4, _, s⟩ := imported sampleDoc_valid sampleDoc_declared sampleDoc_room
  refine ⟨ix, h4, ⟨3, ?_⟩, ?_⟩
  · unfold Index.fetchString
    rw [C18_exact s]
    rw [sampleDoc_entries]
    decide
  · rw [sampleDoc_entries]; decide

/-- A document with a form "a" without tags and a form "b" that is a noun. -/
def untaggedDoc : List Xml :=
  [.elem (str "dictionary") [] [
    .elem (str "grammemes") [] [
      .elem (str "grammeme") [⟨str "parent", []⟩] [.elem (str "name") [] [.text (str "NOUN")]]],
    .elem (str "lemmata") [] [
      .elem (str "lemma") [⟨str "id", str "1"⟩, ⟨str "rev", str "1"⟩] [
        .elem (str "l") [⟨str "t", str "a"⟩] [],
        .elem (str "f") [⟨str "t", str "a"⟩] []],
      .elem (str "lemma") [⟨str "id", str "2"⟩, ⟨str "rev", str "2"⟩] [
        .elem (str "l") [⟨str "t", str "b"⟩] [.elem (str "g") [⟨str "v", str "NOUN"⟩] []],
        .elem (str "f") [⟨str "t", str "b"⟩] []]]]]

/-- C44 does not hold for forms without tags: "a", about which the document says nothing, is a noun in the loaded
index. -/
theorem not_C44 : let r := PState.run (fun _ => true) (PState.init Index.new 0) (Xml.tokensAll untaggedDoc)
    ∃ ix, Index.new.load r.1.ix.optimize.1.save.bytes = .ok (ix, []) ∧
      tagListsOf (str "a") (allForms (entriesOf untaggedDoc)) = [[]] ∧
      ∃ id L, (ix.fetchString (str "a")).2 = .ok id ∧ ix.tagSetsOf id = .ok L ∧ ∃ t ∈ L, tagNames t = [str "NOUN"] := by
  have he : entriesOf untaggedDoc = [.grammeme (str "NOUN") [], .lem [(str "a", [])], .lem [(str "b", [str "NOUN"])]] := by
    decide
  have hd : Declared (entriesOf untaggedDoc) := declared_of_check _ (by decide)
  have hm : DocRoom (entriesOf untaggedDoc) := by
    apply DocSmall.room
    rw [he]
    constructor <;> decide
  obtain ⟨_, _, _, ix, h4, _, s⟩ := imported (fo := fun _ => true) (doc := untaggedDoc) (by decide) hd hm
  have hid : (ix.fetchString (str "a")).2 = .ok 1 := by
    unfold Index.fetchString
    rw [C18_exact s, he]
    decide
  have hx : (dictOf (callsOf (entriesOf untaggedDoc) ++ [.optimize] ++ [.reload])).firstSingle = some (str "NOUN") := by
    rw [he]; decide
  have hn : 1 ≤ (1 : ID).toNat ∧ (1 : ID).toNat ≤ ix.nodesCount := by
    rw [s.trie.nodesCount, he]; decide
  obtain ⟨L, l1, l2⟩ := C10_shown s 1 hn _ hx
  obtain ⟨t, ht, hp⟩ := l2.complete [str "NOUN"] (by rw [he]; decide)
  exact ⟨ix, h4, by rw [he]; decide, 1, L, hid, l1, t, ht, List.perm_singleton.1 hp⟩

end Verif
