import Verif.Lemmas.Import
import Verif.Props.Capacity

/-!
# C40–C43 — importing an OpenCorpora document

`Spec/Document.lean` says what a document is (`Xml`), which documents belong to the format (`Xml.ValidAll`), what a
document says (`entriesOf`: grammemes and lemmas in document order, read off the tree by element names) and what that
means for an index (`execEntries`). The model of the parser (`PState.run`) works on the tokens of the document.
`fo` is the set of strings accepted as a floating point number; nothing is assumed about it.
-/

namespace Verif

open PState

/-! ## C40 -/

/-- C40: parsing the tokens of any document of the format, without a limit, is processing its entries in order —
register every grammeme; for every form of every lemma add the word, then attach the tags of the lemma followed by
those of the form — up to the first entry the index rejects. The outcome and the index are the same: nothing else is
added. -/
theorem C40 (fo : Str → Bool) (doc : List Xml) (hv : Xml.ValidAll fo [] doc) (ix : Index) (max : Int) (hm : max ≤ 0) :
    let r := PState.run fo (PState.init ix max) (Xml.tokensAll doc)
    (r.1.ix, r.2) = execEntries ix (entriesOf doc) := by
  have h1 := (sim_doc (fo := fo) doc (PState.init ix max) rfl ⟨rfl, rfl, rfl⟩ hv).outcome
  have h2 := execCounted_nolimit hm (entriesOf doc) ix 0
  exact Prod.ext (h1.1.trans h2.1) (h1.2.trans h2.2)

/-- A small document: two grammemes, a lemma with two forms, a link. -/
def sampleDoc : List Xml :=
  [.other,
   .elem (str "dictionary") [⟨str "version", str "0.92"⟩, ⟨str "revision", str "417127"⟩] [
    .text (str "\n"),
    .elem (str "grammemes") [] [
      .elem (str "grammeme") [⟨str "parent", []⟩] [
        .elem (str "name") [] [.text (str "NOUN")],
        .elem (str "alias") [] [.text (str "noun")]],
      .elem (str "grammeme") [⟨str "parent", str "NMbr"⟩] [.elem (str "name") [] [.text (str "sing")]],
      .elem (str "grammeme") [⟨str "parent", str "NMbr"⟩] [.elem (str "name") [] [.text (str "plur")]]],
    .elem (str "lemmata") [] [
      .elem (str "lemma") [⟨str "id", str "1"⟩, ⟨str "rev", str "1"⟩] [
        .elem (str "l") [⟨str "t", str "cat"⟩] [.elem (str "g") [⟨str "v", str "NOUN"⟩] []],
        .elem (str "f") [⟨str "t", str "cat"⟩] [.elem (str "g") [⟨str "v", str "sing"⟩] []],
        .elem (str "f") [⟨str "t", str "cats"⟩] [.elem (str "g") [⟨str "v", str "plur"⟩] []]]],
    .elem (str "links") [] [.elem (str "link") [⟨str "id", str "1"⟩] []]]]

/-- The sample document belongs to the format. -/
theorem sampleDoc_valid : Xml.ValidAll (fun _ => true) [] sampleDoc := by decide

/-- What it says. -/
theorem sampleDoc_entries : entriesOf sampleDoc =
    [.grammeme (str "NOUN") [], .grammeme (str "sing") (str "NMbr"), .grammeme (str "plur") (str "NMbr"),
     .lem [(str "cat", [str "NOUN", str "sing"]), (str "cats", [str "NOUN", str "plur"])]] := by decide

/-- Parsing it succeeds and gives an index with the words and readings. -/
example : let r := PState.run (fun _ => true) (PState.init Index.new 0) (Xml.tokensAll sampleDoc)
    r.2 = none ∧ (r.1.ix.fetchString (str "cats")).2 = .ok 4 ∧
      r.1.ix.tagSetsOf 4 = .ok [[⟨str "----", str "NOUN"⟩, ⟨str "NMbr", str "plur"⟩]] ∧ r.1.ix.wordsCount = 2 := by
  decide

/-! ## C41 -/

/-- C41: after any well-nested stream that was accepted so far, an element that is not part of the format at its
place (element names without dots; see C42) makes parsing fail. What was imported before stays, nothing that follows
is processed. -/
theorem C41_unknown (fo : Str → Bool) (ix : Index) (max : Int) (pre post : List XTok) (st : List Str) (n : Str)
    (as : List XAttr) (s : PState) (hst : openAfter [] pre = some st) (hd : NoDots pre) (hn : 0x2e ∉ n)
    (hok : PState.run fo (PState.init ix max) pre = (s, none)) (hu : st ++ [n] ∉ formatPaths) :
    ∃ s', PState.run fo (PState.init ix max) (pre ++ .start n as :: post) = (s', some .unexpected) ∧ s'.ix = s.ix := by
  have hp := (PInv.run (fo := fo) pre (PInv.init ix max) hst hd).2
  rw [hok] at hp
  have hp := hp rfl
  have hdf : DotFree (st ++ [n]) := by
    intro m hm
    rcases List.mem_append.1 hm with hm | hm
    · exact known_dotFree st hp.known m hm
    · rw [List.mem_singleton.1 hm]; exact hn
  have hnone : handlerOf (pathOf (st ++ [n])) = none := by
    cases hh : handlerOf (pathOf (st ++ [n])) with
    | none => rfl
    | some h =>
      have := known_of_handler hdf hh
      rcases List.mem_cons.1 this with h | h
      · simp at h
      · exact absurd h hu
  refine ⟨{ s with path := s.path ++ 0x2e :: n }, ?_, rfl⟩
  rw [run_append, hok]
  simp only [PState.run, PState.token, startElement]
  rw [hp.path, ← pathOf_snoc, hnone]

/-- C41: the same for an element of the format without the attributes it must have (`AttrsOK`): a missing `parent`,
`t` or `v`, an `id` or `rev` that is missing or not an integer, a `version` or `revision` that is not a number. -/
theorem C41_attribute (fo : Str → Bool) (ix : Index) (max : Int) (pre post : List XTok) (st : List Str) (n : Str)
    (as : List XAttr) (s : PState) (hst : openAfter [] pre = some st) (hd : NoDots pre)
    (hok : PState.run fo (PState.init ix max) pre = (s, none)) (hk : st ++ [n] ∈ formatPaths)
    (ha : ¬ AttrsOK fo (st ++ [n]) as) :
    ∃ s', PState.run fo (PState.init ix max) (pre ++ .start n as :: post) = (s', some .attr) ∧ s'.ix = s.ix := by
  have hp := (PInv.run (fo := fo) pre (PInv.init ix max) hst hd).2
  rw [hok] at hp
  have hp := hp rfl
  have hkn : st ++ [n] ∈ knownPaths := List.mem_cons_of_mem _ hk
  have hn : (0x2e : UInt8) ∉ n := known_dotFree _ hkn n (List.mem_append_right _ (List.mem_singleton_self n))
  have hsafe := (hp.start (fo := fo) hn as).1
  obtain ⟨hd, hh⟩ := handler_of_known hkn
  have e : s.startElement fo n as = ({ s with path := s.path ++ 0x2e :: n } : PState).onStart fo as hd := by
    unfold startElement
    simp only
    rw [hp.path, ← pathOf_snoc, hh]
  rw [e] at hsafe
  obtain ⟨h1, _, h3⟩ := onStart_attrs hkn hh _ as hsafe
  have h3 := h3 ha
  refine ⟨_, ?_, h1⟩
  rw [run_append, hok]
  simp only [PState.run, PState.token]
  rw [e]
  cases hr : ({ s with path := s.path ++ 0x2e :: n } : PState).onStart fo as hd with
  | mk s' o =>
    rw [hr] at h3
    simp only at h3
    rw [h3]

/-- C41: a form with an empty word, or with a tag that no earlier grammeme of the document declares, makes the import
into a new index fail (with an error other than the controlled stop). The index is left as if the document had ended
with that form: nothing after it is processed. -/
theorem C41_form (fo : Str → Bool) (doc : List Xml) (hv : Xml.ValidAll fo [] doc) (max : Int) (hm : max ≤ 0)
    (es1 es2 : List Entry) (fs1 fs2 : List (Str × List Str)) (w : Str) (tags : List Str)
    (he : entriesOf doc = es1 ++ .lem (fs1 ++ (w, tags) :: fs2) :: es2)
    (hb : w = [] ∨ ∃ x ∈ tags, ∀ p, Entry.grammeme x p ∉ es1) :
    let r := PState.run fo (PState.init Index.new max) (Xml.tokensAll doc)
    (∃ e, r.2 = some e ∧ e ≠ .controlledStop) ∧
      (r.1.ix, r.2) = execEntries Index.new (es1 ++ [.lem (fs1 ++ [(w, tags)])]) := by
  intro r
  have hc : (r.1.ix, r.2) = execEntries Index.new (entriesOf doc) := C40 fo doc hv Index.new max hm
  have hbad := bad_entry es1 fs1 w tags hb
  have key : execEntries Index.new (entriesOf doc) = execEntries Index.new (es1 ++ [.lem (fs1 ++ [(w, tags)])]) := by
    rw [he]
    rw [execEntries_append, execEntries_append] at *
    split
    · rename_i hok
      rw [if_pos hok] at hbad
      simp only [execEntries, Entry.exec] at hbad ⊢
      have e2 : fs1 ++ (w, tags) :: fs2 = (fs1 ++ [(w, tags)]) ++ fs2 := by simp
      have hne : (addFormsSpec (execEntries Index.new es1).1 (fs1 ++ [(w, tags)])).2 ≠ none := by
        intro h0
        cases hh : addFormsSpec (execEntries Index.new es1).1 (fs1 ++ [(w, tags)]) with
        | mk a b =>
          rw [hh] at h0 hbad
          simp only at h0
          subst h0
          exact hbad rfl
      rw [e2, addFormsSpec_fail fs2 hne]
      cases hh : addFormsSpec (execEntries Index.new es1).1 (fs1 ++ [(w, tags)]) with
      | mk a b =>
        cases b with
        | none => rw [hh] at hne; exact absurd rfl hne
        | some e => rfl
    · rfl
  refine ⟨?_, hc.trans key⟩
  have h2 : r.2 = (execEntries Index.new (es1 ++ [.lem (fs1 ++ [(w, tags)])])).2 := by
    rw [← key, ← hc]
  cases hr : r.2 with
  | none => rw [hr] at h2; exact absurd h2.symm hbad
  | some e =>
    refine ⟨e, rfl, ?_⟩
    rintro rfl
    rw [hr] at h2
    exact execEntries_ne_stop _ _ h2.symm

/-- The hypotheses are met: `<dictionary><foo>`, ... -/
example : ∃ s', PState.run (fun _ => true) (PState.init Index.new 0)
    ([.start (str "dictionary") []] ++ .start (str "foo") [] :: [.stop (str "foo")]) = (s', some .unexpected) ∧
      s'.ix = Index.new :=
  C41_unknown _ _ _ [.start (str "dictionary") []] _ [str "dictionary"] _ _ _ (by decide)
    (by intro n as h; simp only [List.mem_singleton, XTok.start.injEq] at h; rw [h.1]; decide) (by decide) rfl (by decide)

/-- ... a lemma without `rev`, ... -/
example : ∃ s', PState.run (fun _ => true) (PState.init Index.new 0)
    ([.start (str "dictionary") [], .start (str "lemmata") []] ++
      .start (str "lemma") [⟨str "id", str "1"⟩] :: [.stop (str "lemma")]) = (s', some .attr) ∧ s'.ix = Index.new :=
  C41_attribute _ _ _ [.start (str "dictionary") [], .start (str "lemmata") []] _ [str "dictionary", str "lemmata"] _ _ _
    (by decide)
    (by
      intro n as h
      simp only [List.mem_cons, List.not_mem_nil, or_false, XTok.start.injEq] at h
      rcases h with h | h <;> rw [h.1] <;> decide) rfl (by decide) (by decide)

/-- ... and the sample document with an undeclared tag. -/
def undeclaredDoc : List Xml :=
  [.elem (str "dictionary") [] [
    .elem (str "grammemes") [] [
      .elem (str "grammeme") [⟨str "parent", []⟩] [.elem (str "name") [] [.text (str "NOUN")]]],
    .elem (str "lemmata") [] [
      .elem (str "lemma") [⟨str "id", str "1"⟩, ⟨str "rev", str "1"⟩] [
        .elem (str "l") [⟨str "t", str "cat"⟩] [.elem (str "g") [⟨str "v", str "NOUN"⟩] []],
        .elem (str "f") [⟨str "t", str "cat"⟩] [],
        .elem (str "f") [⟨str "t", str "cats"⟩] [.elem (str "g") [⟨str "v", str "plur"⟩] []],
        .elem (str "f") [⟨str "t", str "dogs"⟩] []]]]]

example : let r := PState.run (fun _ => true) (PState.init Index.new 0) (Xml.tokensAll undeclaredDoc)
    (∃ e, r.2 = some e ∧ e ≠ .controlledStop) ∧
      (r.1.ix, r.2) = execEntries Index.new ([.grammeme (str "NOUN") []] ++
        [.lem ([(str "cat", [str "NOUN"])] ++ [(str "cats", [str "NOUN", str "plur"])])]) :=
  C41_form _ undeclaredDoc (by decide) 0 (by decide)
    [.grammeme (str "NOUN") []] [] [(str "cat", [str "NOUN"])] [(str "dogs", [str "NOUN"])] _ _ (by decide)
    (.inr ⟨str "plur", by decide, by intro p; simp only [List.mem_singleton, Entry.grammeme.injEq]; intro h; revert h; simp [str]⟩)

/-! ## C42 -/

/-- C42, for element names without dots: whatever well-nested tokens arrive — complete or cut off anywhere, known
elements or not, any attributes and text — the parser never dereferences a missing current grammeme, lemma, form or
list element, and never cuts more from its path than is there. -/
theorem C42_partial (fo : Str → Bool) (ix : Index) (max : Int) (ts : List XTok) (st : List Str)
    (hn : openAfter [] ts = some st) (hd : NoDots ts) :
    (PState.run fo (PState.init ix max) ts).2 ≠ some .nilDeref ∧
    (PState.run fo (PState.init ix max) ts).2 ≠ some .slice :=
  (PInv.run (fo := fo) ts (PInv.init ix max) hn hd).1

/-- The sample document is a well-nested stream without dots. -/
example : openAfter [] (Xml.tokensAll sampleDoc) = some [] := by decide

/-- C42 does not hold for names with dots, which XML allows: the path of the parser is a string, so
`<dictionary><lemmata><lemma.f t="x">` is taken for a form of a lemma. When it ends there is no current lemma. -/
theorem not_C42 : ∃ ts : List XTok, openAfter [] ts = some [str "dictionary", str "lemmata"] ∧
    (PState.run (fun _ => true) (PState.init Index.new 0) ts).2 = some .nilDeref :=
  ⟨[.start (str "dictionary") [], .start (str "lemmata") [], .start (str "lemma.f") [⟨str "t", str "x"⟩],
    .stop (str "lemma.f")], by decide, by decide⟩

/-! ## C43 -/

/-- C43: with a limit `m > 0` the parser processes exactly the entries up to the end of the `m`-th lemma (all, if
there are fewer). If none of them fails it then stops with the controlled stop — if there are `m` lemmas — or
succeeds. -/
theorem C43 (fo : Str → Bool) (doc : List Xml) (hv : Xml.ValidAll fo [] doc) (ix : Index) (m : Nat) (hm : 0 < m) :
    let r := PState.run fo (PState.init ix m) (Xml.tokensAll doc)
    let q := execEntries ix (upToLemma m (entriesOf doc))
    r.1.ix = q.1 ∧ r.2 = match q.2 with
      | some e => some e
      | none => if m ≤ lemmaCount (entriesOf doc) then some .controlledStop else none := by
  have h1 := (sim_doc (fo := fo) doc (PState.init ix m) rfl ⟨rfl, rfl, rfl⟩ hv).outcome
  obtain ⟨k, rfl⟩ : ∃ k, m = k + 1 := ⟨m - 1, by omega⟩
  have h2 := execCounted_limit (m := k + 1) (entriesOf doc) ix 0 k (by omega)
  exact ⟨h1.1.trans h2.1, h1.2.trans h2.2⟩

/-- C43: no limit for `m = 0` (and negative numbers): see `C40`, where the error is never the controlled stop. -/
theorem C43_unlimited (fo : Str → Bool) (doc : List Xml) (hv : Xml.ValidAll fo [] doc) (ix : Index) (max : Int)
    (hm : max ≤ 0) :
    (PState.run fo (PState.init ix max) (Xml.tokensAll doc)).2 ≠ some .controlledStop := by
  have := C40 fo doc hv ix max hm
  rw [show (PState.run fo (PState.init ix max) (Xml.tokensAll doc)).2 = (execEntries ix (entriesOf doc)).2 from
    congrArg Prod.snd this]
  exact execEntries_ne_stop _ _

/-- What `upToLemma` means: the part kept is a prefix; it has `m` lemmas, or it is everything. -/
theorem upToLemma_prefix (m : Nat) (es : List Entry) : upToLemma m es <+: es ∧
    lemmaCount (upToLemma m es) = min m (lemmaCount es) ∧ (lemmaCount es < m → upToLemma m es = es) := by
  induction es generalizing m with
  | nil => cases m <;> simp [upToLemma, lemmaCount]
  | cons e es ih =>
    cases e with
    | grammeme n p =>
      have e1 : upToLemma m (.grammeme n p :: es) = .grammeme n p :: upToLemma m es := by
        cases m with
        | zero => rfl
        | succ m => cases m <;> rfl
      obtain ⟨a, b, c⟩ := ih m
      rw [e1]
      refine ⟨(List.prefix_cons_inj _).2 a, ?_, ?_⟩
      · simp only [lemmaCount]; exact b
      · intro h; rw [c h]
    | lem fs =>
      match m with
      | 0 => simp [upToLemma, lemmaCount]
      | 1 =>
        refine ⟨⟨es, rfl⟩, ?_, ?_⟩
        · simp only [upToLemma, lemmaCount]; omega
        · intro h; simp only [lemmaCount] at h; omega
      | m + 2 =>
        obtain ⟨a, b, c⟩ := ih (m + 1)
        refine ⟨(List.prefix_cons_inj _).2 a, ?_, ?_⟩
        · simp only [upToLemma, lemmaCount]; omega
        · intro h
          simp only [lemmaCount] at h
          rw [upToLemma, c (by omega)]

/-- The limit 1 on the sample document stops at its only lemma; the limit 2 is not reached. -/
example : (PState.run (fun _ => true) (PState.init Index.new 1) (Xml.tokensAll sampleDoc)).2 = some .controlledStop ∧
    (PState.run (fun _ => true) (PState.init Index.new 2) (Xml.tokensAll sampleDoc)).2 = none := by decide

end Verif
