import Verif.Lemmas.ParserLogItems
import Verif.Lemmas.ParserLogClosed
import Verif.Props.Larger

/-!
# C122 — what the parser logs is what it imported

`PState.runLog` (`Model/ParserLog.lean`) is what the parser writes to its log for the tokens of a document; `wordsIn`
(`Spec/ParserLog.lean`) picks the reports about forms: the item of the index that is shown, the spelling, the tags.
`wanted` are the entries an import with a limit is to process.
-/

namespace Verif

open PState

theorem wanted_prefix (max : Int) (es : List Entry) : wanted max es <+: es := by
  unfold wanted
  split
  · exact (upToLemma_prefix _ _).1
  · exact List.prefix_refl _

/-- The outcome, with or without a limit. -/
theorem outcome_wanted {fo : Str → Bool} {doc : List Xml} (hv : Xml.ValidAll fo [] doc) (ix : Index) (max : Int) :
    let r := PState.run fo (PState.init ix max) (Xml.tokensAll doc)
    let q := execEntries ix (wanted max (entriesOf doc))
    r.1.ix = q.1 ∧ (∀ e, q.2 = some e → r.2 = some e ∧ e ≠ .controlledStop) ∧
      (q.2 = none → r.2 = none ∨ r.2 = some .controlledStop) := by
  intro r q
  have hq : ∀ e, q.2 = some e → e ≠ .controlledStop := by
    rintro e he rfl
    exact execEntries_ne_stop _ _ he
  by_cases h : 0 < max
  · obtain ⟨m, rfl⟩ : ∃ m : Nat, max = (m : Int) := ⟨max.toNat, by omega⟩
    obtain ⟨h1, h2⟩ := C43 fo doc hv ix m (by omega)
    have e : q = execEntries ix (upToLemma m (entriesOf doc)) := by
      show execEntries ix (wanted (m : Int) _) = _
      unfold wanted
      rw [if_pos h]
      rfl
    rw [← e] at h1 h2
    refine ⟨h1, fun x hx => ?_, fun hx => ?_⟩
    · rw [hx] at h2
      exact ⟨h2, hq x hx⟩
    · rw [hx] at h2
      simp only at h2
      show r.2 = none ∨ r.2 = _
      rw [show r.2 = _ from h2]
      split
      · exact .inr rfl
      · exact .inl rfl
  · have h1 := C40 fo doc hv ix max (by omega)
    have e : q = execEntries ix (entriesOf doc) := by
      show execEntries ix (wanted max _) = _
      unfold wanted
      rw [if_neg h]
    rw [← e] at h1
    refine ⟨congrArg Prod.fst h1, fun x hx => ⟨?_, hq x hx⟩, fun hx => .inl ?_⟩
    · exact (congrArg Prod.snd h1).trans hx
    · exact (congrArg Prod.snd h1).trans hx

/-- C122: for every document of the format and every index, the forms in the log are exactly the forms the import
accepted, in document order, each with its spelling and its tags (those of the lemma, then its own). If the import
succeeds or stops at the limit, these are all the forms it was to process. If it fails, the log ends at the last form
accepted, and the next form of the document is the one the index rejected, with that error. -/
theorem C122 (fo : Str → Bool) (doc : List Xml) (hv : Xml.ValidAll fo [] doc) (ix : Index) (max : Int) :
    let r := PState.run fo (PState.init ix max) (Xml.tokensAll doc)
    let told := (wordsIn (PState.runLog fo (PState.init ix max) (Xml.tokensAll doc))).map fun x => (x.2.1, x.2.2)
    (r.2 = none ∨ r.2 = some .controlledStop → told = allForms (wanted max (entriesOf doc))) ∧
    ∀ e, r.2 = some e → e ≠ .controlledStop → ∃ f, RejectsAfter ix (wanted max (entriesOf doc)) told f e := by
  intro r told
  obtain ⟨_, o2, o3⟩ := outcome_wanted hv ix max
  obtain ⟨a, b⟩ := entryLines_forms (wanted max (entriesOf doc)) ix
  have ht : told = (entryLines ix (wanted max (entriesOf doc))).map (·.2) := by
    show (wordsIn _).map _ = _
    rw [words_doc hv]
  rw [ht]
  cases hq : (execEntries ix (wanted max (entriesOf doc))).2 with
  | none =>
    refine ⟨fun _ => a hq, fun e he hne => ?_⟩
    rcases o3 hq with h | h
    · rw [show r.2 = none from h] at he; cases he
    · rw [show r.2 = _ from h] at he; cases he; exact absurd rfl hne
  | some x =>
    obtain ⟨h1, h2⟩ := o2 x hq
    refine ⟨fun h => ?_, fun e he _ => ?_⟩
    · rcases h with h | h
      · rw [show r.2 = _ from h1] at h; cases h
      · rw [show r.2 = _ from h1] at h; cases h; exact absurd rfl h2
    · rw [show r.2 = _ from h1] at he
      cases he
      exact b x hq

/-- C122: the node a report shows is the node of its word. In a new index and for a document within its capacity, the
ID in a report is the ID a search for the word gives after the import; the parent in a report is the node of the word
without its last letter (or the root); and the last report about a word shows the item of the index as it is after the
import, with the number of all the readings of the word. -/
theorem C122_items (fo : Str → Bool) (doc : List Xml) (hv : Xml.ValidAll fo [] doc) (max : Int)
    (hd : Declared (entriesOf doc)) (m : DocRoom (entriesOf doc)) (a b : List (Item × Str × List Str)) (it : Item)
    (w : Str) (tags : List Str)
    (hw : wordsIn (PState.runLog fo (PState.init Index.new max) (Xml.tokensAll doc)) = a ++ (it, w, tags) :: b) :
    let ix := (PState.run fo (PState.init Index.new max) (Xml.tokensAll doc)).1.ix
    (ix.fetchString w).2 = .ok it.id ∧
    ((decodeRunes w).dropLast = [] ∧ it.parent = 0 ∨ (ix.fetchRunes (decodeRunes w).dropLast).2 = .ok it.parent) ∧
    (decodeRunes w).getLast? = some it.letter ∧
    ((∀ x ∈ b, decodeRunes x.2.1 ≠ decodeRunes w) → ix.items.get it.id = some it) := by
  intro ix
  obtain ⟨o1, _⟩ := outcome_wanted hv Index.new max
  obtain ⟨l1, l2⟩ := limited_run hd m (wanted_prefix max (entriesOf doc))
  have hix : ix = execAll (callsOf (wanted max (entriesOf doc))) := by
    show (PState.run fo (PState.init Index.new max) (Xml.tokensAll doc)).1.ix = _
    rw [o1, l1]
  rw [words_doc hv] at hw
  obtain ⟨s1, s2⟩ := entries_steps (wanted max (entriesOf doc)) Index.new
  rw [s2] at hw
  rw [s1] at l1
  rw [← hix] at l1 l2
  have hplain := callsOf_plain (wanted max (entriesOf doc))
  have ec : callsOf (wanted max (entriesOf doc)) = [] ++ stepCalls (dictOf []) (stepsOf (wanted max (entriesOf doc))) :=
    importCalls_steps ..
  clear_value ix
  rw [ec] at l2 hplain
  obtain ⟨k0, k1, it', k2, k3⟩ := steps_lines _ Run.nil (by unfold NoReload; simp) Holds.empty l1 l2 hw
  have h0 : 0 < it.id.toNat := by
    rcases Nat.eq_zero_or_pos it.id.toNat with h0 | h0
    · rw [h0, l2.trie.root] at k1
      exact absurd ((C50_empty w).1 (Option.some.inj k1).symm) k0
    · exact h0
  have hlt := (List.getElem?_eq_some_iff.1 k1).1
  obtain ⟨it0, v, i1, i2, i3, i4, i5⟩ := l2.trie.item _ h0 hlt
  rw [k2] at i1
  obtain rfl := Option.some.inj i1
  rw [k1] at i5
  have hdec := Option.some.inj i5
  rw [k3.parent] at i4
  refine ⟨?_, ?_, ?_, fun hlast => ?_⟩
  · unfold Index.fetchString
    rw [l2.trie.fetchRoot_iff, Run.root_join (.inl hplain)]
    exact ⟨fun e => k0 ((C50_empty w).1 e), k1⟩
  · rw [hdec, List.dropLast_concat]
    by_cases hv0 : v = []
    · left
      refine ⟨hv0, ?_⟩
      rw [hv0] at i4
      have := (List.getElem?_inj (List.getElem?_eq_some_iff.1 i4).1 l2.trie.nodup).1 (i4.trans l2.trie.root.symm)
      exact UInt32.toNat_inj.1 this
    · right
      rw [l2.trie.fetchRoot_iff, Run.root_join (.inl hplain)]
      exact ⟨hv0, i4⟩
  · rw [hdec, List.getLast?_concat, k3.letter]
  · unfold Items.get
    rw [if_neg (by omega), l2.trie.next, if_neg (by omega), k2, k3.same hlast]

/-- C122: the end of a document is in the log. If the document has one `dictionary` element, "< .dictionary" is logged
once if the import got to the end of it, and not at all if it failed or stopped at the limit. -/
theorem C122_closed (fo : Str → Bool) (pre post : List Xml) (as : List XAttr) (ks : List Xml)
    (hp : ∀ x ∈ pre ++ post, ∀ n as ks, x ≠ .elem n as ks) (ix : Index) (max : Int) :
    let doc := pre ++ .elem (str "dictionary") as ks :: post
    let r := PState.run fo (PState.init ix max) (Xml.tokensAll doc)
    let log := PState.runLog fo (PState.init ix max) (Xml.tokensAll doc)
    (r.2 = none → closedIn log = [str ".dictionary"]) ∧ (r.2 ≠ none → closedIn log = []) := by
  intro doc r log
  have e : Xml.tokensAll doc = Xml.tokensAll pre ++ (Xml.tokens (.elem (str "dictionary") as ks) ++ Xml.tokensAll post) := by
    show Xml.tokensAll (pre ++ _ :: post) = _
    rw [tokensAll_append, Xml.tokensAll]
  show ((run _ _ _).2 = none → closedIn (runLog _ _ _) = _) ∧ ((run _ _ _).2 ≠ none → closedIn (runLog _ _ _) = _)
  rw [e]
  obtain ⟨p1, p2⟩ := quiet_outside (fo := fo) pre (fun x hx => hp x (List.mem_append_left _ hx)) (PState.init ix max) rfl
  obtain ⟨c1, c2⟩ := closed_dictionary (fo := fo) (as := as) (ks := ks) (PState.init ix max) rfl
  rw [runLog_append, run_append, p1]
  simp only [closedIn_append, p2, List.nil_append]
  rw [runLog_append, run_append, closedIn_append]
  cases hr : run fo (PState.init ix max) (Xml.tokens (.elem (str "dictionary") as ks)) with
  | mk s o =>
    rw [hr] at c1 c2
    cases o with
    | some e =>
      rw [c2 nofun]
      exact ⟨nofun, fun _ => rfl⟩
    | none =>
      obtain ⟨q1, q2⟩ := quiet_outside (fo := fo) post (fun x hx => hp x (List.mem_append_right _ hx)) s (path_dictionary hr)
      rw [c1 rfl]
      simp only [q1, q2]
      exact ⟨fun _ => rfl, fun h => absurd rfl h⟩

/-! A document with a word that has two readings. -/

/-- Two lemmas that share the form "cat". -/
def twiceDoc : List Xml :=
  [.elem (str "dictionary") [] [
    .elem (str "grammemes") [] [
      .elem (str "grammeme") [⟨str "parent", []⟩] [.elem (str "name") [] [.text (str "NOUN")]],
      .elem (str "grammeme") [⟨str "parent", []⟩] [.elem (str "name") [] [.text (str "VERB")]]],
    .elem (str "lemmata") [] [
      .elem (str "lemma") [⟨str "id", str "1"⟩, ⟨str "rev", str "1"⟩] [
        .elem (str "l") [⟨str "t", str "cat"⟩] [.elem (str "g") [⟨str "v", str "NOUN"⟩] []],
        .elem (str "f") [⟨str "t", str "cat"⟩] []],
      .elem (str "lemma") [⟨str "id", str "2"⟩, ⟨str "rev", str "1"⟩] [
        .elem (str "l") [⟨str "t", str "cat"⟩] [.elem (str "g") [⟨str "v", str "VERB"⟩] []],
        .elem (str "f") [⟨str "t", str "cat"⟩] [],
        .elem (str "f") [⟨str "t", str "ca"⟩] [.elem (str "g") [⟨str "v", str "NOUN"⟩] []]]]]]

theorem twiceDoc_valid : Xml.ValidAll (fun _ => true) [] twiceDoc := by decide

theorem twiceDoc_declared : Declared (entriesOf twiceDoc) := declared_of_check _ (by decide)

theorem twiceDoc_room : DocRoom (entriesOf twiceDoc) := by
  apply DocSmall.room
  have e : entriesOf twiceDoc = [.grammeme (str "NOUN") [], .grammeme (str "VERB") [], .lem [(str "cat", [str "NOUN"])],
    .lem [(str "cat", [str "VERB"]), (str "ca", [str "VERB", str "NOUN"])]] := by decide
  rw [e]
  constructor <;> decide

/-- What is logged: the word "cat" twice, with the numbers of one and of two readings, then "ca". -/
example : (wordsIn (PState.runLog (fun _ => true) (PState.init Index.new 0) (Xml.tokensAll twiceDoc))).map
      (fun x => (x.1.id, x.1.parent, x.2)) =
    [(3, 2, str "cat", [str "NOUN"]), (3, 2, str "cat", [str "VERB"]), (2, 1, str "ca", [str "VERB", str "NOUN"])] := by
  decide

/-- The same with a limit of one lemma: only the first. -/
example : let s := PState.init Index.new 1
    (PState.run (fun _ => true) s (Xml.tokensAll twiceDoc)).2 = some .controlledStop ∧
      (wordsIn (PState.runLog (fun _ => true) s (Xml.tokensAll twiceDoc))).map (·.2) = [(str "cat", [str "NOUN"])] ∧
      closedIn (PState.runLog (fun _ => true) s (Xml.tokensAll twiceDoc)) = [] := by
  decide

/-- What C122 says about it: the second report about "cat" shows the final item, the first one does not. -/
example : let r := PState.run (fun _ => true) (PState.init Index.new 0) (Xml.tokensAll twiceDoc)
    ∃ i1 i2 i3, wordsIn (PState.runLog (fun _ => true) (PState.init Index.new 0) (Xml.tokensAll twiceDoc)) =
        [(i1, str "cat", [str "NOUN"]), (i2, str "cat", [str "VERB"]), (i3, str "ca", [str "VERB", str "NOUN"])] ∧
      (r.1.ix.fetchString (str "cat")).2 = .ok i2.id ∧ r.1.ix.items.get i2.id = some i2 ∧ i1 ≠ i2 := by
  have e : wordsIn (PState.runLog (fun _ => true) (PState.init Index.new 0) (Xml.tokensAll twiceDoc)) =
      [(⟨2, 3, 0x74, 0x10000⟩, str "cat", [str "NOUN"])] ++ (⟨2, 3, 0x74, 0x20000⟩, str "cat", [str "VERB"]) ::
        [(⟨1, 2, 0x61, 0x10001⟩, str "ca", [str "VERB", str "NOUN"])] := by decide
  have h := C122_items _ twiceDoc twiceDoc_valid 0 twiceDoc_declared twiceDoc_room _ _ _ _ _ e
  exact ⟨_, _, _, e, h.1, h.2.2.2 (by decide), by decide⟩

/-- A document with a tag that is not declared: the log has the form before it, then nothing. -/
example : let doc : List Xml := [.elem (str "dictionary") [] [
      .elem (str "grammemes") [] [
        .elem (str "grammeme") [⟨str "parent", []⟩] [.elem (str "name") [] [.text (str "NOUN")]]],
      .elem (str "lemmata") [] [
        .elem (str "lemma") [⟨str "id", str "1"⟩, ⟨str "rev", str "1"⟩] [
          .elem (str "f") [⟨str "t", str "a"⟩] [.elem (str "g") [⟨str "v", str "NOUN"⟩] []],
          .elem (str "f") [⟨str "t", str "b"⟩] [.elem (str "g") [⟨str "v", str "VERB"⟩] []],
          .elem (str "f") [⟨str "t", str "c"⟩] [.elem (str "g") [⟨str "v", str "NOUN"⟩] []]]]]]
    Xml.ValidAll (fun _ => true) [] doc ∧
      (PState.run (fun _ => true) (PState.init Index.new 0) (Xml.tokensAll doc)).2 =
        some (.index (.unknownTag (str "VERB"))) ∧
      (wordsIn (PState.runLog (fun _ => true) (PState.init Index.new 0) (Xml.tokensAll doc))).map (·.2) =
        [(str "a", [str "NOUN"])] := by
  decide

end Verif
