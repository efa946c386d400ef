import Verif.Lemmas.Session
import Verif.Props.Capacity

/-!
# C74 — what a caller does with an answer does not change the dictionary

A session (`Model/Session.lean`) is a list of calls and of the caller's own assignments to what it was given:
`callsIn acts` are its calls. The property: after every session the index answers as after its calls alone. It holds for
the readings (`TagSets`) and fails for `Tags`, `GetChildrenIDMap`, `TagSetIndex` and `Variants`, which hand out what the
index itself works with.
-/

namespace Verif

/-- C74 for the readings: whatever the caller assigns to the slices that `TagSets` returned, or appends to them, at any
time between any calls, the index is the one the calls alone lead to. For every growth policy of `append`. -/
theorem C74_partial (grow : Growth Tag) (acts : List Act) (own : ∀ x ∈ acts, x.OnReadings) {ix : Index}
    (r : Run (callsIn acts) ix) : (Session.run grow acts).value = ix :=
  (Session.run_ok grow acts own r).2

/-- What `TagSets` returns are the readings at that moment, in slices of the caller's own. -/
theorem C74_answer (grow : Growth Tag) (acts : List Act) (own : ∀ x ∈ acts, x.OnReadings) {ix : Index}
    (r : Run (callsIn acts) ix) {id : ID} {L : List (List Tag)} (h : ix.tagSetsOf id = .ok L) :
    ∃ new, (Session.run grow (acts ++ [.readings id])).held = (Session.run grow acts).held ++ new ∧
      new.map (Session.run grow (acts ++ [.readings id])).arrays.read = L := by
  have e := C74_partial grow acts own r
  rw [Session.run_snoc]
  unfold Session.act
  simp only
  rw [e, h]
  exact ⟨_, rfl, (HIndex.allocTable_spec L _).2.2⟩

/-! ## The other answers are the index's own data -/

/-- `append` doubling the capacity, as Go's does for short slices. -/
def doubling : Growth Tag := fun _ s n => s.len - n

/-- One tag and two words with the reading `NOUN`. -/
def twoNouns : List Act :=
  [.call (.tagID (str "NOUN") []), .call (.addString (str "a")), .call (.addString (str "b")),
    .call (.addTagSet 1 [str "NOUN"]), .call (.addTagSet 2 [str "NOUN"])]

/-- `idx.Tags()[0].Name = "XXXX"` renames the tag in every reading. -/
theorem not_C74_tags : ∃ acts ix, Run (callsIn acts) ix ∧
    ix.tagSetsOf 1 = .ok [[newTag [] (str "NOUN")]] ∧
    (Session.run doubling acts).value.tagSetsOf 1 = .ok [[newTag [] (str "XXXX")]] :=
  ⟨twoNouns ++ [.tags, .store 0 0 (newTag [] (str "XXXX"))], _, small_runs _ (by decide), by decide, rfl⟩

/-- `idx.GetChildrenIDMap(0)['c'] = 1`: the word "c", never added, is found; it is the node of "a". -/
theorem not_C74_children : ∃ acts ix, Run (callsIn acts) ix ∧
    (ix.fetchString (str "c")).2 = .err (.notFound [] 0x63) ∧
    ((Session.run doubling acts).value.fetchString (str "c")).2 = .ok 1 ∧
    (Session.run doubling acts).value.word 1 = .ok (str "a") :=
  ⟨twoNouns ++ [.setChild 0 0x63 1], _, small_runs _ (by decide), by decide, rfl, rfl⟩

/-- `ts, _ := idx.TagSetIndex().Get(0); ts[0] = 7`: the reading of two words is a tag without a name. -/
theorem not_C74_sets : ∃ acts ix, Run (callsIn acts) ix ∧
    ix.tagSetsOf 2 = .ok [[newTag [] (str "NOUN")]] ∧
    (Session.run doubling acts).value.tagSetsOf 1 = .ok [[{ parent := [], name := [] }]] ∧
    (Session.run doubling acts).value.tagSetsOf 2 = .ok [[{ parent := [], name := [] }]] :=
  ⟨twoNouns ++ [.setTagID 0 0 7], _, small_runs _ (by decide), by decide, rfl, rfl⟩

/-- `c, _ := idx.Variants(0x10000); c[0] = 5`: the reading of two words is lost. -/
theorem not_C74_variants : ∃ acts ix, Run (callsIn acts) ix ∧
    ix.tagSetsOf 2 = .ok [[newTag [] (str "NOUN")]] ∧
    (Session.run doubling acts).value.tagSetsOf 1 = .ok [[]] ∧ (Session.run doubling acts).value.tagSetsOf 2 = .ok [[]] :=
  ⟨twoNouns ++ [.setReading 0x10000 0 5], _, small_runs _ (by decide), by decide, rfl, rfl⟩

/-- Three tags, `tags := idx.Tags()`, a fourth tag and a word with it, then `tags.Index("XXXX", "")`: the caller's new tag
takes the place of the fourth tag of the index. No element was assigned. -/
theorem not_C74_registered : ∃ acts ix, Run (callsIn acts) ix ∧
    (∀ k i t, Act.store k i t ∉ acts) ∧
    ix.tagSetsOf 1 = .ok [[newTag [] (str "DDDD")]] ∧
    (Session.run doubling acts).value.tagSetsOf 1 = .ok [[newTag [] (str "XXXX")]] :=
  ⟨[.call (.tagID (str "AAAA") []), .call (.tagID (str "BBBB") []), .call (.tagID (str "CCCC") []), .tags,
      .call (.tagID (str "DDDD") []), .call (.addString (str "a")), .call (.addTagSet 1 [str "DDDD"]),
      .push 0 (newTag [] (str "XXXX"))], _, small_runs _ (by decide),
    by intro k i t h; simp at h, by decide, rfl⟩

/-! ## The hypotheses are met -/

/-- A session that scribbles over everything `TagSets` returned, between calls. -/
def scribbles : List Act :=
  twoNouns ++ [.readings 1, .store 0 0 (newTag [] (str "XXXX")), .push 0 (newTag [] (str "YYYY")),
    .call (.tagID (str "VERB") []), .store 0 1 (newTag [] (str "ZZZZ")), .call (.addTagSet 1 [str "VERB"])]

example : (∀ x ∈ scribbles, x.OnReadings) ∧ Run (callsIn scribbles) (execAll (callsIn scribbles)) :=
  ⟨by decide, small_runs _ (by decide)⟩

/-- The caller sees what it has written, the index does not. -/
example : (Session.run doubling scribbles).held.map (Session.run doubling scribbles).arrays.read =
      [[newTag [] (str "XXXX"), newTag [] (str "ZZZZ")]] ∧
    (Session.run doubling scribbles).value.tagSetsOf 1 =
      .ok [[newTag [] (str "NOUN")], [newTag [] (str "VERB")]] := by
  refine ⟨rfl, rfl⟩

end Verif
