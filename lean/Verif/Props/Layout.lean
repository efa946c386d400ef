import Verif.Lemmas.LayoutLoad
import Verif.Props.Words
import Verif.Props.Capacity

/-!
# C77 — the bytes of the index file

`Spec/Layout.lean` says what a file looks like, without reference to the program: `FileContents` is what a file contains,
`FileContents.bytes` the file, `readingsOf` how to find the readings of a node, `SpellsWords` what its words are.
-/

namespace Verif

/-- C77, writing: every file saved without an error has the documented layout, and following the documentation one reads
in it the tags, words and readings of the dictionary. -/
theorem C77 {h : List Op} {ix : Index} (r : Run h ix) (hs : ix.save.err = none) :
    ∃ c : FileContents, ix.save.bytes = c.bytes ∧ c.Describes (dictOf h) :=
  ⟨contentsOf ix, r.save_bytes hs, r.describes⟩

/-- C77, reading: every file of the documented layout is loaded, whoever wrote it and whatever follows it. The tags are
those of the file, the number of nodes is, a sequence of characters (not starting with NUL, see C18) is found if and only
if it is one of the words, `Word` returns the words, `TagSets` the readings. -/
theorem C77_load {c : FileContents} (hv : c.Valid) {words : List (List Rune)} (hs : c.SpellsWords words)
    (hnd : words.Nodup) :
    ∃ ix, (∀ rest, Index.new.load (c.bytes ++ rest) = .ok (ix, rest)) ∧
      ix.tags = c.tags.map (fun t => { parent := FileContents.nameIn t.1, name := FileContents.nameIn t.2 }) ∧
      ix.nodesCount = c.nodes.length ∧
      (∀ q, NoLeadingNul q → ∀ id, (ix.fetchRunes q).2 = .ok id ↔ q ≠ [] ∧ words[id.toNat]? = some q) ∧
      (∀ (id : ID) w, words[id.toNat]? = some w → ix.word id = .ok (encodeRunes w)) ∧
      (∀ k L T, 0 < k → c.readingsOf k = some L → FileContents.Resolve ix.tags L T →
        ix.tagSetsOf (UInt32.ofNat k) = .ok T) := by
  have ht := hv.trie hs hnd
  refine ⟨Index.loaded Index.new c.index, hv.load, hv.tags_eq, ?_, ?_, fun id w hw => ht.word_eq hw,
    fun k L T h0 hL hT => hv.readings h0 hL hT⟩
  · rw [ht.nodesCount]
    show words.length - 1 = _
    rw [hs.length]
    omega
  · intro q hq id
    rw [ht.fetchRoot_iff]
    have : Dict.join { nodes := words, words := [], tags := [], readings := [], nul := !(words.contains [0]) } [] q = q := by
      unfold Dict.join
      split
      · cases q with
        | nil => rfl
        | cons a q =>
          have ha : a ≠ 0 := fun h0 => hq (by rw [h0]; rfl)
          rw [List.dropWhile_cons, if_neg (by simpa using ha)]
      · rfl
    rw [this]

/-- C77, size: 38 bytes, 8 for each tag, 2 for each number of tags and 1 more than its tags for each different reading, 4
for each number of readings and 1 more than four times its readings for each different combination, 16 for each node. -/
theorem C77_size {h : List Op} {ix : Index} (r : Run h ix) (hs : ix.save.err = none) :
    ix.save.bytes.length = 38 + 8 * ix.tags.length + (ix.tagSets.map fun t => 2 + (t.map fun s => 1 + s.length).sum).sum +
      (ix.collectionIdx.map fun t => 4 + (t.map fun s => 1 + 4 * s.length).sum).sum + 16 * ix.nodesCount := by
  have hn := (save_err ix).1 hs
  rw [r.save_bytes hs, FileContents.bytes_length]
  · have e4 : (contentsOf ix).nodes.length = ix.nodesCount := by
      have := r.describes.words.length
      rw [r.trie.nodesCount]
      omega
    rw [e4]
    simp only [contentsOf, List.length_map, List.map_map, Function.comp_def]
  · intro t ht
    simp only [contentsOf, List.mem_map] at ht
    obtain ⟨x, hx, rfl⟩ := ht
    exact ⟨fourBytes_length (hn x hx).1, fourBytes_length (hn x hx).2⟩

/-- C77: lookups, successful or not, leave the file the same, byte by byte. -/
theorem C77_lookup (ix : Index) (q : List Rune) (w : Str) :
    (ix.fetchRunes q).1.save = ix.save ∧ (ix.fetchString w).1.save = ix.save :=
  ⟨save_obs (fetchFromItem_obs ix 0 q), save_obs (fetchFromItem_obs ix 0 (decodeRunes w))⟩

/-- C77: adding below a node makes the file longer by 16 bytes for each new node, and by nothing else. -/
theorem C77_growth {h : List Op} {ix : Index} (r : Run h ix) (p : ID) (rs : List Rune)
    (r' : Run (h ++ [.addToNode p rs]) (ix.addToNode p rs).1) (hs : ix.save.err = none) :
    (ix.addToNode p rs).1.save.err = none ∧ ix.nodesCount ≤ (ix.addToNode p rs).1.nodesCount ∧
    (ix.addToNode p rs).1.save.bytes.length =
      ix.save.bytes.length + 16 * ((ix.addToNode p rs).1.nodesCount - ix.nodesCount) := by
  obtain ⟨a1, a2, a3⟩ := addLoop_sections rs p ix p
  have hs' : (ix.addToNode p rs).1.save.err = none := by
    rw [save_err] at hs ⊢
    unfold Index.NamesOK
    unfold Index.addToNode
    rw [a1]
    exact hs
  have hle : ix.nodesCount ≤ (ix.addToNode p rs).1.nodesCount := by
    have e : dictOf (h ++ [.addToNode p rs]) = (dictOf h).insert p.toNat rs := by rw [dictOf_append]; rfl
    have hp : (dictOf h).nodes <+: ((dictOf h).insert p.toNat rs).nodes := by
      unfold Dict.insert
      split
      · exact List.prefix_refl _
      · split
        · exact List.prefix_refl _
        · exact addAll_prefix _ _
    rw [r.trie.nodesCount, r'.trie.nodesCount, e]
    have := hp.length_le
    omega
  refine ⟨hs', hle, ?_⟩
  rw [C77_size r' hs', C77_size r hs]
  unfold Index.addToNode at hle ⊢
  rw [a1, a2, a3]
  omega

/-- A file written by hand: the words "a" and "at", "at" a noun and a verb. -/
def handWritten : FileContents where
  tags := [(str "    ", str "NOUN"), (str "    ", str "VERB"), (str "NOUN", str "sing")]
  sets := [[[1]], [[0, 2]]]
  combos := [[], [[(1, 0), (2, 0)]]]
  nodes := [{ parent := 0, letter := 0x61, readings := none }, { parent := 1, letter := 0x74, readings := some (2, 0) }]

theorem handWritten_valid : handWritten.Valid := by
  constructor
  all_goals first
    | (unfold handWritten; decide)
    | (intro r hr
       simp only [handWritten, List.mem_cons, List.not_mem_nil, or_false] at hr
       rcases hr with rfl | rfl
       · exact ⟨by decide, fun n i e => by cases e⟩
       · refine ⟨by decide, fun n i e => ?_⟩
         obtain ⟨rfl, rfl⟩ := Prod.mk.inj (Option.some.inj e)
         decide)

theorem handWritten_spells : handWritten.SpellsWords [[], [0x61], [0x61, 0x74]] := by
  refine ⟨rfl, rfl, ?_⟩
  intro k r hk
  match k, hk with
  | 0, hk => obtain rfl := Option.some.inj hk; exact ⟨by decide, [], rfl, rfl⟩
  | 1, hk => obtain rfl := Option.some.inj hk; exact ⟨by decide, [0x61], rfl, rfl⟩
  | k + 2, hk => cases hk

/-- The hypotheses of `C77_load` are met, and it says what one expects of that file. -/
example : ∃ ix, Index.new.load handWritten.bytes = .ok (ix, []) ∧ ix.nodesCount = 2 ∧
    (ix.fetchRunes [0x61, 0x74]).2 = .ok 2 ∧
    ix.tagSetsOf 2 = .ok [[⟨str "----", str "VERB"⟩], [⟨str "----", str "NOUN"⟩, ⟨str "NOUN", str "sing"⟩]] := by
  obtain ⟨ix, h1, h2, h3, h4, _, h6⟩ := C77_load handWritten_valid handWritten_spells (by decide)
  refine ⟨ix, by simpa using h1 [], h3, (h4 _ (by unfold NoLeadingNul; decide) 2).2 ⟨by decide, rfl⟩, ?_⟩
  exact h6 2 [[1], [0, 2]] _ (by decide) (by decide) (by rw [h2]; unfold FileContents.Resolve; decide)

/-- The hypotheses of the other statements are met. -/
example : Run (sampleHistory.take 8) (execAll (sampleHistory.take 8)) ∧
    (execAll (sampleHistory.take 8)).save.err = none ∧
    (execAll (sampleHistory.take 8)).save.bytes.length = 38 + 16 + (2 + 2 + 2 + 3) + (4 + 5 + 4 + 9) + 16 * 5 :=
  ⟨small_runs _ (by decide), by decide, by rw [C77_size (small_runs _ (by decide)) (by decide)]; decide⟩

example : Run (sampleHistory.take 8 ++ [.addToNode 2 [0x61, 0x62]])
    ((execAll (sampleHistory.take 8)).addToNode 2 [0x61, 0x62]).1 ∧
    ((execAll (sampleHistory.take 8)).addToNode 2 [0x61, 0x62]).1.nodesCount =
      (execAll (sampleHistory.take 8)).nodesCount + 2 :=
  ⟨small_runs (sampleHistory.take 8 ++ [.addToNode 2 [0x61, 0x62]]) (by decide), by decide⟩

end Verif
