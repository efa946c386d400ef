import Verif.Props.Tool
import Verif.Lemmas.Inspect

/-!
# C75 — the inspection commands of the tool show what the dictionary holds

`tag`, `set` and `var` answer by the numbers the tool itself prints: `node` shows the number of a word's collection,
`var` shows the numbers of its sets.
-/

namespace Verif

/-- `L` lists the different readings with `n` tags attached to any word: all of them, nothing else, none twice. -/
structure ReadingsOfSize (d : Dict) (n : Nat) (L : List (List Str)) : Prop where
  size : ∀ l ∈ L, l.length = n
  sound : ∀ l ∈ L, ∃ k, ∃ names ∈ d.attached k, names.Perm l
  complete : ∀ k, ∀ names ∈ d.attached k, names.length = n → ∃ l ∈ L, names.Perm l
  once : L.Pairwise fun a b => ¬ a.Perm b

/-- The name registered under a tag number. -/
def Dict.tagName (d : Dict) (t : UInt8) : Option Str := (d.tags[t.toNat]?).map (·.name)

/-- The names of a stored set. -/
def setNames (ix : Index) (s : TagSet) : List Str := s.map fun t => (tagOf ix.tags t).name

theorem setNames_perm {h : List Op} {ix : Index} (r : Run h ix) {names : List Str} {ids : TagSet}
    (hf : Index.findAll (dictOf h).tags names = .ok ids) : (setNames ix (sortAsc ids)).Perm names := by
  have := findAll_names r.tag.names r.refines.2.tags hf
  unfold setNames
  rw [r.tag.tags]
  exact ((sortAsc_perm ids).map _).trans (.of_eq this)

theorem mem_table {c : List (List TagSet)} {i : Nat} {s : TagSet} : s ∈ c.getD i [] ↔ ∃ j, gGet c (i, j) = some s :=
  ⟨fun h => List.getElem?_of_mem h, fun ⟨_, hj⟩ => List.mem_of_getElem? hj⟩

theorem readingsOfSize {h : List Op} {ix : Index} (r : Run h ix) (i : Nat) :
    ReadingsOfSize (dictOf h) (i + 1) ((ix.tagSets.getD i []).map (setNames ix)) := by
  have hl := r.refines.2.tags
  constructor
  · intro l hm
    obtain ⟨s, hs, rfl⟩ := List.mem_map.1 hm
    unfold setNames
    rw [List.length_map]
    exact ((r.tag.sets i).2 s hs).1
  · intro l hm
    obtain ⟨s, hs, rfl⟩ := List.mem_map.1 hm
    obtain ⟨j, hj⟩ := mem_table.1 hs
    obtain ⟨k, names, ids, h1, _, h3, rfl⟩ := r.logged _ _ hj
    exact ⟨k, names, mem_attached.2 h1, (setNames_perm r h3).symm⟩
  · intro k names hn hlen
    obtain ⟨_, _, id, ids, hids, hcase⟩ := r.tag.readings k names (mem_attached.1 hn)
    have hll := findAll_length hids
    rcases hcase with ⟨rfl, _⟩ | ⟨_, p, hp, _⟩
    · simp at hll; omega
    · have hlen' := (gGet_sorted r.tag.sets hp).2
      rw [(sortAsc_perm ids).length_eq, hll, hlen] at hlen'
      have hp1 : p.1 = i := by omega
      refine ⟨setNames ix (sortAsc ids), List.mem_map_of_mem (mem_table.2 ⟨p.2, ?_⟩), (setNames_perm r hids).symm⟩
      rw [← hp1]
      exact hp
  · rw [List.pairwise_map]
    refine List.Pairwise.imp_of_mem ?_ (r.tag.sets i).1
    intro a b ha hb hab hperm
    obtain ⟨j, hj⟩ := mem_table.1 ha
    obtain ⟨j', hj'⟩ := mem_table.1 hb
    obtain ⟨_, n1, ids1, _, _, e1, rfl⟩ := r.logged _ _ hj
    obtain ⟨_, n2, ids2, _, _, e2, rfl⟩ := r.logged _ _ hj'
    have hp : n1.Perm n2 := (setNames_perm r e1).symm.trans (hperm.trans (setNames_perm r e2))
    exact hab (sortAsc_eq_iff_perm.2 ((findAll_perm r.tag.names hl e1 e2).2 hp))

theorem processInput_set {lib : Lib} {disk : Option Index} {ix : Index} {line c : Str} {rest : List Str}
    (hc : c = str "set" ∨ c = str "s") (hl : splitSpaces line = c :: rest) :
    (processInput lib disk ix line).2 = processSet lib ix (c :: rest) := by
  have e : ¬ (c = str "tag" ∨ c = str "t") := by rcases hc with rfl | rfl <;> decide
  unfold processInput
  simp only [hl, List.headD_cons]
  rw [if_neg e, if_pos hc]

theorem processInput_var {lib : Lib} {disk : Option Index} {ix : Index} {line c : Str} {rest : List Str}
    (hc : c = str "var" ∨ c = str "v") (hl : splitSpaces line = c :: rest) :
    (processInput lib disk ix line).2 = processVar lib ix (c :: rest) := by
  have e : ¬ (c = str "tag" ∨ c = str "t") ∧ ¬ (c = str "set" ∨ c = str "s") ∧ ¬ (c = str "node" ∨ c = str "n") := by
    rcases hc with rfl | rfl <;> decide
  unfold processInput
  simp only [hl, List.headD_cons]
  rw [if_neg e.1, if_neg e.2.1, if_neg e.2.2, if_pos hc]

theorem processInput_tag {lib : Lib} {disk : Option Index} {ix : Index} {line c : Str} {rest : List Str}
    (hc : c = str "tag" ∨ c = str "t") (hl : splitSpaces line = c :: rest) :
    (processInput lib disk ix line).2 = processTag lib ix (c :: rest) := by
  unfold processInput
  simp only [hl, List.headD_cons]
  rw [if_pos hc]

/-- C75, the tables. There is one table per number of tags; `set tables` shows, for every number of tags, how many
different readings of that size have been attached to words, and `set table i` shows them. -/
theorem C75_tables {h : List Op} {ix : Index} (r : Run h ix) (lib : Lib) (disk : Option Index) (line c : Str)
    (hc : c = str "set" ∨ c = str "s") :
    ∃ tables : List (List (List Str)),
      (∀ i, ReadingsOfSize (dictOf h) (i + 1) (tables.getD i [])) ∧
      (splitSpaces line = [c, str "tables"] →
        (processInput lib disk ix line).2 = .ok (.tables (tables.map List.length))) ∧
      (∀ (i : Nat) (a : Str), splitSpaces line = [c, str "table", a] → atoi a = some (i : Int) → i < tables.length →
        ∃ sets, (processInput lib disk ix line).2 = .ok (.table sets) ∧
          sets.map (List.map (dictOf h).tagName) = (tables.getD i []).map (List.map some)) := by
  refine ⟨ix.tagSets.map (List.map (setNames ix)), ?_, ?_, ?_⟩
  · intro i
    have := readingsOfSize r i
    rw [List.getD_eq_getElem?_getD] at *
    rw [List.getElem?_map]
    cases e : ix.tagSets[i]? with
    | none => rw [e] at this; exact this
    | some t => rw [e] at this; exact this
  · intro hl
    rw [processInput_set hc hl]
    unfold processSet
    simp only
    rw [if_pos trivial, List.map_map]
    congr 2
    apply List.map_congr_left
    intro t _
    simp
  · intro i a hl ha hi
    rw [List.length_map] at hi
    refine ⟨ix.tagSets[i], ?_, ?_⟩
    · rw [processInput_set hc hl]
      unfold processSet
      simp only [ha]
      rw [if_neg (by decide), if_pos trivial, if_neg (by omega)]
      unfold sliceAt
      rw [if_neg (by omega)]
      simp only [Int.toNat_natCast]
      rw [List.getElem?_eq_getElem hi]
      rfl
    · rw [List.getD_eq_getElem?_getD, List.getElem?_map, List.getElem?_eq_getElem hi]
      simp only [Option.map_some, Option.getD_some, List.map_map]
      apply List.map_congr_left
      intro s hs
      simp only [Function.comp]
      unfold setNames
      rw [List.map_map]
      apply List.map_congr_left
      intro t ht
      obtain ⟨j, hj⟩ := List.getElem?_of_mem hs
      have hlt := r.tag.setIds (i, j) s (by unfold gGet; simp [hi, hj]) t ht
      unfold Dict.tagName
      simp only [Function.comp, tagOf]
      rw [r.tag.tags, tagsGet_eq, List.getElem?_eq_getElem hlt]
      rfl

/-- The number of a set, read back. -/
theorem toU32_toNat (k : UInt32) : toU32 (k.toNat : Int) = k := by
  apply UInt32.toNat_inj.1
  unfold toU32
  have := k.toNat_lt
  rw [UInt32.toNat_ofNat', Nat.mod_eq_of_lt (by omega)]
  omega

/-- C75, the readings of a word. The item that `node` shows carries the number of a collection; its upper half is the
number of readings. `var` with that number lists the readings, as names, in the order of `TagSets`, each with a number;
`set` with such a number shows that reading. Missing: words with an empty reading, see `not_C10_hidden`. -/
theorem C75_readings_partial {h : List Op} {ix : Index} (r : Run h ix) (id : ID) (h1 : 1 ≤ id.toNat)
    (h2 : id.toNat ≤ ix.nodesCount) (hne : [] ∉ (dictOf h).attached id.toNat) :
    ∃ (it : Item) (L : List (List Tag)) (numbers : List TagSetID),
      ix.nodeItem id = .ok it ∧ ix.tagSetsOf id = .ok L ∧
      ExactReadings (dictOf h).tags ((dictOf h).attached id.toNat) L ∧
      (variantTableNum it.variants).toNat = L.length ∧ numbers.length = L.length ∧ numbers.Nodup ∧
      ∀ (lib : Lib) (disk : Option Index) (line c a : Str) (rest : List Str), splitSpaces line = c :: a :: rest →
        ((c = str "var" ∨ c = str "v") → lib.parseUint a = some it.variants →
          (processInput lib disk ix line).2 =
            .ok (.variants (numbers.zip (L.map fun ts => some (ts.map fun t => some t.name))))) ∧
        ((c = str "set" ∨ c = str "s") → a ≠ str "tables" → a ≠ str "table" →
          ∀ i n, numbers[i]? = some n → lib.parseInt a = some (n.toNat : Int) →
          (processInput lib disk ix line).2 = .ok (.tagSet ((L.getD i []).map fun t => some t.name))) := by
  have hpos := r.trie.length_pos
  have hlt : id.toNat < (dictOf h).nodes.length := by
    rw [r.trie.nodesCount] at h2; omega
  obtain ⟨it, w, hg, hit, _⟩ := r.trie.items_get h1 hlt
  obtain ⟨c, hcoll, hm⟩ := r.tag.vars id.toNat it hlt hit
  obtain ⟨L, hL, hex⟩ := exactReadings_of r.refines.1 r.caps r.refines.2.tags h1 hlt hne
  have hset : ∀ i ∈ c, ∃ p s, gGet ix.tagSets p = some s ∧ ix.tagSets.get i = some s := by
    intro i hi
    obtain ⟨names, hn, hts⟩ := (hm i).1 hi
    obtain ⟨ids, p, _, hp, _, hg⟩ := hts.get r.caps (by rintro rfl; exact hne (mem_attached.2 hn))
    exact ⟨p, _, hp, hg⟩
  have hLc : L = c.map (entryOf ix) := by
    unfold Index.tagSetsOf at hL
    rw [hg] at hL
    simp only at hL
    rw [hcoll.get r.caps] at hL
    have := Out.ok.inj hL
    rw [← this]
    exact tagSetsLoop_map fun i hi => by
      obtain ⟨_, s, _, hs⟩ := hset i hi
      rw [hs]; rfl
  have hshow : ∀ i ∈ c, (ix.tagSets.get i).map (shownTags ix) = some ((entryOf ix i).map fun t => some t.name) := by
    intro i hi
    obtain ⟨p, s, hp, hs⟩ := hset i hi
    unfold entryOf
    rw [hs, Option.map_some, shownTags_eq r hp]
    simp
  refine ⟨it, L, c, ?_, hL, hex, ?_, ?_, ?_, ?_⟩
  · unfold Index.nodeItem
    rw [hit]
  · rw [hLc, List.length_map]
    rcases hcoll with ⟨hv, rfl⟩ | ⟨p, hp, hv⟩
    · rw [hv]; rfl
    · have hb := (r.caps.coll hp).1
      rw [hv, variantTableNum, packV, upper16_combine16, toNat_ofNat16 (by omega), (gGet_sorted r.tag.colls hp).2]
  · rw [hLc, List.length_map]
  · rcases hcoll with ⟨_, rfl⟩ | ⟨p, hp, _⟩
    · exact List.nodup_nil
    · exact r.tag.collNodup p c hp
  · intro lib disk line cmd a rest hl
    constructor
    · intro hc ha
      rw [processInput_var hc hl]
      unfold processVar
      simp only [ha]
      unfold Index.variants
      rw [hcoll.get r.caps]
      show Out.ok _ = Out.ok _
      congr 2
      rw [hLc, List.map_map]
      have : ∀ l : Coll, (∀ i ∈ l, i ∈ c) → (l.map fun id => (id, (ix.tagSets.get id).map (shownTags ix))) =
          l.zip (l.map ((fun ts : List Tag => some (ts.map fun t => some t.name)) ∘ entryOf ix)) := by
        intro l
        induction l with
        | nil => intro _; rfl
        | cons i l ih =>
          intro hi
          rw [List.map_cons, List.map_cons, List.zip_cons_cons, ih fun j hj => hi j (by simp [hj]),
            hshow i (hi i (by simp))]
          rfl
      exact this c fun i hi => hi
    · intro hc h3 h4 i n hn ha
      have hi := List.mem_of_getElem? hn
      have hsh := hshow n hi
      rw [processInput_set hc hl]
      unfold processSet
      simp only [ha]
      rw [if_neg h3, if_neg h4, toU32_toNat, hLc, List.getD_eq_getElem?_getD, List.getElem?_map, hn]
      simp only [Option.map_some, Option.getD_some]
      cases hs : ix.tagSets.get n with
      | none => rw [hs] at hsh; cases hsh
      | some s =>
        rw [hs, Option.map_some] at hsh
        simp only
        rw [Option.some.inj hsh]

/-- C75, the tags. `tag count` shows their number, `tag k` the `k`-th registered tag, and `tag NAME` the tag of that
name: unless the name is a number or "count", or an earlier name equals it under `strings.EqualFold`. -/
theorem C75_tags_partial {h : List Op} {ix : Index} (r : Run h ix) (lib : Lib) (disk : Option Index) (line c a : Str)
    (hc : c = str "tag" ∨ c = str "t") (hl : splitSpaces line = [c, a]) :
    (a = str "count" → (processInput lib disk ix line).2 = .ok (.tagCount (dictOf h).tags.length)) ∧
    (∀ (k : Nat) (t : Tag), (dictOf h).tags[k]? = some t → atoi a = some (k : Int) →
      (processInput lib disk ix line).2 = .ok (.tag k t)) ∧
    (∀ (k : Nat) (t : Tag), (dictOf h).tags[k]? = some t → t.name = a → a ≠ str "count" → atoi a = none →
      lib.equalFold a a = true → (∀ u ∈ (dictOf h).tags.take k, lib.equalFold u.name a = false) →
      (processInput lib disk ix line).2 = .ok (.tag k t)) ∧
    (a ≠ str "count" → atoi a = none → (∀ t ∈ (dictOf h).tags, lib.equalFold t.name a = false) →
      (processInput lib disk ix line).2 = .ok .message) := by
  rw [processInput_tag hc hl]
  unfold processTag
  simp only
  rw [r.tag.tags]
  generalize (dictOf h).tags = tags
  refine ⟨fun ha => by rw [if_pos ha], fun k t ht ha => ?_, fun k t ht hn hcnt hat hrefl hbefore => ?_,
    fun hcnt hat hno => ?_⟩
  · have hlt := (List.getElem?_eq_some_iff.1 ht).1
    have hcnt : a ≠ str "count" := by
      rintro rfl
      rw [show atoi (str "count") = none from by decide] at ha
      cases ha
    rw [if_neg hcnt, ha]
    simp only
    rw [if_neg (by omega)]
    unfold sliceAt
    rw [if_neg (by omega), Int.toNat_natCast, ht]
    rfl
  · rw [if_neg hcnt, hat]
    simp only
    have hlt := (List.getElem?_eq_some_iff.1 ht).1
    have hfind : tags.zipIdx.find? (fun e => lib.equalFold e.1.name a) = some (t, k) := by
      rw [List.find?_eq_some_iff_getElem]
      refine ⟨by rw [hn]; exact hrefl, k, by rw [List.length_zipIdx]; exact hlt, ?_, ?_⟩
      · rw [List.getElem_zipIdx]
        obtain ⟨_, he⟩ := List.getElem?_eq_some_iff.1 ht
        rw [he, Nat.zero_add]
      · intro j hj
        rw [List.getElem_zipIdx]
        have := hbefore (tags[j]) (List.mem_take_iff_getElem.2 ⟨j, by omega, rfl⟩)
        simp only
        rw [this]
        rfl
    rw [hfind]
  · rw [if_neg hcnt, hat]
    simp only
    have hfind : tags.zipIdx.find? (fun e => lib.equalFold e.1.name a) = none := by
      rw [List.find?_eq_none]
      rintro ⟨t, i⟩ hm
      rw [hno t (List.fst_mem_of_mem_zipIdx hm)]
      decide
    rw [hfind]

/-- C75 does not hold for names that are numbers: such a tag is not found by its name, whatever the library does. -/
theorem not_C75_number (lib : Lib) (disk : Option Index) :
    ∃ h ix, Run h ix ∧ (dictOf h).tags = [newTag [] (str "2009")] ∧
      (processInput lib disk ix (str "tag 2009")).2 = .ok .message :=
  ⟨[.tagID (str "2009") []], execAll [.tagID (str "2009") []], small_runs _ (by decide), by decide, rfl⟩

/-- Nor for names that differ in case only: the first one is shown for both. -/
theorem not_C75_case (lib : Lib) (disk : Option Index) (hf : lib.equalFold (str "noun") (str "NOUN") = true) :
    ∃ h ix, Run h ix ∧ newTag [] (str "NOUN") ∈ (dictOf h).tags ∧
      (processInput lib disk ix (str "tag NOUN")).2 = .ok (.tag 0 (newTag [] (str "noun"))) := by
  refine ⟨[.tagID (str "noun") [], .tagID (str "NOUN") []], execAll [.tagID (str "noun") [], .tagID (str "NOUN") []],
    small_runs _ (by decide), by decide, ?_⟩
  rw [processInput_tag (c := str "tag") (rest := [str "NOUN"]) (.inl rfl) (by decide)]
  unfold processTag
  simp only
  rw [if_neg (by decide), show atoi (str "NOUN") = none from by decide]
  simp only
  rw [show (execAll [.tagID (str "noun") [], .tagID (str "NOUN") []]).tags.zipIdx =
      [(newTag [] (str "noun"), 0), (newTag [] (str "NOUN"), 1)] from by decide]
  simp only [List.find?_cons, show (newTag [] (str "noun")).name = str "noun" from rfl, hf]

/-- A word with two readings, and a library that reads the one number needed. -/
def twoReadings : List Op :=
  [.tagID (str "NOUN") [], .tagID (str "sing") [], .addString (str "at"), .addTagSet 2 [str "NOUN"],
    .addTagSet 2 [str "sing", str "NOUN"], .addTagSet 1 [str "NOUN", str "sing"]]

/-- Reads every number as the collection of the word above. -/
def someLib : Lib := { parseInt := fun _ => some 65536, parseUint := fun _ => some 131072, equalFold := fun a b => a == b }

/-- The hypotheses are met: the word has the collection 131072 = 2·65536 + 0, its sets are 0 and 65536. -/
example : Run twoReadings (execAll twoReadings) ∧ 2 ≤ (execAll twoReadings).nodesCount ∧
    [] ∉ (dictOf twoReadings).attached 2 ∧
    splitSpaces (str "var 131072") = [str "var", str "131072"] ∧
    ((execAll twoReadings).nodeItem 2 = .ok { parent := 1, variants := 131072, id := 2, letter := 0x74 }) ∧
    (processInput someLib none (execAll twoReadings) (str "var 131072")).2 =
      .ok (.variants [(0, some [some (str "NOUN")]), (65536, some [some (str "NOUN"), some (str "sing")])]) ∧
    (processInput someLib none (execAll twoReadings) (str "set 65536")).2 =
      .ok (.tagSet [some (str "NOUN"), some (str "sing")]) ∧
    (processInput someLib none (execAll twoReadings) (str "set tables")).2 = .ok (.tables [1, 1]) ∧
    (processInput someLib none (execAll twoReadings) (str "set table 1")).2 = .ok (.table [[0, 1]]) ∧
    (processInput someLib none (execAll twoReadings) (str "tag sing")).2 = .ok (.tag 1 (newTag [] (str "sing"))) :=
  ⟨small_runs _ (by decide), by decide, by decide, by decide, rfl, rfl, rfl, rfl, rfl, rfl⟩

end Verif
