import Verif.Props.Inspect
import Verif.Props.Exact

/-! # C75, exactly: what `var`, `set` and `tag` show for any word and any name -/

namespace Verif

/-- An entry of `var` shows a reading: some order of its tags; of a reading without tags, "not found". -/
def ShowsReading (names : List Str) (e : Option (List Str)) : Prop :=
  match e with
  | none => names = []
  | some l => names ≠ [] ∧ l.Perm names

/-- The entries show all the readings, nothing else, none twice. -/
structure ShowsExactly (A : List (List Str)) (E : List (Option (List Str))) : Prop where
  complete : ∀ names ∈ A, ∃ e ∈ E, ShowsReading names e
  sound : ∀ e ∈ E, ∃ names ∈ A, ShowsReading names e
  once : E.Pairwise fun a b => ¬ ∃ names, ShowsReading names a ∧ ShowsReading names b

/-- The readings as `var` takes them: for an empty one, the first one-tag reading of the dictionary, if there is one. -/
def Dict.varReadings (d : Dict) (k : Nat) : List (List Str) :=
  (d.attached k).map fun names => if names = [] then d.firstSingle.toList else names

theorem tsid_first {h : List Op} {ix : Index} (r : Run h ix) {x : Str} (hx : (dictOf h).firstSingle = some x) :
    TSId (dictOf h).tags ix.tagSets [x] 0 := by
  have hfs := r.firstSet
  rw [hx] at hfs
  simp only [Option.bind_some] at hfs
  obtain ⟨⟨k, names⟩, hmr, hnm⟩ := List.exists_of_findSome?_eq_some hx
  have hone : names = [x] := singleName_some hnm
  subst hone
  obtain ⟨_, _, _, ids, hids, _⟩ := r.tag.readings k [x] hmr
  have hall := all_hasTag_iff (d := dictOf h).2 ⟨ids, hids⟩
  simp only [List.all_cons, List.all_nil, Bool.and_true] at hall
  obtain ⟨i, hi⟩ := hasTag_iff.1 hall
  rw [hi] at hfs
  simp only [Option.map_some] at hfs
  have hfa : Index.findAll (dictOf h).tags [x] = .ok [i] := by
    rw [findAll_ok]; exact List.Forall₂.cons hi List.Forall₂.nil
  exact ⟨[i], hfa, .inr ⟨by simp, (0, 0), hfs, rfl⟩⟩

/-- What the set of a reading is, as names. -/
theorem shows_entry {h : List Op} {ix : Index} (r : Run h ix) {names : List Str} {i : TagSetID}
    (hi : TSId (dictOf h).tags ix.tagSets names i) :
    ShowsReading (if names = [] then (dictOf h).firstSingle.toList else names)
        ((ix.tagSets.get i).map (setNames ix)) ∧
      ∀ s, ix.tagSets.get i = some s → shownTags ix s = (setNames ix s).map some := by
  have main : ∀ names : List Str, names ≠ [] → TSId (dictOf h).tags ix.tagSets names i →
      ShowsReading names ((ix.tagSets.get i).map (setNames ix)) ∧
        ∀ s, ix.tagSets.get i = some s → shownTags ix s = (setNames ix s).map some := by
    intro names hne hi
    obtain ⟨ids, p, h1, hp, _, hg⟩ := hi.get r.caps hne
    rw [hg]
    refine ⟨⟨hne, setNames_perm r h1⟩, ?_⟩
    rintro s hs
    cases hs
    rw [shownTags_eq r hp, setNames, List.map_map]
    rfl
  by_cases hz : names = []
  · subst hz
    rw [if_pos rfl]
    have h0 : i = 0 := hi.unique r.tag.sets ⟨[], rfl, .inl ⟨rfl, rfl⟩⟩
    subst h0
    cases hx : (dictOf h).firstSingle with
    | some x => exact main [x] (by simp) (tsid_first r hx)
    | none =>
      have hfs := r.firstSet
      rw [hx] at hfs
      have hg : ix.tagSets.get 0 = none := by rw [TagSetIndex.get_eq]; exact hfs
      rw [hg]
      exact ⟨rfl, fun s hs => by cases hs⟩
  · rw [if_neg hz]
    exact main names hz hi

/-- **C75, the readings of any word, exactly.** The collection number that `node` shows has in its upper half the number
of entries; `var` with that number lists them: for every attached reading one, with a number; for an empty reading the
first one-tag reading of the whole dictionary, or "not found" if the dictionary has none. `set` with such a number shows
the same, and an error message for "not found". If nothing is "not found" these are the readings `TagSets` returns, in
that order. -/
theorem C75_readings_exact {h : List Op} {ix : Index} (r : Run h ix) (id : ID) (h1 : 1 ≤ id.toNat)
    (h2 : id.toNat ≤ ix.nodesCount) :
    ∃ (it : Item) (shown : List (TagSetID × Option (List Str))),
      ix.nodeItem id = .ok it ∧ (variantTableNum it.variants).toNat = shown.length ∧ (shown.map (·.1)).Nodup ∧
      ShowsExactly ((dictOf h).varReadings id.toNat) (shown.map (·.2)) ∧
      ((∀ e ∈ shown, e.2 ≠ none) →
        ∃ L, ix.tagSetsOf id = .ok L ∧ shown.map (·.2) = L.map fun t => some (tagNames t)) ∧
      ∀ (lib : Lib) (disk : Option Index) (line c a : Str) (rest : List Str), splitSpaces line = c :: a :: rest →
        ((c = str "var" ∨ c = str "v") → lib.parseUint a = some it.variants →
          (processInput lib disk ix line).2 =
            .ok (.variants (shown.map fun e => (e.1, e.2.map fun names => names.map some)))) ∧
        ((c = str "set" ∨ c = str "s") → a ≠ str "tables" → a ≠ str "table" →
          ∀ e ∈ shown, lib.parseInt a = some (e.1.toNat : Int) →
          (processInput lib disk ix line).2 = .ok (match e.2 with
            | some names => .tagSet (names.map some)
            | none => .message)) := by
  have hpos := r.trie.length_pos
  have hlt : id.toNat < (dictOf h).nodes.length := by
    rw [r.trie.nodesCount] at h2; omega
  obtain ⟨it, w, hg, hit, _⟩ := r.trie.items_get h1 hlt
  obtain ⟨c, hcoll, hm⟩ := r.tag.vars id.toNat it hlt hit
  have hnd : c.Nodup := by
    rcases hcoll with ⟨_, rfl⟩ | ⟨p, hp, _⟩
    · exact List.nodup_nil
    · exact r.tag.collNodup p c hp
  have hsub : ∀ i ∈ c, ∃ names ∈ (dictOf h).varReadings id.toNat,
      ShowsReading names ((ix.tagSets.get i).map (setNames ix)) := by
    intro i hi
    obtain ⟨names, hn, hts⟩ := (hm i).1 hi
    exact ⟨_, List.mem_map.2 ⟨names, mem_attached.2 hn, rfl⟩, (shows_entry r hts).1⟩
  have hshow : ∀ i ∈ c, ∀ s, ix.tagSets.get i = some s → shownTags ix s = (setNames ix s).map some := by
    intro i hi
    obtain ⟨names, _, hts⟩ := (hm i).1 hi
    exact (shows_entry r hts).2
  refine ⟨it, c.map fun i => (i, (ix.tagSets.get i).map (setNames ix)), ?_, ?_, ?_, ⟨?_, ?_, ?_⟩, ?_, ?_⟩
  · unfold Index.nodeItem
    rw [hit]
  · rw [List.length_map]
    rcases hcoll with ⟨hv, rfl⟩ | ⟨p, hp, hv⟩
    · rw [hv]; rfl
    · have hb := (r.caps.coll hp).1
      rw [hv, variantTableNum, packV, upper16_combine16, toNat_ofNat16 (by omega), (gGet_sorted r.tag.colls hp).2]
  · rw [List.map_map]
    simpa [Function.comp_def] using hnd
  · intro names' hn'
    obtain ⟨names, hn, rfl⟩ := List.mem_map.1 hn'
    obtain ⟨_, _, i, hi⟩ := r.tag.readings _ names (mem_attached.1 hn)
    exact ⟨_, List.mem_map.2 ⟨_, List.mem_map.2 ⟨i, (hm i).2 ⟨names, mem_attached.1 hn, hi⟩, rfl⟩, rfl⟩,
      (shows_entry r hi).1⟩
  · intro e he
    obtain ⟨_, he', rfl⟩ := List.mem_map.1 he
    obtain ⟨i, hi, rfl⟩ := List.mem_map.1 he'
    exact hsub i hi
  · rw [List.pairwise_map, List.pairwise_map]
    refine List.Pairwise.imp_of_mem ?_ hnd
    rintro i j hi hj hij ⟨names, s1, s2⟩
    have key : ∀ k ∈ c, ShowsReading names ((ix.tagSets.get k).map (setNames ix)) → ∃ m : List Str,
        m.Perm names ∧ TSId (dictOf h).tags ix.tagSets m k := by
      intro k hk hs
      obtain ⟨m, _, hts⟩ := (hm k).1 hk
      have hs' := (shows_entry r hts).1
      by_cases hz : m = []
      · subst hz
        rw [if_pos rfl] at hs'
        have h0 : k = 0 := hts.unique r.tag.sets ⟨[], rfl, .inl ⟨rfl, rfl⟩⟩
        subst h0
        cases hx : (dictOf h).firstSingle with
        | some x =>
          have ht := tsid_first r hx
          obtain ⟨_, _, _, _, _, hg⟩ := ht.get r.caps (by simp)
          rw [hx] at hs'
          rw [hg] at hs hs'
          exact ⟨[x], hs'.2.symm.trans hs.2, ht⟩
        | none =>
          have hfs := r.firstSet
          rw [hx] at hfs
          have hg : ix.tagSets.get 0 = none := by rw [TagSetIndex.get_eq]; exact hfs
          rw [hg] at hs
          have : names = [] := hs
          exact ⟨[], by rw [this], hts⟩
      · rw [if_neg hz] at hs'
        obtain ⟨_, _, _, _, _, hg⟩ := hts.get r.caps hz
        rw [hg] at hs hs'
        exact ⟨m, hs'.2.symm.trans hs.2, hts⟩
    obtain ⟨m1, p1, t1⟩ := key i hi s1
    obtain ⟨m2, p2, t2⟩ := key j hj s2
    exact hij ((t1.perm r.tag.names r.refines.2.tags (p1.trans p2.symm)).unique r.tag.sets t2)
  · intro hall
    refine ⟨c.map (entryOf ix), ?_, ?_⟩
    · unfold Index.tagSetsOf
      rw [hg]
      simp only
      rw [hcoll.get r.caps, Out.bind_ok]
      congr 1
      exact tagSetsLoop_map fun i hi => by
        have := hall _ (List.mem_map.2 ⟨i, hi, rfl⟩)
        cases e : ix.tagSets.get i with
        | none => rw [e] at this; exact absurd rfl this
        | some s => rfl
    · rw [List.map_map, List.map_map]
      apply List.map_congr_left
      intro i hi
      have := hall _ (List.mem_map.2 ⟨i, hi, rfl⟩)
      cases e : ix.tagSets.get i with
      | none => rw [e] at this; exact absurd rfl this
      | some s => simp [e, entryOf, tagNames, setNames]
  · intro lib disk line cmd a rest hl
    constructor
    · intro hc ha
      rw [processInput_var hc hl]
      unfold processVar
      simp only [ha]
      unfold Index.variants
      rw [hcoll.get r.caps]
      show Out.ok _ = Out.ok _
      congr 2
      rw [List.map_map]
      apply List.map_congr_left
      intro i hi
      simp only [Function.comp]
      cases e : ix.tagSets.get i with
      | none => rfl
      | some s => simp [hshow i hi s e]
    · intro hc h3 h4 e he ha
      obtain ⟨i, hi, rfl⟩ := List.mem_map.1 he
      rw [processInput_set hc hl]
      unfold processSet
      simp only [ha]
      rw [if_neg h3, if_neg h4, toU32_toNat]
      cases e : ix.tagSets.get i with
      | none => rfl
      | some s => simp [hshow i hi s e]

/-- **C75, the tags, exactly**: `tag NAME` shows the tag of that name if and only if the name is not "count" and either is
the tag's own number in decimal, or is no number and no earlier name equals it under `strings.EqualFold`. -/
theorem C75_tag_exact {h : List Op} {ix : Index} (r : Run h ix) (lib : Lib) (disk : Option Index) (line c : Str)
    (hc : c = str "tag" ∨ c = str "t") (k : Nat) (t : Tag) (ht : (dictOf h).tags[k]? = some t)
    (hl : splitSpaces line = [c, t.name]) :
    (processInput lib disk ix line).2 = .ok (.tag k t) ↔
      t.name ≠ str "count" ∧
        (atoi t.name = some (k : Int) ∨
          atoi t.name = none ∧ lib.equalFold t.name t.name = true ∧
            ∀ u ∈ (dictOf h).tags.take k, lib.equalFold u.name t.name = false) := by
  rw [processInput_tag hc hl]
  unfold processTag
  simp only
  rw [r.tag.tags]
  generalize (dictOf h).tags = tags at ht
  have hlt := (List.getElem?_eq_some_iff.1 ht).1
  by_cases hcnt : t.name = str "count"
  · rw [if_pos hcnt]
    exact ⟨(fun h => by cases h), fun h => absurd hcnt h.1⟩
  rw [if_neg hcnt]
  cases ha : atoi t.name with
  | some n =>
    simp only
    have e : ((n = (k : Int)) ↔ (if n ≥ (tags.length : Int) then Out.ok Reply.message
        else (sliceAt tags n).bind fun t => .ok (.tag n.toNat t)) = .ok (.tag k t)) := by
      constructor
      · rintro rfl
        rw [if_neg (by omega)]
        unfold sliceAt
        rw [if_neg (by omega), Int.toNat_natCast, ht]
        rfl
      · intro h
        by_cases hge : n ≥ (tags.length : Int)
        · rw [if_pos hge] at h; cases h
        · rw [if_neg hge] at h
          unfold sliceAt at h
          by_cases hneg : n < 0
          · rw [if_pos hneg] at h; cases h
          · rw [if_neg hneg] at h
            cases hn : tags[n.toNat]? with
            | none => rw [hn] at h; cases h
            | some u =>
              rw [hn] at h
              simp only [Out.bind_ok, Out.ok.injEq, Reply.tag.injEq] at h
              omega
    rw [← e]
    constructor
    · rintro rfl; exact ⟨hcnt, .inl rfl⟩
    · rintro ⟨_, h | ⟨h, _⟩⟩
      · exact Option.some.inj h
      · cases h
  | none =>
    simp only
    have e : tags.zipIdx.find? (fun e => lib.equalFold e.1.name t.name) = some (t, k) ↔
        lib.equalFold t.name t.name = true ∧ ∀ u ∈ tags.take k, lib.equalFold u.name t.name = false := by
      rw [List.find?_eq_some_iff_getElem]
      constructor
      · rintro ⟨h1, i, hi, he, hb⟩
        rw [List.getElem_zipIdx, Nat.zero_add, Prod.mk.injEq] at he
        obtain ⟨_, rfl⟩ := he
        refine ⟨h1, fun u hu => ?_⟩
        obtain ⟨j, hj, rfl⟩ := List.mem_take_iff_getElem.1 hu
        have := hb j (by omega)
        rw [List.getElem_zipIdx] at this
        simpa using this
      · rintro ⟨h1, hb⟩
        refine ⟨h1, k, by rw [List.length_zipIdx]; exact hlt, ?_, ?_⟩
        · rw [List.getElem_zipIdx]
          obtain ⟨_, he⟩ := List.getElem?_eq_some_iff.1 ht
          rw [he, Nat.zero_add]
        · intro j hj
          rw [List.getElem_zipIdx]
          have := hb (tags[j]) (List.mem_take_iff_getElem.2 ⟨j, by omega, rfl⟩)
          simp only
          rw [this]
          rfl
    constructor
    · intro h
      refine ⟨hcnt, .inr ⟨trivial, e.1 ?_⟩⟩
      cases hf : tags.zipIdx.find? (fun e => lib.equalFold e.1.name t.name) with
      | none => rw [hf] at h; cases h
      | some p =>
        rw [hf] at h
        obtain ⟨u, i⟩ := p
        simp only [Out.ok.injEq, Reply.tag.injEq] at h
        rw [h.1, h.2]
    · rintro ⟨_, h | ⟨_, h⟩⟩
      · cases h
      · rw [e.2 h]

/-- Two words with an empty reading each, before and after a one-tag reading exists. -/
example : (dictOf emptyHides).varReadings 1 = [[str "NOUN", str "VERB"], []] ∧
    (execAll emptyHides).nodeItem 1 = .ok { parent := 0, variants := 131072, id := 1, letter := 97 } ∧
    (processInput { someLib with parseUint := fun _ => some 131072 } none (execAll emptyHides) (str "var 131072")).2 =
      .ok (.variants [(0, none), (65536, some [some (str "NOUN"), some (str "VERB")])]) ∧
    (dictOf emptyForeign).varReadings 2 = [[str "NOUN"]] ∧
    (processInput { someLib with parseUint := fun _ => some 65536 } none (execAll emptyForeign) (str "var 65536")).2 =
      .ok (.variants [(0, some [some (str "NOUN")])]) :=
  ⟨by decide, rfl, rfl, by decide, rfl⟩

end Verif
