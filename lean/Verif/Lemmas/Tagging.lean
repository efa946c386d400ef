import Verif.Lemmas.TrieAdd
import Verif.Lemmas.TagSetIdx

/-! # Helper lemmas: tags, tag sets and readings refine the reading log -/

namespace Verif

/-! ## The tag registry -/

theorem tagsFind_none {tags : List Tag} {n : Str} :
    tagsFind tags n = none ↔ ∀ t ∈ tags, t.name ≠ n := by
  unfold tagsFind
  rw [Option.map_eq_none_iff, List.findIdx?_eq_none_iff]
  simp

theorem tagsFind_some {tags : List Tag} (hn : (tags.map (·.name)).Nodup) (hl : tags.length ≤ 256)
    {n : Str} {id : UInt8} :
    tagsFind tags n = some id ↔ ∃ t, tags[id.toNat]? = some t ∧ t.name = n := by
  unfold tagsFind
  rw [Option.map_eq_some_iff]
  constructor
  · rintro ⟨i, hi, rfl⟩
    rw [List.findIdx?_eq_some_iff_getElem] at hi
    obtain ⟨h1, h2, _⟩ := hi
    refine ⟨tags[i], ?_, by simpa using h2⟩
    rw [UInt8.toNat_ofNat', Nat.mod_eq_of_lt (by omega)]
    exact List.getElem?_eq_getElem h1
  · rintro ⟨t, ht, rfl⟩
    refine ⟨id.toNat, ?_, UInt8.ofNat_toNat⟩
    obtain ⟨h1, h2⟩ := List.getElem?_eq_some_iff.1 ht
    rw [List.findIdx?_eq_some_iff_getElem]
    refine ⟨h1, by simp [h2], ?_⟩
    intro j hj
    simp only [decide_eq_true_eq]
    intro he
    have e1 : (tags.map (·.name))[j]? = some t.name := by
      rw [List.getElem?_map, List.getElem?_eq_getElem (by omega)]
      simp [he]
    have e2 : (tags.map (·.name))[id.toNat]? = some t.name := by
      rw [List.getElem?_map, ht]; rfl
    have := nodup_getElem?_inj hn e1 e2
    omega

theorem tagsFind_append {tags : List Tag} {n : Str} {id : UInt8} (t : Tag)
    (h : tagsFind tags n = some id) : tagsFind (tags ++ [t]) n = some id := by
  unfold tagsFind at *
  rw [Option.map_eq_some_iff] at *
  obtain ⟨i, hi, rfl⟩ := h
  refine ⟨i, ?_, rfl⟩
  rw [List.findIdx?_append, hi]
  rfl

theorem hasTag_iff {d : Dict} {n : Str} : d.hasTag n = true ↔ ∃ id, tagsFind d.tags n = some id := by
  unfold Dict.hasTag
  constructor
  · intro h
    cases hf : tagsFind d.tags n with
    | some id => exact ⟨id, rfl⟩
    | none =>
      obtain ⟨t, ht, hn⟩ := List.any_eq_true.1 h
      exact absurd (by simpa using hn) (tagsFind_none.1 hf t ht)
  · rintro ⟨id, hid⟩
    rw [List.any_eq_true]
    by_contra hc
    have : tagsFind d.tags n = none := tagsFind_none.2 fun t ht hn => hc ⟨t, ht, by simpa using hn⟩
    rw [this] at hid
    cases hid

theorem tagsGet_eq (tags : List Tag) (id : UInt8) : tagsGet tags id = tags[id.toNat]? := by
  unfold tagsGet
  split
  · rename_i h; exact (List.getElem?_eq_none h).symm
  · rfl

theorem findAll_ok {tags : List Tag} {names : List Str} {ids : TagSet} :
    Index.findAll tags names = .ok ids ↔
      List.Forall₂ (fun n id => tagsFind tags n = some id) names ids := by
  induction names generalizing ids with
  | nil =>
    unfold Index.findAll
    rw [List.forall₂_nil_left_iff]
    constructor
    · intro h; injection h with h; exact h.symm
    · rintro rfl; rfl
  | cons n rest ih =>
    unfold Index.findAll
    cases hn : tagsFind tags n with
    | none =>
      simp only
      constructor
      · intro h; cases h
      · intro h
        cases h with
        | cons h _ => rw [hn] at h; cases h
    | some id =>
      simp only
      cases hr : Index.findAll tags rest with
      | error e =>
        constructor
        · intro h; cases h
        · intro h
          cases h with
          | cons h h' => rw [ih.2 h'] at hr; cases hr
      | ok ids' =>
        constructor
        · intro h
          injection h with h
          subst h
          exact .cons hn (ih.1 hr)
        · intro h
          cases h with
          | cons h h' =>
            rw [hn] at h
            rw [ih.2 h'] at hr
            injection hr with hr
            obtain rfl := Option.some.inj h
            rw [hr]
            rfl

theorem findAll_error {tags : List Tag} {names : List Str} {n : Str}
    (h : Index.findAll tags names = .error n) : n ∈ names ∧ tagsFind tags n = none := by
  induction names with
  | nil => cases h
  | cons m rest ih =>
    unfold Index.findAll at h
    cases hm : tagsFind tags m with
    | none =>
      rw [hm] at h
      injection h with h
      subst h
      exact ⟨by simp, hm⟩
    | some id =>
      rw [hm] at h
      simp only at h
      cases hr : Index.findAll tags rest with
      | error e =>
        rw [hr] at h
        injection h with h
        subst h
        obtain ⟨h1, h2⟩ := ih hr
        exact ⟨by simp [h1], h2⟩
      | ok ids => rw [hr] at h; cases h

theorem all_hasTag_iff {d : Dict} {names : List Str} :
    names.all d.hasTag = true ↔ ∃ ids, Index.findAll d.tags names = .ok ids := by
  rw [List.all_eq_true]
  constructor
  · intro h
    cases hf : Index.findAll d.tags names with
    | ok ids => exact ⟨ids, rfl⟩
    | error n =>
      obtain ⟨h1, h2⟩ := findAll_error hf
      obtain ⟨id, hid⟩ := hasTag_iff.1 (h n h1)
      rw [h2] at hid
      cases hid
  · rintro ⟨ids, hids⟩ n hn
    have := findAll_ok.1 hids
    rw [hasTag_iff]
    induction this with
    | nil => simp at hn
    | cons h1 h2 ih =>
      rcases List.mem_cons.1 hn with rfl | hn
      · exact ⟨_, h1⟩
      · exact ih (findAll_ok.2 h2) hn

theorem findAll_append {tags : List Tag} {names : List Str} {ids : TagSet} (t : Tag)
    (h : Index.findAll tags names = .ok ids) : Index.findAll (tags ++ [t]) names = .ok ids := by
  rw [findAll_ok] at *
  exact h.imp fun _ _ h => tagsFind_append t h

/-- The tag a `TagSets()` entry shows for an id. -/
def tagOf (tags : List Tag) (id : UInt8) : Tag := (tagsGet tags id).getD Index.zeroTag

theorem findAll_names {tags : List Tag} (hn : (tags.map (·.name)).Nodup) (hl : tags.length ≤ 256)
    {names : List Str} {ids : TagSet} (h : Index.findAll tags names = .ok ids) :
    ids.map (fun id => (tagOf tags id).name) = names := by
  rw [findAll_ok] at h
  induction h with
  | nil => rfl
  | cons h1 _ ih =>
    obtain ⟨t, ht, rfl⟩ := (tagsFind_some hn hl).1 h1
    rw [List.map_cons, ih, tagOf, tagsGet_eq, ht]
    rfl

theorem findAll_lt {tags : List Tag} (hn : (tags.map (·.name)).Nodup) (hl : tags.length ≤ 256)
    {names : List Str} {ids : TagSet} (h : Index.findAll tags names = .ok ids) :
    ∀ id ∈ ids, id.toNat < tags.length := by
  rw [findAll_ok] at h
  induction h with
  | nil => intro id h; simp at h
  | cons h1 _ ih =>
    intro id hid
    rcases List.mem_cons.1 hid with rfl | hid
    · obtain ⟨t, ht, _⟩ := (tagsFind_some hn hl).1 h1
      exact (List.getElem?_eq_some_iff.1 ht).1
    · exact ih id hid

theorem findAll_map {tags : List Tag} {names : List Str} {ids : TagSet}
    (h : Index.findAll tags names = .ok ids) : ids = names.map fun n => (tagsFind tags n).getD 0 := by
  rw [findAll_ok] at h
  induction h with
  | nil => rfl
  | cons h1 _ ih => rw [List.map_cons, h1, ← ih]; rfl

theorem findAll_length {tags : List Tag} {names : List Str} {ids : TagSet}
    (h : Index.findAll tags names = .ok ids) : ids.length = names.length := by
  rw [findAll_map h, List.length_map]

/-- Permuted names, permuted ids, and back. -/
theorem findAll_perm {tags : List Tag} (hn : (tags.map (·.name)).Nodup) (hl : tags.length ≤ 256)
    {names names' : List Str} {ids ids' : TagSet} (h : Index.findAll tags names = .ok ids)
    (h' : Index.findAll tags names' = .ok ids') : ids.Perm ids' ↔ names.Perm names' := by
  constructor
  · intro hp
    rw [← findAll_names hn hl h, ← findAll_names hn hl h']
    exact hp.map _
  · intro hp
    rw [findAll_map h, findAll_map h']
    exact hp.map _

/-! ## Ids of readings -/

/-- `id` is the `TagSetID` under which the reading `names` is registered (0 for the empty one). -/
def TSId (tags : List Tag) (sets : TagSetIndex) (names : List Str) (id : TagSetID) : Prop :=
  ∃ ids, Index.findAll tags names = .ok ids ∧
    ((ids = [] ∧ id = 0) ∨ (ids ≠ [] ∧ ∃ p, gGet sets p = some (sortAsc ids) ∧ id = packTS p))

theorem TSId.unique {tags : List Tag} {sets : TagSetIndex} (hs : GInv sets) {names : List Str}
    {id id' : TagSetID} (h : TSId tags sets names id) (h' : TSId tags sets names id') : id = id' := by
  obtain ⟨ids, h1, h2⟩ := h
  obtain ⟨ids', h1', h2'⟩ := h'
  rw [h1] at h1'
  injection h1' with h1'
  subst h1'
  rcases h2 with ⟨h0, rfl⟩ | ⟨h0, p, hp, rfl⟩ <;> rcases h2' with ⟨h0', rfl⟩ | ⟨h0', p', hp', rfl⟩
  · rfl
  · exact absurd h0 h0'
  · exact absurd h0' h0
  · rw [gGet_inj hs hp hp']

theorem TSId.mono_sets {tags : List Tag} {sets : TagSetIndex} {names : List Str} {id : TagSetID}
    (s : TagSet) (h : TSId tags sets names id) : TSId tags (gIndex sets s).1 names id := by
  obtain ⟨ids, h1, h2⟩ := h
  refine ⟨ids, h1, ?_⟩
  rcases h2 with h2 | ⟨h0, p, hp, rfl⟩
  · exact .inl h2
  · exact .inr ⟨h0, p, gGet_gIndex_mono hp, rfl⟩

theorem TSId.mono_tags {tags : List Tag} {sets : TagSetIndex} {names : List Str} {id : TagSetID}
    (t : Tag) (h : TSId tags sets names id) : TSId (tags ++ [t]) sets names id := by
  obtain ⟨ids, h1, h2⟩ := h
  exact ⟨ids, findAll_append t h1, h2⟩

/-- The collection stored under a `VariantID`. -/
def CollOf (cidx : VariantsIndex) (v : VariantID) (c : Coll) : Prop :=
  (v = 0 ∧ c = []) ∨ ∃ p, gGet cidx p = some c ∧ v = packV p

theorem CollOf.mono {cidx : VariantsIndex} {v : VariantID} {c : Coll} (s : Coll)
    (h : CollOf cidx v c) : CollOf (gIndex cidx s).1 v c := by
  rcases h with h | ⟨p, hp, rfl⟩
  · exact .inl h
  · exact .inr ⟨p, gGet_gIndex_mono hp, rfl⟩

/-- Positions in use are within the packing range. -/
theorem gGet_bounds {α : Type} [DecidableEq α] [LE α] [DecidableRel (α := α) (· ≤ ·)]
    [Std.Total (α := α) (· ≤ ·)] [IsTrans α (· ≤ ·)] [Std.Antisymm (α := α) (· ≤ ·)] {c : List (List (List α))} {a b : Nat} (hl : c.length ≤ a)
    (ht : ∀ t ∈ c, t.length ≤ b) {p : Nat × Nat} {s : List α} (h : gGet c p = some s) :
    p.1 < a ∧ p.2 < b := by
  have h1 := gGet_col_lt h
  have h2 := gGet_lt h
  have h3 : c.getD p.1 [] ∈ c := List.mem_of_getElem? (getD_of_lt c h1)
  have h4 := ht _ h3
  exact ⟨by omega, by omega⟩

/-- Capacity of the two tables. -/
structure Caps (ix : Index) : Prop where
  setTables : ix.tagSets.length ≤ 65536
  sets : ∀ t ∈ ix.tagSets, t.length ≤ 65536
  collTables : ix.collectionIdx.length ≤ 65535
  colls : ∀ t ∈ ix.collectionIdx, t.length ≤ 65536

theorem Fits.caps {ix : Index} {d : Dict} (h : Fits ix d) : Caps ix :=
  ⟨h.setTables, h.sets, h.collTables, h.colls⟩

theorem Caps.set {ix : Index} (h : Caps ix) {p : Nat × Nat} {s : TagSet}
    (hp : gGet ix.tagSets p = some s) : p.1 < 65536 ∧ p.2 < 65536 :=
  gGet_bounds h.setTables h.sets hp

theorem Caps.coll {ix : Index} (h : Caps ix) {p : Nat × Nat} {s : Coll}
    (hp : gGet ix.collectionIdx p = some s) : p.1 < 65535 ∧ p.2 < 65536 :=
  gGet_bounds h.collTables h.colls hp

theorem CollOf.get {ix : Index} (h : Caps ix) {v : VariantID} {c : Coll}
    (hc : CollOf ix.collectionIdx v c) : ix.collectionIdx.get v = .ok c := by
  rcases hc with ⟨rfl, rfl⟩ | ⟨p, hp, rfl⟩
  · rfl
  · exact VariantsIndex.get_packV _ (h.coll hp).1 (h.coll hp).2 hp

theorem CollOf.zero_iff {ix : Index} (h : Caps ix) (hg : GInv ix.collectionIdx) {v : VariantID}
    {c : Coll} (hc : CollOf ix.collectionIdx v c) : v = 0 ↔ c = [] := by
  rcases hc with ⟨rfl, rfl⟩ | ⟨p, hp, rfl⟩
  · simp
  · constructor
    · intro h0; exact absurd h0 (packV_ne_zero (h.coll hp).1)
    · rintro rfl
      have := (gGet_sorted hg hp).2
      simp at this

theorem CollOf.sorted {cidx : VariantsIndex} (hg : GInv cidx) {v : VariantID} {c : Coll}
    (hc : CollOf cidx v c) : c.Pairwise (· ≤ ·) := by
  rcases hc with ⟨rfl, rfl⟩ | ⟨p, hp, rfl⟩
  · exact List.Pairwise.nil
  · exact (gGet_sorted hg hp).1

theorem CollOf.unique {ix : Index} (h : Caps ix) {v : VariantID} {c c' : Coll}
    (hc : CollOf ix.collectionIdx v c) (hc' : CollOf ix.collectionIdx v c') : c = c' := by
  have := hc.get h
  rw [hc'.get h] at this
  exact (Out.ok.inj this).symm

/-! ## The invariant -/

/-- Number of nodes with a reading. -/
def taggedCount (d : Dict) : Nat :=
  ((List.range d.nodes.length).filter fun k => d.readings.any (·.1 == k)).length

/-- Tags, tag sets and collections represent the registry and the reading log. -/
structure TagOK (ix : Index) (d : Dict) : Prop where
  tags : ix.tags = d.tags
  names : (d.tags.map (·.name)).Nodup
  sets : GInv ix.tagSets
  setIds : ∀ p s, gGet ix.tagSets p = some s → ∀ t ∈ s, t.toNat < d.tags.length
  colls : GInv ix.collectionIdx
  collNodup : ∀ p c, gGet ix.collectionIdx p = some c → c.Nodup
  vars : ∀ k it, k < d.nodes.length → ix.items.items[k]? = some it →
    ∃ coll, CollOf ix.collectionIdx it.variants coll ∧
      ∀ id, id ∈ coll ↔ ∃ names, (k, names) ∈ d.readings ∧ TSId d.tags ix.tagSets names id
  slack : Slack ix d.nodes.length
  readings : ∀ k names, (k, names) ∈ d.readings →
    0 < k ∧ k < d.nodes.length ∧ ∃ id, TSId d.tags ix.tagSets names id
  count : ix.wordsCount = taggedCount d

theorem TagOK.new : TagOK Index.new Dict.empty := by
  constructor
  · rfl
  · simp [Dict.empty]
  · exact GInv_nil
  · intro p s h; simp [Index.new, gGet] at h
  · exact GInv_nil
  · intro p s h; simp [Index.new, gGet] at h
  · intro k it hk hit
    refine ⟨[], .inl ⟨?_, rfl⟩, ?_⟩
    · simp only [Index.new, Items.new] at hit
      have := List.mem_of_getElem? hit
      simp only [List.mem_singleton] at this
      rw [this]; rfl
    · simp [Dict.empty]
  · intro k it hk hit
    simp only [Index.new, Items.new] at hit
    have := List.mem_of_getElem? hit
    simp only [List.mem_singleton] at this
    rw [this]; rfl
  · intro k names h; simp [Dict.empty] at h
  · rfl

theorem taggedCount_extend {d : Dict} (hr : ∀ k names, (k, names) ∈ d.readings → k < d.nodes.length)
    (ns : List (List Rune)) (hp : d.nodes <+: ns) (d' : Dict) (hn : d'.nodes = ns)
    (hd : d'.readings = d.readings) : taggedCount d' = taggedCount d := by
  obtain ⟨e, rfl⟩ := hp
  unfold taggedCount
  rw [hn, hd, List.length_append, List.range_add, List.filter_append, List.length_append]
  have : (List.filter (fun k => d.readings.any (·.1 == k))
      (List.map (d.nodes.length + ·) (List.range e.length))) = [] := by
    rw [List.filter_eq_nil_iff]
    intro k hk hany
    obtain ⟨⟨k', names⟩, hm, he⟩ := List.any_eq_true.1 hany
    obtain ⟨i, _, rfl⟩ := List.mem_map.1 hk
    have := hr k' names hm
    simp only [beq_iff_eq] at he
    omega
  rw [this]
  rfl

/-- New nodes have no readings. -/
theorem TagOK.grow {ix ix' : Index} {d d' : Dict} (h : TagOK ix d) (hg : Grow ix ix' d.nodes.length)
    (hp : d.nodes <+: d'.nodes) (ht : d'.tags = d.tags) (hr : d'.readings = d.readings) :
    TagOK ix' d' := by
  have hle := hp.length_le
  constructor
  · rw [hg.tags, ht]; exact h.tags
  · rw [ht]; exact h.names
  · rw [hg.tagSets]; exact h.sets
  · rw [hg.tagSets, ht]; exact h.setIds
  · rw [hg.collectionIdx]; exact h.colls
  · rw [hg.collectionIdx]; exact h.collNodup
  · intro k it hk hit
    rw [hg.collectionIdx, hg.tagSets, ht, hr]
    by_cases hkn : k < d.nodes.length
    · rw [hg.items k hkn] at hit
      exact h.vars k it hkn hit
    · refine ⟨[], .inl ⟨hg.slack h.slack k it (by omega) hit, rfl⟩, fun id => ?_⟩
      constructor
      · intro h'; simp at h'
      · rintro ⟨names, hm, _⟩
        have := (h.readings k names hm).2.1
        omega
  · intro k it hk hit
    exact hg.slack h.slack k it (by omega) hit
  · intro k names hm
    rw [hr] at hm
    rw [ht, hg.tagSets]
    obtain ⟨h1, h2, h3⟩ := h.readings k names hm
    exact ⟨h1, by omega, h3⟩
  · rw [hg.wordsCount, h.count]
    exact (taggedCount_extend (fun k names hm => (h.readings k names hm).2.1) _ hp d' rfl hr).symm

/-- `TagID`. -/
theorem TagOK.tagID {ix : Index} {d : Dict} (h : TagOK ix d)
    (name parent : Str) :
    TagOK (ix.tagID name parent).1 ((Op.tagID name parent).spec d) := by
  unfold Index.tagID tagsIndex
  cases hf : tagsFind d.tags name with
  | some id =>
    have hs : (Op.tagID name parent).spec d = d := by
      simp only [Op.spec]; rw [if_pos (hasTag_iff.2 ⟨id, hf⟩)]
    rw [hs, h.tags, hf]
    simp only
    rw [← h.tags]
    exact h
  | none =>
    have hnt : d.hasTag name = false := by
      cases hb : d.hasTag name with
      | false => rfl
      | true =>
        obtain ⟨id, hid⟩ := hasTag_iff.1 hb
        rw [hf] at hid; cases hid
    have hnew : newTag (if parent = [] then emptyTagName else parent) name = newTag parent name := by
      unfold newTag
      by_cases hp : parent = []
      · simp [hp, emptyTagName]
      · simp [hp]
    have hs : (Op.tagID name parent).spec d = { d with tags := d.tags ++ [newTag parent name] } := by
      simp only [Op.spec]; rw [hnt]; rfl
    rw [hs, h.tags, hf]
    simp only [hnew]
    constructor
    · rfl
    · simp only [List.map_append, List.map_cons, List.map_nil]
      rw [List.nodup_append]
      refine ⟨h.names, by simp, ?_⟩
      intro a ha b hb
      simp only [List.mem_singleton] at hb
      subst hb
      obtain ⟨t, ht, rfl⟩ := List.mem_map.1 ha
      exact tagsFind_none.1 hf t ht
    · exact h.sets
    · intro p s hs t ht
      have := h.setIds p s hs t ht
      simp only [List.length_append, List.length_singleton]
      omega
    · exact h.colls
    · exact h.collNodup
    · intro k it hk hit
      obtain ⟨coll, h1, h2⟩ := h.vars k it hk hit
      refine ⟨coll, h1, fun id => ?_⟩
      rw [h2]
      constructor
      · rintro ⟨names, hm, hid⟩
        exact ⟨names, hm, hid.mono_tags _⟩
      · rintro ⟨names, hm, hid⟩
        obtain ⟨_, _, id', hid'⟩ := h.readings k names hm
        exact ⟨names, hm, by rw [hid.unique h.sets (hid'.mono_tags _)]; exact hid'⟩
    · exact h.slack
    · intro k names hm
      obtain ⟨h1, h2, id, hid⟩ := h.readings k names hm
      exact ⟨h1, h2, id, hid.mono_tags _⟩
    · exact h.count

theorem length_filter_or (P : Nat → Bool) (k : Nat) (l : List Nat) (hl : l.Nodup) (hk : k ∈ l) :
    (l.filter fun x => P x || k == x).length = (l.filter P).length + if P k then 0 else 1 := by
  induction l with
  | nil => simp at hk
  | cons a l ih =>
    rw [List.nodup_cons] at hl
    by_cases hka : k = a
    · subst hka
      have hne : ∀ x ∈ l, (P x || k == x) = P x := by
        intro x hx
        have : k ≠ x := fun h => hl.1 (h ▸ hx)
        simp [this]
      have : l.filter (fun x => P x || k == x) = l.filter P := List.filter_congr hne
      rw [List.filter_cons, List.filter_cons, this]
      by_cases hP : P k <;> simp [hP]
    · have hk' : k ∈ l := by
        rcases List.mem_cons.1 hk with h | h
        · exact absurd h hka
        · exact h
      have := ih hl.2 hk'
      rw [List.filter_cons, List.filter_cons]
      have hb : (k == a) = false := by simpa using hka
      by_cases hP : P a
      · simp only [hP, Bool.true_or, if_true, List.length_cons, this]; omega
      · simp only [hP, hb, Bool.or_self, Bool.false_eq_true, if_false, this]

theorem taggedCount_append {d : Dict} {k : Nat} (hk : k < d.nodes.length) (names : List Str) :
    taggedCount { d with readings := d.readings ++ [(k, names)] }
      = taggedCount d + if d.readings.any (·.1 == k) then 0 else 1 := by
  unfold taggedCount
  rw [← length_filter_or (fun x => d.readings.any (·.1 == x)) k _ List.nodup_range
    (List.mem_range.2 hk)]
  simp only [List.any_append, List.any_cons, List.any_nil, Bool.or_false]

theorem Coll.has_iff {c : Coll} {id : TagSetID} : Coll.has c id = true ↔ id ∈ c := by
  unfold Coll.has; simp

theorem Coll.mem_add {c : Coll} {id x : TagSetID} : x ∈ Coll.add c id ↔ x ∈ c ∨ x = id := by
  unfold Coll.add
  split
  · rename_i h
    rw [Coll.has_iff] at h
    constructor
    · exact Or.inl
    · rintro (h' | rfl) <;> assumption
  · rw [mem_sortAsc]; simp

theorem Coll.nodup_add {c : Coll} (h : c.Nodup) (id : TagSetID) : (Coll.add c id).Nodup := by
  unfold Coll.add
  split
  · exact h
  · rename_i hh
    rw [Coll.has_iff] at hh
    refine (sortAsc_perm _).nodup_iff.2 ?_
    rw [List.nodup_append]
    refine ⟨h, by simp, ?_⟩
    intro a ha b hb
    simp only [List.mem_singleton] at hb
    subst hb
    rintro rfl
    exact hh ha

theorem Coll.length_add (c : Coll) (id : TagSetID) : (Coll.add c id).length ≤ c.length + 1 := by
  unfold Coll.add
  split
  · omega
  · rw [length_sortAsc]; simp

theorem Coll.add_ne_nil (c : Coll) (id : TagSetID) : Coll.add c id ≠ [] := by
  intro h
  have : id ∈ Coll.add c id := Coll.mem_add.2 (.inr rfl)
  rw [h] at this
  simp at this

theorem Coll.add_sorted {c : Coll} (h : c.Pairwise (· ≤ ·)) (id : TagSetID) :
    (Coll.add c id).Pairwise (· ≤ ·) := by
  unfold Coll.add
  split
  · exact h
  · exact sortAsc_sorted _

theorem setVariants_get (its : Items) (id : ID) (v : VariantID) (k : Nat) :
    (Index.setVariants its id v).items[k]? =
      if k = id.toNat then its.items[k]?.map (fun it => { it with variants := v }) else its.items[k]? := by
  unfold Index.setVariants
  simp only [List.getElem?_modify]
  by_cases h : id.toNat = k
  · simp [h]
  · rw [if_neg (fun h' => h h'.symm)]
    cases its.items[k]? <;> simp [h]

/-- What `AddTagSet` does on a known node with known tags. -/
theorem TagOK.addTagSet_ok {ix : Index} {d : Dict} (h : TagOK ix d) (ht : TrieOK ix d) (hc : Caps ix)
    (hl : d.tags.length ≤ 256) (id : ID) (names : List Str) (h0 : 0 < id.toNat)
    (h1 : id.toNat < d.nodes.length) {ids : TagSet} (hids : Index.findAll d.tags names = .ok ids) :
    (ix.addTagSet id names).2 = .ok () ∧
    TagOK (ix.addTagSet id names).1 { d with readings := d.readings ++ [(id.toNat, names)] } ∧
    TrieOK (ix.addTagSet id names).1 { d with readings := d.readings ++ [(id.toNat, names)] } := by
  obtain ⟨it, w, hg, hit, _⟩ := ht.items_get h0 h1
  obtain ⟨coll, hcoll, hmem⟩ := h.vars id.toNat it h1 hit
  have hcn : coll.Nodup := by
    rcases hcoll with ⟨_, rfl⟩ | ⟨p, hp, _⟩
    · exact List.nodup_nil
    · exact h.collNodup p coll hp
  have hclen : coll.length ≤ 65535 := by
    rcases hcoll with ⟨_, rfl⟩ | ⟨p, hp, _⟩
    · simp
    · have := (gGet_sorted h.colls hp).2
      have := (hc.coll hp).1
      omega
  have hget := hcoll.get hc
  -- the id of the reading and the new tag set index
  have hset : ∃ sets' tsid, ix.tagSets.index ids = (sets', tsid) ∧ GInv sets' ∧
      (∀ p s, gGet sets' p = some s → ∀ t ∈ s, t.toNat < d.tags.length) ∧
      TSId d.tags sets' names tsid ∧
      (∀ n x, TSId d.tags ix.tagSets n x → TSId d.tags sets' n x) := by
    by_cases hne : ids = []
    · subst hne
      exact ⟨ix.tagSets, 0, rfl, h.sets, h.setIds, ⟨[], hids, .inl ⟨rfl, rfl⟩⟩, fun _ _ h => h⟩
    · refine ⟨_, _, TagSetIndex.index_eq _ hne, GInv_gIndex h.sets hne, ?_, ?_, ?_⟩
      · intro p s hs t hts
        have hm := gGet_mem hs
        rw [gIndex_getD] at hm
        split at hm
        · rw [gTable_mem] at hm
          rcases hm with hm | rfl
          · obtain ⟨j, hj⟩ := List.getElem?_of_mem hm
            exact h.setIds (p.1, j) s hj t hts
          · rw [mem_sortAsc] at hts
            exact findAll_lt h.names hl hids t hts
        · obtain ⟨j, hj⟩ := List.getElem?_of_mem hm
          exact h.setIds (p.1, j) s hj t hts
      · exact ⟨ids, hids, .inr ⟨hne, _, gGet_gIndex_self _ _, rfl⟩⟩
      · exact fun _ _ h => h.mono_sets ids
  obtain ⟨sets', tsid, hidx, hsInv, hsIds, hts, hmono⟩ := hset
  have hadd := Coll.add_ne_nil coll tsid
  have hvidx := VariantsIndex.index_eq ix.collectionIdx hadd
    (by have := Coll.length_add coll tsid; omega)
  have hz := hcoll.zero_iff hc h.colls
  unfold Index.addTagSet
  rw [h.tags, hids]
  simp only
  rw [hg]
  simp only
  rw [hget]
  simp only [hidx, hvidx]
  refine ⟨trivial, ?_, ?_⟩
  · constructor
    · rfl
    · exact h.names
    · exact hsInv
    · exact hsIds
    · exact GInv_gIndex h.colls hadd
    · intro p c hp
      have hm := gGet_mem hp
      simp only at hm
      rw [gIndex_getD] at hm
      split at hm
      · rw [gTable_mem] at hm
        rcases hm with hm | rfl
        · obtain ⟨j, hj⟩ := List.getElem?_of_mem hm
          exact h.collNodup (p.1, j) c hj
        · exact (sortAsc_perm _).nodup_iff.2 (Coll.nodup_add hcn _)
      · obtain ⟨j, hj⟩ := List.getElem?_of_mem hm
        exact h.collNodup (p.1, j) c hj
    · intro k it' hk hit'
      simp only at hk hit' ⊢
      rw [setVariants_get] at hit'
      by_cases hkid : k = id.toNat
      · subst hkid
        rw [if_pos rfl, hit] at hit'
        simp only [Option.map_some, Option.some.injEq] at hit'
        subst hit'
        refine ⟨Coll.add coll tsid, .inr ⟨_, ?_, rfl⟩, ?_⟩
        · have := gGet_gIndex_self ix.collectionIdx (Coll.add coll tsid)
          rwa [sortAsc_of_sorted (Coll.add_sorted (hcoll.sorted h.colls) tsid)] at this
        · intro x
          rw [Coll.mem_add, hmem]
          constructor
          · rintro (⟨n, hn, hx⟩ | rfl)
            · exact ⟨n, List.mem_append_left _ hn, hmono _ _ hx⟩
            · exact ⟨names, by simp, hts⟩
          · rintro ⟨n, hn, hx⟩
            rcases List.mem_append.1 hn with hn | hn
            · left
              obtain ⟨_, _, x', hx'⟩ := h.readings _ _ hn
              exact ⟨n, hn, by rw [hx.unique hsInv (hmono _ _ hx')]; exact hx'⟩
            · right
              simp only [List.mem_singleton, Prod.mk.injEq, true_and] at hn
              subst hn
              exact hx.unique hsInv hts
      · rw [if_neg hkid] at hit'
        obtain ⟨c, hc1, hc2⟩ := h.vars k it' hk hit'
        refine ⟨c, hc1.mono _, fun x => ?_⟩
        rw [hc2]
        constructor
        · rintro ⟨n, hn, hx⟩
          exact ⟨n, List.mem_append_left _ hn, hmono _ _ hx⟩
        · rintro ⟨n, hn, hx⟩
          rcases List.mem_append.1 hn with hn | hn
          · obtain ⟨_, _, x', hx'⟩ := h.readings _ _ hn
            exact ⟨n, hn, by rw [hx.unique hsInv (hmono _ _ hx')]; exact hx'⟩
          · simp only [List.mem_singleton, Prod.mk.injEq] at hn
            exact absurd hn.1 hkid
    · intro k it' hk hit'
      simp only at hk hit'
      rw [setVariants_get, if_neg (by omega)] at hit'
      exact h.slack k it' hk hit'
    · intro k n hn
      simp only at hn ⊢
      rcases List.mem_append.1 hn with hn | hn
      · obtain ⟨e1, e2, x, hx⟩ := h.readings k n hn
        exact ⟨e1, e2, x, hmono _ _ hx⟩
      · simp only [List.mem_singleton, Prod.mk.injEq] at hn
        obtain ⟨rfl, rfl⟩ := hn
        exact ⟨h0, h1, tsid, hts⟩
    · simp only
      rw [taggedCount_append h1, h.count]
      by_cases hv : it.variants = 0
      · rw [if_pos hv, if_neg]
        intro hany
        obtain ⟨⟨k', n⟩, hm, he⟩ := List.any_eq_true.1 hany
        simp only [beq_iff_eq] at he
        subst he
        obtain ⟨_, _, x, hx⟩ := h.readings _ _ hm
        have : x ∈ coll := (hmem x).2 ⟨n, hm, hx⟩
        rw [hz.1 hv] at this
        simp at this
      · rw [if_neg hv, if_pos]
        · rfl
        · have hne : coll ≠ [] := fun h' => hv (hz.2 h')
          obtain ⟨x, hx⟩ := List.exists_mem_of_ne_nil _ hne
          obtain ⟨n, hn, _⟩ := (hmem x).1 hx
          exact List.any_eq_true.2 ⟨_, hn, by simp⟩
  · constructor
    · exact ht.root
    · exact ht.nodup
    · exact ht.next
    · simp only [Index.setVariants, List.length_modify]; exact ht.cap
    · simp only
      rw [setVariants_get, if_neg (by omega)]
      exact ht.item0
    · intro k hk0 hk
      simp only at hk ⊢
      obtain ⟨it', w', e1, e2⟩ := ht.item k hk0 hk
      rw [setVariants_get]
      by_cases hkid : k = id.toNat
      · rw [if_pos hkid, e1]
        exact ⟨_, w', rfl, e2⟩
      · rw [if_neg hkid]
        exact ⟨it', w', e1, e2⟩
    · exact ht.child
    · exact ht.nul

/-- When `AddTagSet` is refused (an unknown tag) or panics (no such node). -/
theorem TagOK.addTagSet_err {ix : Index} {d : Dict} (h : TagOK ix d) (ht : TrieOK ix d)
    (id : ID) (names : List Str)
    (hn : ¬ (names.all d.hasTag = true ∧ 0 < id.toNat ∧ id.toNat < d.nodes.length)) :
    (ix.addTagSet id names).1 = ix := by
  unfold Index.addTagSet
  rw [h.tags]
  cases hf : Index.findAll d.tags names with
  | error n => rfl
  | ok ids =>
    have : ix.items.get id = none := ht.items_get_none fun h' =>
      hn ⟨all_hasTag_iff.2 ⟨ids, hf⟩, h'⟩
    simp only
    rw [this]

end Verif
