import Verif.Spec.Copy
import Verif.Lemmas.Room
import Verif.Props.Capacity
import Verif.Props.Exact
import Verif.Props.OrderExact
import Verif.Props.Utf8

/-! # Helper lemmas: copying a dictionary -/

namespace Verif

/-! ## The calls of a copy -/

/-- The text of node `k`. -/
def wordOf (ix : Index) (k : Nat) : Str :=
  match ix.word (UInt32.ofNat k) with
  | .ok w => w
  | _ => []

/-- The readings of node `k` as they are shown. -/
def setsOf (ix : Index) (k : Nat) : List (List Tag) :=
  match ix.tagSetsOf (UInt32.ofNat k) with
  | .ok L => L
  | _ => []

/-- The calls that copy node `k`. -/
def blockCalls (ix : Index) (k : Nat) : List Op :=
  .addString (wordOf ix k) :: (setsOf ix k).map fun s => .addTagSet (UInt32.ofNat k) (tagNames s)

/-- The calls that copy the tags and the nodes `1 … n`. -/
def copyCalls (ix : Index) (n : Nat) : List Op :=
  (ix.tags.map fun t => .tagID t.name t.parent) ++ (List.range n).flatMap fun i => blockCalls ix (i + 1)

theorem copyCalls_succ (ix : Index) (n : Nat) : copyCalls ix (n + 1) = copyCalls ix n ++ blockCalls ix (n + 1) := by
  unfold copyCalls
  rw [List.range_succ, List.flatMap_append, ← List.append_assoc]
  simp

theorem copyCalls_prefix (ix : Index) {n m : Nat} (h : n ≤ m) : copyCalls ix n <+: copyCalls ix m := by
  induction m with
  | zero =>
    have : n = 0 := by omega
    subst this; exact List.prefix_refl _
  | succ m ih =>
    rcases Nat.lt_or_ge m n with h1 | h1
    · have : n = m + 1 := by omega
      subst this; exact List.prefix_refl _
    · exact (ih h1).trans (by rw [copyCalls_succ]; exact List.prefix_append _ _)

/-! ## What the calls build -/

theorem dict_tagIDs (T : List Tag) (hn : (T.map (·.name)).Nodup) (hp : ∀ t ∈ T, t.parent ≠ []) :
    dictOf (T.map fun t => Op.tagID t.name t.parent) = { Dict.empty with tags := T } := by
  induction T using list_reverse_induction with
  | nil => rfl
  | snoc T t ih =>
    rw [List.map_append, List.map_cons, List.map_nil, dictOf_append,
      ih (by rw [List.map_append] at hn; exact (List.nodup_append.1 hn).1) (fun t ht => hp t (by simp [ht]))]
    have hnot : ({ Dict.empty with tags := T } : Dict).hasTag t.name = false := by
      unfold Dict.hasTag
      rw [List.any_eq_false]
      intro t' ht'
      simp only [beq_iff_eq]
      intro e
      rw [List.map_append, List.nodup_append] at hn
      exact hn.2.2 t'.name (List.mem_map.2 ⟨t', ht', rfl⟩) t.name (by simp) e
    have hnew : newTag t.parent t.name = t := by
      unfold newTag
      rw [if_neg (hp t (by simp))]
    simp only [Op.spec, hnot, Bool.false_eq_true, if_false, hnew]

theorem hasTag_of_mem {d : Dict} {x : Tag} (hx : x ∈ d.tags) : d.hasTag x.name = true := by
  unfold Dict.hasTag
  rw [List.any_eq_true]
  exact ⟨x, hx, by simp⟩

theorem dict_attach (h : List Op) (k : Nat) (hk : k < 4294967296) (sets : List (List Tag)) (h0 : 0 < k)
    (h1 : k < (dictOf h).nodes.length) (ht : ∀ s ∈ sets, ∀ x ∈ s, (dictOf h).hasTag x.name = true) :
    dictOf (h ++ sets.map fun s => Op.addTagSet (UInt32.ofNat k) (tagNames s)) =
      { dictOf h with readings := (dictOf h).readings ++ sets.map fun s => (k, tagNames s) } := by
  have ek : (UInt32.ofNat k).toNat = k := by rw [UInt32.toNat_ofNat', Nat.mod_eq_of_lt hk]
  induction sets using list_reverse_induction with
  | nil => simp
  | snoc sets s ih =>
    rw [List.map_append, List.map_cons, List.map_nil, ← List.append_assoc, dictOf_append,
      ih (fun s hs => ht s (by simp [hs]))]
    simp only [Op.spec]
    rw [if_pos]
    · rw [ek]; simp
    · rw [ek]
      refine ⟨?_, h0, h1⟩
      rw [List.all_eq_true]
      intro n hn
      obtain ⟨x, hx, rfl⟩ := List.mem_map.1 hn
      exact ht s (by simp) x hx

/-- What a copy in progress needs of its source. -/
structure CopySource (ix : Index) (d : Dict) : Prop where
  trie : TrieOK ix d
  tags : ix.tags = d.tags
  names : (d.tags.map (·.name)).Nodup
  parents : ∀ t ∈ d.tags, t.parent ≠ []
  text : ∀ w ∈ d.nodes, ∀ c ∈ w, IsScalar c
  known : ∀ k, ∀ s ∈ setsOf ix k, ∀ x ∈ s, x ∈ d.tags

theorem toNat_ofNat_lt {k : Nat} (hk : k < 4294967296) : (UInt32.ofNat k).toNat = k := by
  rw [UInt32.toNat_ofNat', Nat.mod_eq_of_lt hk]

theorem CopySource.wordOf_eq {ix : Index} {d : Dict} (c : CopySource ix d) {k : Nat} {w : List Rune}
    (hk : d.nodes[k]? = some w) : ix.word (UInt32.ofNat k) = .ok (wordOf ix k) ∧ decodeRunes (wordOf ix k) = w := by
  have hlt := c.trie.length_lt
  have h1 := TrieOK.lt_next hk
  have e := c.trie.word_eq (id := UInt32.ofNat k) (by rw [toNat_ofNat_lt (by omega)]; exact hk)
  unfold wordOf
  rw [e]
  exact ⟨rfl, C50_decode_encode w (c.text w (List.mem_of_getElem? hk))⟩

theorem CopySource.grow {ix : Index} {d : Dict} (c : CopySource ix d) {n : Nat} {w : List Rune}
    (hw : d.nodes[n + 1]? = some w) : w ≠ [] ∧
      addAll (d.nodes.take (n + 1)) (prefixes w) = d.nodes.take (n + 2) := by
  have hlt := TrieOK.lt_next hw
  obtain ⟨it, w', _, _, h3, h4, h5⟩ := c.trie.item (n + 1) (by omega) hlt
  have e : w = w' ++ [it.letter] := by rw [h5] at hw; exact (Option.some.inj hw).symm
  refine ⟨by rw [e]; simp, ?_⟩
  have htake : ∀ {j : Nat} {v : List Rune}, d.nodes[j]? = some v → j ≤ n → v ∈ d.nodes.take (n + 1) := by
    intro j v hj hn
    exact List.mem_of_getElem? (i := j) (by rw [List.getElem?_take, if_pos (by omega)]; exact hj)
  have hmem : ∀ (j : Nat) (v : List Rune), d.nodes[j]? = some v → j ≤ n → ∀ p ∈ prefixes v, p ∈ d.nodes.take (n + 1) := by
    intro j
    induction j using Nat.strong_induction_on with
    | _ j ih =>
      intro v hj hn p hp
      by_cases hj0 : j = 0
      · subst hj0
        rw [c.trie.root] at hj
        cases hj
        simp [prefixes] at hp
      · obtain ⟨it', v', _, _, g3, g4, g5⟩ := c.trie.item j (by omega) (TrieOK.lt_next hj)
        have e' : v = v' ++ [it'.letter] := by rw [g5] at hj; exact (Option.some.inj hj).symm
        rw [e', prefixes_concat, List.mem_append, List.mem_singleton] at hp
        rcases hp with hp | rfl
        · exact ih _ g3 v' g4 (by omega) p hp
        · rw [← e']; exact htake hj hn
  rw [e, prefixes_concat, addAll_append, addAll_of_subset (hmem _ w' h4 (by omega)), ← e, addAll_cons, addAll_nil,
    addNew_of_not_mem]
  · rw [List.take_add_one (i := n + 1), hw]; rfl
  · intro hin
    obtain ⟨j, hj, hjw⟩ := List.getElem_of_mem hin
    rw [List.getElem_take] at hjw
    rw [List.length_take] at hj
    have := c.trie.idx_unique (i := j) (j := n + 1) (w := w)
      (by rw [List.getElem?_eq_getElem (by omega), hjw]) hw
    omega

/-- The dictionary built by the calls of a copy. -/
theorem CopySource.dict {ix : Index} {d : Dict} (c : CopySource ix d) (n : Nat) (hn : n < d.nodes.length) :
    (dictOf (copyCalls ix n)).nodes = d.nodes.take (n + 1) ∧ (dictOf (copyCalls ix n)).tags = d.tags ∧
    (dictOf (copyCalls ix n)).nul = false ∧
    (dictOf (copyCalls ix n)).readings =
      (List.range n).flatMap fun i => (setsOf ix (i + 1)).map fun s => (i + 1, tagNames s) := by
  have hlt := c.trie.length_lt
  induction n with
  | zero =>
    have e : copyCalls ix 0 = d.tags.map fun t => Op.tagID t.name t.parent := by
      unfold copyCalls; rw [c.tags]; simp
    rw [e, dict_tagIDs _ c.names c.parents]
    refine ⟨?_, rfl, rfl, rfl⟩
    show [[]] = _
    rw [List.take_add_one (i := 0), c.trie.root]; rfl
  | succ n ih =>
    obtain ⟨i1, i2, i3, i4⟩ := ih (by omega)
    obtain ⟨w, hw⟩ : ∃ w, d.nodes[n + 1]? = some w := ⟨_, List.getElem?_eq_getElem hn⟩
    obtain ⟨_, hdec⟩ := c.wordOf_eq hw
    obtain ⟨hne, hgrow⟩ := c.grow hw
    have e1 : dictOf (copyCalls ix n ++ [Op.addString (wordOf ix (n + 1))]) =
        { dictOf (copyCalls ix n) with nodes := d.nodes.take (n + 2), words := (dictOf (copyCalls ix n)).words ++ [w] } := by
      rw [dictOf_append]
      simp only [Op.spec, Dict.insert]
      rw [hdec, i1]
      have hr : (d.nodes.take (n + 1))[0]? = some [] := by
        rw [List.getElem?_take, if_pos (by omega)]; exact c.trie.root
      rw [hr]
      simp only
      rw [if_neg hne]
      have hj : (dictOf (copyCalls ix n)).join [] w = w := by
        unfold Dict.join; rw [i3]; simp
      rw [hj, hgrow]
    have e2 : copyCalls ix (n + 1) = (copyCalls ix n ++ [Op.addString (wordOf ix (n + 1))]) ++
        (setsOf ix (n + 1)).map fun s => Op.addTagSet (UInt32.ofNat (n + 1)) (tagNames s) := by
      rw [copyCalls_succ]; simp [blockCalls]
    rw [e2, dict_attach _ (n + 1) (by omega) _ (by omega)
      (by rw [e1]; simp only [List.length_take]; omega)
      (fun x hx t ht => hasTag_of_mem (by rw [e1]; rw [i2]; exact c.known _ x hx t ht)), e1]
    refine ⟨rfl, i2, i3, ?_⟩
    show (dictOf (copyCalls ix n)).readings ++ _ = _
    rw [i4, List.range_succ, List.flatMap_append]
    simp

/-! ## What is shown, and so copied -/

/-- What an attached reading looks like when it is shown. -/
def seenAs (f : Option Str) (names : List Str) : List Str := if names = [] then f.toList else names

theorem Shown.sound {T : List Tag} {f : Option Str} {A : List (List Str)} {L : List (List Tag)} (h : Shown T f A L) :
    ∀ t ∈ L, ∃ names ∈ A, (tagNames t).Perm (seenAs f names) := by
  intro t ht
  cases f with
  | some x =>
    obtain ⟨n, hn, hp⟩ := ExactReadings.sound h t ht
    obtain ⟨names, hA, rfl⟩ := List.mem_map.1 hn
    exact ⟨names, hA, hp⟩
  | none =>
    by_cases he : [] ∈ A
    · obtain ⟨D, _, rfl⟩ := h.2 he
      obtain ⟨_, _, rfl⟩ := List.mem_map.1 ht
      exact ⟨[], he, by simp [seenAs, tagNames]⟩
    · obtain ⟨n, hn, hp⟩ := (h.1 he).sound t ht
      refine ⟨n, hn, ?_⟩
      have : n ≠ [] := fun e => he (e ▸ hn)
      rw [seenAs, if_neg this]; exact hp

theorem Shown.registered {T : List Tag} {f : Option Str} {A : List (List Str)} {L : List (List Tag)} (h : Shown T f A L) :
    ∀ t ∈ L, ∀ x ∈ t, x ∈ T := by
  intro t ht
  cases f with
  | some x => exact ExactReadings.registered h t ht
  | none =>
    by_cases he : [] ∈ A
    · obtain ⟨D, _, rfl⟩ := h.2 he
      obtain ⟨_, _, rfl⟩ := List.mem_map.1 ht
      simp
    · exact (h.1 he).registered t ht

theorem Shown.empty_iff {T : List Tag} {f : Option Str} {A : List (List Str)} {L : List (List Tag)} (h : Shown T f A L) :
    L = [] ↔ A = [] := by
  have key : ∀ {B : List (List Str)}, ExactReadings T B L → (L = [] ↔ B = []) := by
    intro B hB
    constructor
    · rintro rfl
      cases B with
      | nil => rfl
      | cons b B => obtain ⟨t, ht, _⟩ := hB.complete b (by simp); cases ht
    · rintro rfl
      cases L with
      | nil => rfl
      | cons t L => obtain ⟨b, hb, _⟩ := hB.sound t (by simp); cases hb
  cases f with
  | some x => rw [key h, List.map_eq_nil_iff]
  | none =>
    by_cases he : [] ∈ A
    · obtain ⟨D, hD, rfl⟩ := h.2 he
      rw [List.map_eq_nil_iff]
      obtain ⟨d, hd, _⟩ := hD.complete [] he
      constructor
      · rintro rfl; cases hd
      · rintro rfl; cases he
    · exact key (h.1 he)

/-- A list without an empty entry shows every attached reading once. -/
theorem Shown.once {T : List Tag} {f : Option Str} {A : List (List Str)} {L : List (List Tag)} (h : Shown T f A L)
    (hne : [] ∉ L) : L.Pairwise fun a b => ¬ (tagNames a).Perm (tagNames b) := by
  cases f with
  | some x => exact ExactReadings.once h
  | none =>
    by_cases he : [] ∈ A
    · obtain ⟨D, hD, rfl⟩ := h.2 he
      obtain ⟨d, hd, _⟩ := hD.complete [] he
      exact absurd (List.mem_map.2 ⟨d, hd, rfl⟩) hne
    · exact (h.1 he).once

/-- An empty entry means: an empty reading was attached, there is no one-tag reading, and all entries are empty. -/
theorem Shown.of_empty {T : List Tag} {f : Option Str} {A : List (List Str)} {L : List (List Tag)} (h : Shown T f A L)
    (he : [] ∈ L) : f = none ∧ [] ∈ A ∧ ∀ t ∈ L, t = [] := by
  obtain ⟨names, hA, hp⟩ := h.sound [] he
  have hs : seenAs f names = [] := by
    have : (tagNames []).Perm (seenAs f names) := hp
    exact List.perm_nil.1 this.symm
  unfold seenAs at hs
  split at hs
  · rename_i e
    subst e
    have hf : f = none := by cases f <;> simp_all
    subst hf
    refine ⟨rfl, hA, ?_⟩
    obtain ⟨D, _, rfl⟩ := h.2 hA
    intro t ht
    obtain ⟨_, _, rfl⟩ := List.mem_map.1 ht
    rfl
  · rename_i e; exact absurd hs e

theorem readings_plain {h : List Op} (hp : ∀ op ∈ h, op.Plain) : ∀ e ∈ (dictOf h).readings, e.2.length ≤ 255 := by
  induction h using list_reverse_induction with
  | nil => simp [dictOf, Dict.empty]
  | snoc h op ih =>
    intro e he
    rw [dictOf_append] at he
    have ih' := ih fun op ho => hp op (by simp [ho])
    rcases Op.spec_readings (dictOf h) op with g | ⟨id, names, rfl, g⟩
    · rw [g] at he; exact ih' e he
    · rw [g, List.mem_append, List.mem_singleton] at he
      rcases he with he | rfl
      · exact ih' e he
      · exact hp (.addTagSet id names) (by simp)

theorem Run.shown_at {h : List Op} {ix : Index} (r : Run h ix) {k : Nat} (h0 : 0 < k) (h1 : k < (dictOf h).nodes.length) :
    ix.tagSetsOf (UInt32.ofNat k) = .ok (setsOf ix k) ∧
    Shown (dictOf h).tags (dictOf h).firstSingle ((dictOf h).attached k) (setsOf ix k) := by
  have hlt := r.trie.length_lt
  have hpos := r.trie.length_pos
  have ek : (UInt32.ofNat k).toNat = k := toNat_ofNat_lt (by omega)
  obtain ⟨L, hL, hs⟩ := C10_exact r (UInt32.ofNat k) (by rw [ek, r.trie.nodesCount]; omega)
  rw [ek, r.tag.tags] at hs
  have : setsOf ix k = L := by unfold setsOf; rw [hL]
  rw [this]
  exact ⟨hL, hs⟩

theorem Run.setsOf_none {h : List Op} {ix : Index} (r : Run h ix) {k : Nat}
    (hk : k < 4294967296) (h1 : ¬ (0 < k ∧ k < (dictOf h).nodes.length)) : setsOf ix k = [] := by
  unfold setsOf
  rw [tagSetsOf_none r.refines.1 (by rw [toNat_ofNat_lt hk]; exact h1)]

/-- The readings copied to node `k`, and where they come from. -/
theorem Run.copied {h : List Op} {ix : Index} (r : Run h ix) {k : Nat} (h0 : 0 < k) (h1 : k < (dictOf h).nodes.length)
    {s : List Tag} (hs : s ∈ setsOf ix k) :
    ∃ names ∈ (dictOf h).attached k, (tagNames s).Perm (seenAs (dictOf h).firstSingle names) ∧
      ∃ e ∈ (dictOf h).readings, e.2.Perm (tagNames s) := by
  obtain ⟨names, hn, hp⟩ := (r.shown_at h0 h1).2.sound s hs
  refine ⟨names, hn, hp, ?_⟩
  unfold seenAs at hp
  split at hp
  · rename_i e
    subst e
    cases hf : (dictOf h).firstSingle with
    | none =>
      rw [hf] at hp
      exact ⟨(k, []), mem_attached.1 hn, hp.symm⟩
    | some x =>
      rw [hf] at hp
      obtain ⟨⟨j, names⟩, hm, hnm⟩ := List.exists_of_findSome?_eq_some hf
      have hone : names = [x] := singleName_some hnm
      subst hone
      exact ⟨(j, [x]), hm, hp.symm⟩
  · exact ⟨(k, names), mem_attached.1 hn, hp.symm⟩

theorem Run.copySource {h : List Op} {ix : Index} (r : Run h ix) (hv : ∀ t ∈ (dictOf h).tags, t.parent ≠ [])
    (ht : TextWords ix) : CopySource ix (dictOf h) := by
  have hlt := r.trie.length_lt
  refine ⟨r.trie, r.tag.tags, r.tag.names, hv, ?_, ?_⟩
  · intro w hw c hc
    have hne : w ≠ [] := by rintro rfl; cases hc
    obtain ⟨id, hid⟩ := r.trie.exists_id hw
    refine ht w id ?_ c hc
    rw [r.trie.fetchRoot_iff]
    refine ⟨hne, ?_⟩
    have hj : (dictOf h).join [] w = w := by
      unfold Dict.join
      split
      · rename_i hu
        cases w with
        | nil => rfl
        | cons a w =>
          have ha : a ≠ 0 := by
            rintro rfl
            exact r.trie.nul hu.2 (r.trie.closed hid [0] (by simp))
          simp [ha]
      · rfl
    rw [hj]; exact hid
  · intro k s hs
    by_cases hk : 0 < (UInt32.ofNat k).toNat ∧ (UInt32.ofNat k).toNat < (dictOf h).nodes.length
    · obtain ⟨L, hL, hsh⟩ := C10_exact r (UInt32.ofNat k) (by rw [r.trie.nodesCount]; omega)
      rw [r.tag.tags] at hsh
      have : setsOf ix k = L := by unfold setsOf; rw [hL]
      rw [this] at hs
      exact hsh.registered s hs
    · unfold setsOf at hs
      rw [tagSetsOf_none r.refines.1 hk] at hs
      cases hs

theorem CopySource.attached {ix : Index} {d : Dict} (c : CopySource ix d) (n : Nat) (hn : n < d.nodes.length) (k : Nat) :
    (dictOf (copyCalls ix n)).attached k = if 0 < k ∧ k ≤ n then (setsOf ix k).map tagNames else [] := by
  unfold Dict.attached
  rw [(c.dict n hn).2.2.2]
  clear hn
  induction n with
  | zero =>
    rw [if_neg (by omega)]; rfl
  | succ n ih =>
    rw [List.range_succ, List.flatMap_append, List.filter_append, List.map_append, ih]
    simp only [List.flatMap_cons, List.flatMap_nil, List.append_nil]
    by_cases hk : k = n + 1
    · subst hk
      rw [if_neg (by omega), if_pos (by omega), List.nil_append, List.filter_eq_self.2]
      · rw [List.map_map]; rfl
      · intro e he
        obtain ⟨s, _, rfl⟩ := List.mem_map.1 he
        simp
    · have : (List.filter (fun e => decide (e.1 = k)) ((setsOf ix (n + 1)).map fun s => (n + 1, tagNames s))) = [] := by
        rw [List.filter_eq_nil_iff]
        intro e he
        obtain ⟨s, _, rfl⟩ := List.mem_map.1 he
        simp only [decide_eq_true_eq]
        omega
      rw [this, List.map_nil, List.append_nil]
      by_cases h2 : 0 < k ∧ k ≤ n
      · rw [if_pos h2, if_pos (by omega)]
      · rw [if_neg h2, if_neg (by omega)]

/-! ## The copy has room -/

theorem copy_room {h : List Op} {ix : Index} (r : Run h ix) (m : Room h) (o : Orig ix h) (cr : CopyRoom ix)
    (c : CopySource ix (dictOf h)) (n : Nat) (hn : n < (dictOf h).nodes.length) : Room (copyCalls ix n) := by
  have hlt := r.trie.length_lt
  obtain ⟨d1, d2, d3, d4⟩ := c.dict n hn
  have hread : ∀ e ∈ (dictOf (copyCalls ix n)).readings, ∃ k s, 0 < k ∧ k ≤ n ∧ s ∈ setsOf ix k ∧ e = (k, tagNames s) := by
    intro e he
    rw [d4, List.mem_flatMap] at he
    obtain ⟨i, hi, he⟩ := he
    obtain ⟨s, hs, rfl⟩ := List.mem_map.1 he
    rw [List.mem_range] at hi
    exact ⟨i + 1, s, by omega, by omega, hs, rfl⟩
  constructor
  · rw [d1, List.length_take]; omega
  · rw [d2]; exact m.tags
  · intro op hop
    unfold copyCalls at hop
    rw [List.mem_append, List.mem_map, List.mem_flatMap] at hop
    rcases hop with ⟨t, ht, rfl⟩ | ⟨i, hi, hop⟩
    · rw [c.tags] at ht
      have := o.savable t ht
      exact ⟨this.1, this.2.1, this.2.2⟩
    · rw [List.mem_range] at hi
      unfold blockCalls at hop
      rw [List.mem_cons, List.mem_map] at hop
      rcases hop with rfl | ⟨s, hs, rfl⟩
      · trivial
      · obtain ⟨_, _, _, e, he, hp⟩ := r.copied (k := i + 1) (by omega) (by omega) hs
        show (tagNames s).length ≤ 255
        rw [← hp.length_eq]
        exact readings_plain m.plain e he
  · obtain ⟨L, l1, l2⟩ := m.readings
    refine ⟨L, l1, ?_⟩
    intro e he
    obtain ⟨k, s, k0, k1, hs, rfl⟩ := hread e he
    obtain ⟨_, _, _, e, he, hp⟩ := r.copied (k := k) k0 (by omega) hs
    obtain ⟨l, hl, hp'⟩ := l2 e he
    exact ⟨l, hl, hp'.trans hp⟩
  · intro k
    rw [c.attached n hn]
    split
    · rename_i hk
      obtain ⟨L, l1, l2⟩ := m.perWord k
      refine ⟨L.map (seenAs (dictOf h).firstSingle), by rw [List.length_map]; exact l1, ?_⟩
      intro names hnm
      obtain ⟨s, hs, rfl⟩ := List.mem_map.1 hnm
      obtain ⟨names, ha, hp, _⟩ := r.copied (k := k) hk.1 (by omega) hs
      obtain ⟨l, hl, hp'⟩ := l2 names ha
      refine ⟨_, List.mem_map.2 ⟨l, hl, rfl⟩, ?_⟩
      refine List.Perm.trans ?_ hp.symm
      unfold seenAs
      by_cases e : names = []
      · subst e
        rw [List.perm_nil.1 hp']
      · have e' : l ≠ [] := by rintro rfl; exact e (List.perm_nil.1 hp'.symm)
        rw [if_neg e, if_neg e']; exact hp'
    · exact ⟨[], by simp, by simp⟩
  · obtain ⟨L, l1, l2⟩ := cr
    refine ⟨L.map fun A => A.map tagNames, by rw [List.length_map]; exact l1, ?_⟩
    intro q hq k hne
    obtain ⟨q', eq⟩ := hq
    have hpre := attached_mono (dictOf_readings_prefix q q') k
    rw [eq, c.attached n hn] at hpre
    split at hpre
    · rename_i hk
      rw [List.prefix_map_iff] at hpre
      obtain ⟨p, hp, e⟩ := hpre
      rw [e] at hne ⊢
      obtain ⟨A, hA, hs⟩ := l2 (UInt32.ofNat k) _ (r.shown_at hk.1 (by omega)).1 p hp (by rintro rfl; simp at hne)
      exact ⟨_, List.mem_map.2 ⟨A, hA, rfl⟩, hs⟩
    · exact absurd (List.prefix_nil.1 hpre) hne

/-! ## The program makes these calls -/

theorem attachAll_eq (k : Nat) (hk : k < 4294967296) (h0 : 0 < k) (sets : List (List Tag)) (h : List Op) {ix' : Index}
    (r' : Run (h ++ sets.map fun s => Op.addTagSet (UInt32.ofNat k) (tagNames s)) ix')
    (h1 : k < (dictOf h).nodes.length) (ht : ∀ s ∈ sets, ∀ x ∈ s, (dictOf h).hasTag x.name = true) :
    attachAll (execAll h) (UInt32.ofNat k) sets = some ix' := by
  have ek : (UInt32.ofNat k).toNat = k := toNat_ofNat_lt hk
  induction sets generalizing h with
  | nil =>
    rw [List.map_nil, List.append_nil] at r'
    rw [r'.eq]; rfl
  | cons s sets ih =>
    have e : h ++ (s :: sets).map (fun s => Op.addTagSet (UInt32.ofNat k) (tagNames s)) =
        (h ++ [Op.addTagSet (UInt32.ofNat k) (tagNames s)]) ++
          sets.map fun s => Op.addTagSet (UInt32.ofNat k) (tagNames s) := by simp
    rw [e] at r'
    obtain ⟨ix, r⟩ := Run.before (h := h) (by rw [List.append_assoc] at r'; exact r')
    obtain rfl := r.eq
    have hall : (tagNames s).all (dictOf h).hasTag = true := by
      rw [List.all_eq_true]
      intro n hn
      obtain ⟨x, hx, rfl⟩ := List.mem_map.1 hn
      exact ht s (by simp) x hx
    obtain ⟨ids, hids⟩ := all_hasTag_iff.1 hall
    have hok := (r.tag.addTagSet_ok r.trie r.caps r.refines.2.tags (UInt32.ofNat k) (tagNames s) (by rw [ek]; exact h0)
      (by rw [ek]; exact h1) hids).1
    have hex : execAll (h ++ [Op.addTagSet (UInt32.ofNat k) (tagNames s)]) =
        ((execAll h).addTagSet (UInt32.ofNat k) (tagNames s)).1 := by
      unfold execAll; rw [List.foldl_append]; rfl
    have hd : dictOf (h ++ [Op.addTagSet (UInt32.ofNat k) (tagNames s)]) =
        { dictOf h with readings := (dictOf h).readings ++ [(k, tagNames s)] } := by
      rw [dictOf_append]
      simp only [Op.spec]
      rw [ek, if_pos ⟨hall, h0, h1⟩]
    have := ih (h ++ [Op.addTagSet (UInt32.ofNat k) (tagNames s)]) r' (by rw [hd]; exact h1)
      (by rw [hd]; intro s hs x hx; exact ht s (by simp [hs]) x hx)
    rw [hex] at this
    unfold attachAll
    generalize hg : (execAll h).addTagSet (UInt32.ofNat k) (tagNames s) = g at *
    obtain ⟨g1, g2⟩ := g
    simp only at hok
    subst hok
    exact this

theorem copyTags_eq (T : List Tag) (ix : Index) :
    copyTags ix T = (T.map fun t => Op.tagID t.name t.parent).foldl Op.exec ix := by
  induction T generalizing ix with
  | nil => rfl
  | cons t T ih => exact ih _

theorem addString_to {h : List Op} {ix : Index} (r : Run h ix) (w : Str) (k : Nat) (hd : decodeRunes w ≠ [])
    (hjoin : (dictOf h).join [] (decodeRunes w) = decodeRunes w)
    (hlt : (dictOf (h ++ [Op.addString w])).nodes.length < 4294967296)
    (hk : (dictOf (h ++ [Op.addString w])).nodes[k]? = some (decodeRunes w)) :
    (ix.addString w).2 = .ok (UInt32.ofNat k) := by
  have hw : ¬ w.length = 0 := by
    intro e
    rw [List.length_eq_zero_iff.1 e] at hd
    exact hd rfl
  have hn : (dictOf (h ++ [Op.addString w])).nodes = addAll (dictOf h).nodes (prefixes (decodeRunes w)) := by
    rw [dictOf_append]
    simp only [Op.spec, Dict.insert]
    rw [r.trie.root]
    simp only
    rw [if_neg hd, hjoin]
  rw [hn] at hlt hk
  obtain ⟨id, i1, i2, i3, _⟩ := r.trie.addLoop_spec 0 0 [] (decodeRunes w) (by rw [zero_toNat]; exact r.trie.root) hd
    (by rw [hjoin]; exact hlt)
  rw [hjoin] at i2 i3
  have hid : id.toNat = k := i2.idx_unique i3 hk
  unfold Index.addString
  rw [if_neg hw]
  refine Eq.trans i1 ?_
  rw [← hid]
  simp

theorem addString_at {h : List Op} {ix : Index} (r : Run h ix) (w : Str) (k : Nat) (hd : decodeRunes w ≠ [])
    (hj : (dictOf h).nul = false) (hlt : (dictOf (h ++ [Op.addString w])).nodes.length < 4294967296)
    (hk : (dictOf (h ++ [Op.addString w])).nodes[k]? = some (decodeRunes w)) :
    (ix.addString w).2 = .ok (UInt32.ofNat k) :=
  addString_to r w k hd (by unfold Dict.join; rw [hj]; simp) hlt hk

theorem copyNodes_eq {h : List Op} {ix : Index} (r : Run h ix) (c : CopySource ix (dictOf h)) (N : Nat)
    (hN : N < (dictOf h).nodes.length) {ix' : Index} (r' : Run (copyCalls ix N) ix') (n : Nat) (hn : n ≤ N) :
    copyNodes ix n = some (execAll (copyCalls ix n)) := by
  have hlt := r.trie.length_lt
  induction n with
  | zero =>
    have e : copyCalls ix 0 = ix.tags.map fun t => Op.tagID t.name t.parent := by unfold copyCalls; simp
    rw [e]
    unfold copyNodes execAll
    rw [copyTags_eq]
  | succ n ih =>
    obtain ⟨w, hw⟩ : ∃ w, (dictOf h).nodes[n + 1]? = some w := ⟨_, List.getElem?_eq_getElem (by omega)⟩
    obtain ⟨hword, hdec⟩ := c.wordOf_eq hw
    obtain ⟨hne, hgrow⟩ := c.grow hw
    obtain ⟨hsets, _⟩ := r.shown_at (k := n + 1) (by omega) (by omega)
    unfold copyNodes
    rw [ih (by omega), Option.bind_some]
    unfold copyNode
    rw [hword, hsets]
    simp only
    obtain ⟨rest, erest⟩ := copyCalls_prefix ix hn
    rw [← erest] at r'
    obtain ⟨ix1, r1⟩ := r'.before
    have e2 : copyCalls ix (n + 1) = (copyCalls ix n ++ [Op.addString (wordOf ix (n + 1))]) ++
        (setsOf ix (n + 1)).map fun s => Op.addTagSet (UInt32.ofNat (n + 1)) (tagNames s) := by
      rw [copyCalls_succ]; simp [blockCalls]
    have hexec := r1.eq
    rw [e2] at r1
    obtain ⟨ix2, r2⟩ := r1.before
    obtain ⟨ix3, r3⟩ := r2.before
    obtain rfl := r2.eq
    obtain rfl := r3.eq
    obtain ⟨d1, d2, d3, _⟩ := c.dict n (by omega)
    have hnodes : (dictOf (copyCalls ix n ++ [Op.addString (wordOf ix (n + 1))])).nodes = (dictOf h).nodes.take (n + 2) := by
      rw [dictOf_append]
      simp only [Op.spec, Dict.insert]
      rw [hdec, d1]
      have hr : ((dictOf h).nodes.take (n + 1))[0]? = some [] := by
        rw [List.getElem?_take, if_pos (by omega)]; exact c.trie.root
      rw [hr]
      simp only
      rw [if_neg hne]
      have hj : (dictOf (copyCalls ix n)).join [] w = w := by
        unfold Dict.join; rw [d3]; simp
      rw [hj, hgrow]
    have htags : (dictOf (copyCalls ix n ++ [Op.addString (wordOf ix (n + 1))])).tags = (dictOf h).tags := by
      rw [dictOf_append, ← d2]
      simp only [Op.spec, Dict.insert]
      split
      · rfl
      · split <;> rfl
    have hadd := addString_at r3 (wordOf ix (n + 1)) (n + 1) (by rw [hdec]; exact hne) d3
      (by rw [hnodes, List.length_take]; omega)
      (by rw [hnodes, hdec, List.getElem?_take, if_pos (by omega)]; exact hw)
    have hatt := attachAll_eq (n + 1) (by omega) (by omega) _ _ r1 (by rw [hnodes, List.length_take]; omega)
      (fun x hx t ht => hasTag_of_mem (by rw [htags]; exact c.known _ x hx t ht))
    have hex : execAll (copyCalls ix n ++ [Op.addString (wordOf ix (n + 1))]) =
        ((execAll (copyCalls ix n)).addString (wordOf ix (n + 1))).1 := by
      unfold execAll; rw [List.foldl_append]; rfl
    rw [hex] at hatt
    generalize (execAll (copyCalls ix n)).addString (wordOf ix (n + 1)) = g at *
    obtain ⟨g1, g2⟩ := g
    simp only at hadd
    subst hadd
    simp only
    rw [hatt, hexec]

/-! ## The source -/

theorem parents_ne (h : List Op) : ∀ t ∈ (dictOf h).tags, t.parent ≠ [] := by
  induction h using list_reverse_induction with
  | nil => simp [dictOf, Dict.empty]
  | snoc h op ih =>
    rw [dictOf_append]
    have hins : ∀ p rs, ((dictOf h).insert p rs).tags = (dictOf h).tags := by
      intro p rs; unfold Dict.insert; split
      · rfl
      · split <;> rfl
    have hname : ∀ n, storedName n ≠ [] := by
      intro n; unfold storedName; split
      · simp [emptyTagName]
      · rename_i hn; exact fun e => hn (.inl e)
    cases op with
    | addRunes rs => simp only [Op.spec, hins]; exact ih
    | addString w => simp only [Op.spec, hins]; exact ih
    | addToNode id rs => simp only [Op.spec, hins]; exact ih
    | tagID name parent =>
      simp only [Op.spec]
      split
      · exact ih
      · intro t ht
        rw [List.mem_append, List.mem_singleton] at ht
        rcases ht with ht | rfl
        · exact ih t ht
        · unfold newTag
          simp only
          split
          · simp [emptyTagName]
          · assumption
    | addTagSet id names => simp only [Op.spec]; split <;> exact ih
    | reload =>
      simp only [Op.spec]
      intro t ht
      obtain ⟨t', _, rfl⟩ := List.mem_map.1 ht
      exact hname _
    | _ => exact ih

theorem nodes_text {h : List Op} (hp : ∀ op ∈ h, op.Text) : ∀ w ∈ (dictOf h).nodes, ∀ c ∈ w, IsScalar c := by
  induction h using list_reverse_induction with
  | nil => simp [dictOf, Dict.empty]
  | snoc h op ih =>
    rw [dictOf_append]
    have ih' := ih fun op ho => hp op (by simp [ho])
    have hop := hp op (by simp)
    have hins : ∀ p rs, (∀ c ∈ rs, IsScalar c) → ∀ w ∈ ((dictOf h).insert p rs).nodes, ∀ c ∈ w, IsScalar c := by
      intro p rs hrs
      unfold Dict.insert
      split
      · exact ih'
      · rename_i v hv
        split
        · exact ih'
        · intro w hw c hc
          simp only at hw
          rw [mem_addAll] at hw
          rcases hw with hw | hw
          · exact ih' w hw c hc
          · have hpre := (mem_prefixes.1 hw).2.subset hc
            unfold Dict.join at hpre
            split at hpre
            · exact hrs c ((List.dropWhile_suffix _).subset hpre)
            · rw [List.mem_append] at hpre
              rcases hpre with hpre | hpre
              · exact ih' v (List.mem_of_getElem? hv) c hpre
              · exact hrs c hpre
    cases op with
    | addRunes rs => exact hins 0 rs hop
    | addString w => exact hins 0 _ (C50_any w).1
    | addToNode id rs => exact hins _ rs hop
    | tagID name parent => simp only [Op.spec]; split <;> exact ih'
    | addTagSet id names => simp only [Op.spec]; split <;> exact ih'
    | reload => exact ih'
    | _ => exact ih'

/-! ## Two dictionaries that differ in their readings only -/

theorem sameDictionary_of {ix ix' : Index} {d d' : Dict} (r : Refines ix d) (r' : Refines ix' d') (hc : Caps ix)
    (hn : d'.nodes = d.nodes) (ht : d'.tags = d.tags) (ha : ∀ k, k < d.nodes.length → (d'.attached k = [] ↔ d.attached k = []))
    (hs : ∀ id L, ix.tagSetsOf id = .ok L → [] ∉ L → ∃ M, ix'.tagSetsOf id = .ok M ∧ SameTagSets L M)
    (hh : ∀ id L, ix.tagSetsOf id = .ok L → [] ∈ L → (∀ t ∈ L, t = []) ∧ ix'.tagSetsOf id = .ok [[]]) :
    SameDictionary ix ix' := by
  have hj : ∀ (id : ID) (rs w : List Rune), (id ≠ 0 ∨ rs.head? ≠ some 0) →
      d.nodes[id.toNat]? = some w → d'.join w rs = d.join w rs := by
    intro id rs w hz hw
    by_cases hw0 : w = []
    · subst hw0
      have : id = 0 := TrieOK.toNat_eq_zero.1 (r.trie.idx_unique hw r.trie.root)
      rcases hz with hz | hz
      · exact absurd this hz
      · rw [Dict.join_root (.inr hz), Dict.join_root (.inr hz)]
    · rw [Dict.join_of_ne hw0, Dict.join_of_ne hw0]
  have hfetch : ∀ id rs, id ≠ 0 ∨ rs.head? ≠ some 0 →
      (ix'.fetchFromItem id rs).2 = (ix.fetchFromItem id rs).2 :=
    fun id rs hz => fetch_same r.trie r'.trie hn id rs fun w hw => hj id rs w hz hw
  constructor
  · exact hfetch
  · intro id rs hz
    rw [fetchItemFromParent_same r.trie, fetchItemFromParent_same r'.trie]
    exact hfetch id rs hz
  · intro id
    unfold Index.get
    rw [r.trie.next, r'.trie.next, hn]
  · intro id
    cases hw : d.nodes[id.toNat]? with
    | none => rw [r.trie.word_none hw, r'.trie.word_none (by rw [hn]; exact hw)]
    | some w => rw [r.trie.word_eq hw, r'.trie.word_eq (by rw [hn]; exact hw)]
  · intro id c hz
    cases hw : d.nodes[id.toNat]? with
    | none => rw [r.trie.children_none hw, r'.trie.children_none (by rw [hn]; exact hw)]
    | some w =>
      have e : d'.join w [c] = d.join w [c] := hj id [c] w (hz.imp_right (by simp)) hw
      cases hcc : ix.getChildrenMap id c with
      | some x =>
        have := (r.trie.child_some hw c x).1 hcc
        exact (r'.trie.child_some (by rw [hn]; exact hw) c x).2 (by rw [hn, e]; exact this)
      | none =>
        have := (r.trie.child_none hw c).1 hcc
        exact (r'.trie.child_none (by rw [hn]; exact hw) c).2 (by rw [hn, e]; exact this)
  · rw [r.tag.tags, r'.tag.tags, ht]
  · rw [r.trie.nodesCount, r'.trie.nodesCount, hn]
  · rw [r.tag.count, r'.tag.count]
    unfold taggedCount
    rw [hn]
    congr 1
    refine List.filter_congr fun k hk => ?_
    have key : ∀ e : Dict, e.readings.any (·.1 == k) = true ↔ e.attached k ≠ [] := by
      intro e
      unfold Dict.attached
      rw [List.any_eq_true, ne_eq, List.map_eq_nil_iff, List.filter_eq_nil_iff]
      push Not
      simp
    have := ha k (List.mem_range.1 hk)
    rw [Bool.eq_iff_iff, key, key, ne_eq, ne_eq, this]
  · exact hs
  · exact hh
  · intro id hp
    have : ¬ (0 < id.toNat ∧ id.toNat < d.nodes.length) := by
      rintro ⟨h0, h1⟩
      obtain ⟨_, _, _, _, e⟩ := tagSetsOf_eq r hc h0 h1
      rw [e] at hp
      cases hp
    exact tagSetsOf_none r' (by rw [hn]; exact this)

/-! ## Small histories have room -/

theorem attached_step (d : Dict) (op : Op) (k : Nat) : (op.spec d).attached k = d.attached k ∨
    ∃ id names, op = .addTagSet id names ∧ id.toNat = k := by
  rcases Op.spec_readings d op with g | ⟨id, names, rfl, g⟩
  · left; unfold Dict.attached; rw [g]
  · by_cases hk : id.toNat = k
    · exact .inr ⟨id, names, rfl, hk⟩
    · left; unfold Dict.attached; rw [g, List.filter_append]; simp [hk]

theorem readings_le (h : List Op) : (dictOf h).readings.length ≤ (h.filter Op.isAddTagSet).length := by
  induction h using list_reverse_induction with
  | nil => simp [dictOf, Dict.empty]
  | snoc h op ih =>
    rw [dictOf_append, List.filter_append, List.length_append]
    rcases Op.spec_readings (dictOf h) op with g | ⟨id, names, rfl, g⟩
    · rw [g]; omega
    · rw [g, List.length_append]
      exact Nat.add_le_add ih (Nat.le_refl 1)

theorem attached_kinds (h : List Op) : ∃ L : List (List (List Str)), L.length ≤ (h.filter Op.isAddTagSet).length ∧
    ∀ q, q <+: h → ∀ k, (dictOf q).attached k ≠ [] → (dictOf q).attached k ∈ L := by
  induction h using list_reverse_induction with
  | nil =>
    refine ⟨[], by simp, ?_⟩
    intro q hq k hne
    rw [List.prefix_nil.1 hq] at hne
    exact absurd rfl hne
  | snoc h op ih =>
    obtain ⟨L, l1, l2⟩ := ih
    rw [List.filter_append, List.length_append]
    by_cases hop : ∃ id names, op = .addTagSet id names
    · obtain ⟨id, names, rfl⟩ := hop
      refine ⟨L ++ [(dictOf (h ++ [.addTagSet id names])).attached id.toNat], ?_, ?_⟩
      · rw [List.length_append]
        exact Nat.add_le_add l1 (Nat.le_refl 1)
      · intro q hq k hne
        rcases List.prefix_concat_iff.1 hq with rfl | hq
        · rcases attached_step (dictOf h) (.addTagSet id names) k with g | ⟨id', names', e, hk⟩
          · rw [dictOf_append, g] at hne ⊢
            exact List.mem_append_left _ (l2 h (List.prefix_refl _) k hne)
          · cases e
            rw [hk]; simp
        · exact List.mem_append_left _ (l2 q hq k hne)
    · refine ⟨L, by omega, ?_⟩
      intro q hq k hne
      rcases List.prefix_concat_iff.1 hq with rfl | hq
      · rcases attached_step (dictOf h) op k with g | ⟨id', names', e, hk⟩
        · rw [dictOf_append, g] at hne ⊢
          exact l2 h (List.prefix_refl _) k hne
        · exact absurd ⟨_, _, e⟩ hop
      · exact l2 q hq k hne

theorem tags_length_le (h : List Op) : (dictOf h).tags.length ≤ (h.filter Op.isTagID).length := by
  induction h using list_reverse_induction with
  | nil => simp [dictOf, Dict.empty]
  | snoc h op ih =>
    rw [dictOf_append, List.filter_append, List.length_append]
    have hins : ∀ p rs, ((dictOf h).insert p rs).tags = (dictOf h).tags := by
      intro p rs; unfold Dict.insert; split
      · rfl
      · split <;> rfl
    cases op with
    | addRunes rs => simp only [Op.spec, hins]; omega
    | addString w => simp only [Op.spec, hins]; omega
    | addToNode id rs => simp only [Op.spec, hins]; omega
    | tagID name parent =>
      simp only [Op.spec]
      split
      · omega
      · rw [List.length_append]; exact Nat.add_le_add ih (Nat.le_refl 1)
    | addTagSet id names => simp only [Op.spec]; split <;> exact Nat.le_trans ih (Nat.le_add_right _ _)
    | reload => simp only [Op.spec, List.length_map]; omega
    | _ => simp only [Op.spec]; omega

/-- A small history is within capacity. -/
theorem Small.toRoom {h : List Op} (s : Small h) : Room h := by
  have hr := readings_le h
  have hs := s.sets
  constructor
  · exact (small_runs h s).trie.length_lt
  · exact Nat.le_trans (tags_length_le h) s.tags
  · exact s.plain
  · refine ⟨(dictOf h).readings.map (·.2), by rw [List.length_map]; omega, ?_⟩
    intro e he
    exact ⟨e.2, List.mem_map.2 ⟨e, he, rfl⟩, List.Perm.refl _⟩
  · intro k
    refine ⟨(dictOf h).attached k, ?_, fun names hn => ⟨names, hn, List.Perm.refl _⟩⟩
    unfold Dict.attached
    rw [List.length_map]
    exact Nat.le_trans (List.length_filter_le _ _) (by omega)
  · obtain ⟨L, l1, l2⟩ := attached_kinds h
    refine ⟨L, by omega, ?_⟩
    intro q hq k hne
    exact ⟨_, l2 q hq k hne, fun a ha => ⟨a, ha, List.Perm.refl _⟩, fun a ha => ⟨a, ha, List.Perm.refl _⟩⟩

end Verif
