import Verif.Lemmas.Cost
import Verif.Props.Capacity
import Verif.Props.EndToEnd

/-!
# C96: what a call costs

A step is one round of a loop or one call of a recursive function (`Model/Cost.lean`). Looking up, adding and asking for
readings cost the same in a large dictionary as in a small one. Attaching a reading does not: it costs a step for every
different reading with that number of tags, and for every different set of readings of that size.
-/

namespace Verif

/-- The functions whose steps are counted are the functions of the model. -/
theorem C96_counted (ix : Index) (id : ID) (rs : List Rune) (names : List Str) :
    (ix.fetchFromItemT id rs).1 = ix.fetchFromItem id rs ∧ (Index.addLoopT id ix id rs).1 = ix.addToNode id rs ∧
    (ix.wordT id).1 = ix.word id ∧ (ix.addTagSetT id names).1 = ix.addTagSet id names ∧
    (ix.tagSetsOfT id).1 = ix.tagSetsOf id :=
  ⟨fetchFromItemT_fst _ _ _, addLoopT_fst _ _ _ _, wordT_fst _ _, addTagSetT_fst _ _ _, tagSetsOfT_fst _ _⟩

variable {h : List Op} {ix : Index}

/-- Asking for a word: one step for each character if it is there, at most two if not, whatever the dictionary. -/
theorem C96_lookup (r : Run h ix) (q : List Rune) :
    (ix.fetchFromItemT 0 q).2 ≤ 2 * q.length ∧
    (∀ id, (ix.fetchRunes q).2 = .ok id → (ix.fetchFromItemT 0 q).2 = q.length) := by
  by_cases hq : q = []
  · subst hq
    exact ⟨Nat.le_refl _, fun _ _ => rfl⟩
  rcases r.trie.fetchT_spec 0 [] q r.trie.root hq with ⟨c, _, e⟩ | ⟨pre, a, post, e1, e2, e3⟩
  · exact ⟨by omega, fun _ _ => e⟩
  · refine ⟨?_, fun id hid => ?_⟩
    · rw [e3, e1]
      have := join_length_le (dictOf h) [] pre
      simp only [List.length_nil] at this
      simp only [List.length_append, List.length_cons]
      omega
    · unfold Index.fetchRunes at hid
      rw [hid] at e2
      cases e2

/-- Asking from a node: the same, and when the answer is no, a step for each character of the word of the node, which is
named in the error. `w` is that word. -/
theorem C96_lookup_from (r : Run h ix) (id : ID) (q w : List Rune) (hw : ((dictOf h).nodes[id.toNat]?).getD [] = w) :
    (ix.fetchFromItemT id q).2 ≤ 2 * q.length + w.length ∧
    (∀ n, (ix.fetchFromItem id q).2 = .ok n → (ix.fetchFromItemT id q).2 = q.length) := by
  by_cases hq : q = []
  · subst hq
    exact ⟨Nat.zero_le _, fun _ _ => rfl⟩
  have hpos := List.length_pos_iff.2 hq
  cases hn : (dictOf h).nodes[id.toNat]? with
  | none =>
    have e := r.trie.fetchT_unknown id q hn hq
    refine ⟨by omega, fun n hf => ?_⟩
    have hf' : (ix.fetchFromItemT id q).1.2 = .ok n := by rw [fetchFromItemT_fst]; exact hf
    exfalso
    cases q with
    | nil => exact hq rfl
    | cons a q =>
      have hs := getChildrenIDMap_snd ix id
      unfold Index.fetchFromItem at hf
      generalize ix.getChildrenIDMap id = x at hs hf
      obtain ⟨ix1, cm⟩ := x
      simp only at hs hf
      subst hs
      cases hc : ix.getChildrenMap id a with
      | none =>
        rw [hc] at hf
        simp only at hf
        cases hx : ix1.word id <;> rw [hx] at hf <;> cases hf
      | some c =>
        rcases (r.trie.child id a c).1 hc with ⟨w, hw, _⟩ | ⟨_, e0, _⟩
        · rw [hn] at hw; cases hw
        · subst e0
          rw [show (0 : ID).toNat = 0 from rfl, r.trie.root] at hn
          cases hn
  | some v =>
    rw [hn] at hw
    simp only [Option.getD_some] at hw
    subst hw
    rcases r.trie.fetchT_spec id v q hn hq with ⟨c, _, e⟩ | ⟨pre, a, post, e1, e2, e3⟩
    · exact ⟨by omega, fun _ _ => e⟩
    · refine ⟨?_, fun n hid => ?_⟩
      · rw [e3, e1]
        have := join_length_le (dictOf h) v pre
        simp only [List.length_append, List.length_cons]
        omega
      · rw [hid] at e2
        cases e2

/-- Exactly how many steps a failing lookup takes is told by its error: the characters `pre` were found, `a` was not, and
the word named in the error is spelled out again. -/
theorem C96_lookup_exact (r : Run h ix) (q : List Rune) (hq : q ≠ []) (hnf : ∀ id, (ix.fetchRunes q).2 ≠ .ok id) :
    ∃ pre a post w, q = pre ++ a :: post ∧ (ix.fetchRunes q).2 = .err (.notFound (encodeRunes w) a) ∧
      (ix.fetchFromItemT 0 q).2 = (pre.length + 1) + max 1 w.length := by
  rcases r.trie.fetchT_spec 0 [] q r.trie.root hq with ⟨c, e, _⟩ | ⟨pre, a, post, e1, e2, e3⟩
  · exact absurd e (hnf c)
  · exact ⟨pre, a, post, _, e1, e2, e3⟩

/-- Asking a node for its word: a step for each character. -/
theorem C96_word (r : Run h ix) (id : ID) (w : List Rune) (hw : (dictOf h).nodes[id.toNat]? = some w) :
    (ix.wordT id).2 = max 1 w.length := r.trie.wordT_snd hw

/-- Adding: at most a step for each character, and exactly that if it succeeds, on any index whatever. -/
theorem C96_add (ix : Index) (id : ID) (rs : List Rune) :
    (Index.addLoopT id ix id rs).2 ≤ rs.length ∧
    (∀ n, (ix.addToNode id rs).2 = .ok n → (Index.addLoopT id ix id rs).2 = rs.length) := by
  obtain ⟨h1, h2⟩ := addLoopT_le id ix id rs
  refine ⟨h1, fun n hn => h2 n ?_⟩
  rw [addLoopT_fst]
  exact hn

/-- Asking for readings: at most a step for each reading in the answer and for each of its tags, on any index. -/
theorem C96_readings (ix : Index) (id : ID) (res : List (List Tag)) (hr : ix.tagSetsOf id = .ok res) :
    (ix.tagSetsOfT id).2 ≤ (res.map fun s => 1 + s.length).sum := by
  unfold Index.tagSetsOf at hr
  unfold Index.tagSetsOfT
  cases hg : ix.items.get id with
  | none => exact Nat.zero_le _
  | some it =>
    rw [hg] at hr
    simp only at hr ⊢
    cases hc : ix.collectionIdx.get it.variants with
    | ok c =>
      rw [hc] at hr
      obtain rfl := Out.ok.inj hr
      exact tagSetsLoopT_le ix c
    | err e => exact Nat.zero_le _
    | panic => exact Nat.zero_le _
    | diverge => exact Nat.zero_le _

/-! ## Attaching a reading -/

/-- The sizes that count: among the readings ever attached there are at most `R` different ones (the order of the tags
does not matter), at most `c` of the word with the id `k`, and the words ever had at most `K` different sets of them. -/
structure Different (h : List Op) (k : Nat) (R c K : Nat) : Prop where
  readings : ∃ L : List (List Str), L.length ≤ R ∧ ∀ e ∈ (dictOf h).readings, ∃ l ∈ L, l.Perm e.2
  word : ∃ L : List (List Str), L.length ≤ c ∧ ∀ names ∈ (dictOf h).attached k, ∃ l ∈ L, l.Perm names
  sets : ∃ L : List (List (List Str)), L.length ≤ K ∧
    ∀ q, q <+: h → ∀ k, (dictOf q).attached k ≠ [] → ∃ A ∈ L, SameSets A ((dictOf q).attached k)

/-- A reading with an unknown tag `n` is refused without looking at the tags after it, on any index. -/
theorem C96_refused (ix : Index) (id : ID) (pre : List Str) (n : Str) (post : List Str)
    (hn : ∀ t ∈ ix.tags, t.name ≠ n) :
    (∃ m, (ix.addTagSet id (pre ++ n :: post)).2 = .err (.unknownTag m)) ∧
    (ix.addTagSetT id (pre ++ n :: post)).2 ≤ (pre.length + 1) * (ix.tags.length + 1) := by
  have h0 : tagsFind ix.tags n = none := by
    unfold tagsFind
    rw [List.findIdx?_eq_none_iff.2 fun t ht => by simpa using hn t ht]
    rfl
  obtain ⟨⟨m, hm⟩, hk⟩ := findAllT_unknown ix.tags pre n post h0
  rw [← addTagSetT_fst]
  unfold Index.addTagSetT
  generalize findAllT ix.tags (pre ++ n :: post) = x at hm hk
  obtain ⟨o, k⟩ := x
  simp only at hm
  subst hm
  exact ⟨⟨m, rfl⟩, hk⟩

/-- Attaching a reading of `n` tags to a word, with `T` tags known: nothing depends on the number of words, or of calls.
The property asks for a bound without `R` and `K` (`not_C96`). -/
theorem C96_tag_partial (m : Room h) (id : ID) (names : List Str) {R c K : Nat} (d : Different h id.toNat R c K) :
    ((execAll h).addTagSetT id names).2 ≤ names.length * ((dictOf h).tags.length + 2) + R * (names.length + 1) +
      (3 * c + 2) + K * (c + 2) := by
  obtain ⟨r, o⟩ := run_of_room h m
  have hT : (dictOf h).tags.length ≤ 256 := by have := m.tags; omega
  obtain ⟨L, l1, l2⟩ := d.readings
  obtain ⟨A, a1, a2⟩ := d.word
  obtain ⟨S, s1, s2⟩ := d.sets
  have b1 : ∀ t ∈ (execAll h).tagSets, t.length ≤ R := fun t ht => (o.set_le r.refines.1 hT l2 t ht).trans l1
  have b2 : ∀ t ∈ (execAll h).collectionIdx, t.length ≤ K := fun t ht => (o.coll_le r.refines.1 hT s2 t ht).trans s1
  have f1 := findAllT_le (execAll h).tags names
  have f2 := findAllT_fst (execAll h).tags names
  rw [r.tag.tags] at f1 f2
  have e2 : names.length * ((dictOf h).tags.length + 2) = names.length * ((dictOf h).tags.length + 1) + names.length := by
    rw [← Nat.mul_succ]
  unfold Index.addTagSetT
  rw [r.tag.tags]
  generalize findAllT (dictOf h).tags names = x at f1 f2
  obtain ⟨res, k⟩ := x
  cases res with
  | error n => simp only at f1 ⊢; omega
  | ok s =>
    simp only at f1 f2 ⊢
    have hlen := findAll_length f2.symm
    cases hg : (execAll h).items.get id with
    | none => simp only; omega
    | some it =>
      by_cases hk : 0 < id.toNat ∧ id.toNat < (dictOf h).nodes.length
      · obtain ⟨it', w, hg', hit, _⟩ := r.trie.items_get hk.1 hk.2
        rw [hg] at hg'
        obtain rfl := Option.some.inj hg'
        obtain ⟨coll, hcoll, hmem⟩ := r.tag.vars id.toNat it hk.2 hit
        have hcn : coll.Nodup := by
          rcases hcoll with ⟨_, rfl⟩ | ⟨p, hp, _⟩
          · exact List.nodup_nil
          · exact r.tag.collNodup p coll hp
        have hc : coll.length ≤ c := (coll_length_le r.refines.1 hT hcn (by
          intro i
          rw [hmem]
          simp only [mem_attached]) a2).trans a1
        simp only [hcoll.get r.caps, TagSetIndex.indexT_fst, Coll.addT_fst]
        have g1 := (execAll h).tagSets.indexT_le s b1
        have g2 := Coll.addT_le coll ((execAll h).tagSets.index s).2
        have g3 := (execAll h).collectionIdx.indexT_le (Coll.add coll ((execAll h).tagSets.index s).2) b2
        have g4 := Coll.length_add coll ((execAll h).tagSets.index s).2
        rw [hlen] at g1
        have g5 : K * ((Coll.add coll ((execAll h).tagSets.index s).2).length + 1) ≤ K * (c + 2) :=
          Nat.mul_le_mul_left _ (by omega)
        omega
      · rw [r.trie.items_get_none hk] at hg
        cases hg

/-- And it does take a step for every different reading with that number of tags, if the reading is new: `L` are readings
attached before, no two of them the same. -/
theorem C96_tag_grows (m : Room h) (id : ID) (names : List Str) (hk : 0 < id.toNat ∧ id.toNat < (dictOf h).nodes.length)
    (h0 : names ≠ []) (hn : names.all (dictOf h).hasTag = true)
    (hnew : ∀ e ∈ (dictOf h).readings, ¬ e.2.Perm names)
    (L : List (List Str)) (hL : ∀ l ∈ L, l.length = names.length ∧ ∃ e ∈ (dictOf h).readings, e.2 = l)
    (hd : L.Pairwise fun a b => ¬ a.Perm b) : L.length ≤ ((execAll h).addTagSetT id names).2 := by
  obtain ⟨r, o⟩ := run_of_room h m
  have hT : (dictOf h).tags.length ≤ 256 := by have := m.tags; omega
  obtain ⟨s, hs⟩ := all_hasTag_iff.1 hn
  have hlen := findAll_length hs
  have hs0 : s ≠ [] := by
    rintro rfl
    exact h0 (List.length_eq_zero_iff.1 hlen.symm)
  have hcol : L.length ≤ ((execAll h).tagSets.getD (s.length - 1) []).length := by
    refine length_le_of_inj_cover (fun l x => ∃ ids, Index.findAll (dictOf h).tags l = .ok ids ∧ x = sortAsc ids) L _ ?_ ?_ ?_
    · exact hd.imp fun {a b} hp (e : a = b) => hp (by rw [e])
    · intro l hl
      obtain ⟨hll, e, he, rfl⟩ := hL l hl
      obtain ⟨_, _, i, hi⟩ := r.tag.readings e.1 e.2 he
      have hne : e.2 ≠ [] := by
        intro h'
        rw [h'] at hll
        exact h0 (List.length_eq_zero_iff.1 hll.symm)
      obtain ⟨ids, p, g1, g2, _⟩ := hi.get r.caps hne
      have hp1 := gGet_col_eq r.tag.sets g2
      refine ⟨sortAsc ids, ?_, ids, g1, rfl⟩
      have hp' := gGet_mem g2
      rw [length_sortAsc, findAll_length g1, hll, ← hlen] at hp1
      rw [show s.length - 1 = p.1 by omega]
      exact hp'
    · rintro a ha b hb x ⟨ids, g1, rfl⟩ ⟨ids', g2, g3⟩
      by_contra hab
      have hp := (findAll_perm r.tag.names hT g1 g2).1 (sortAsc_eq_iff_perm.1 g3)
      obtain ⟨i, hi, rfl⟩ := List.getElem_of_mem ha
      obtain ⟨j, hj, rfl⟩ := List.getElem_of_mem hb
      rcases Nat.lt_trichotomy i j with hij | rfl | hij
      · exact List.pairwise_iff_getElem.1 hd i j hi hj hij hp
      · exact hab rfl
      · exact List.pairwise_iff_getElem.1 hd j i hj hi hij hp.symm
  have hnot : sortAsc s ∉ (execAll h).tagSets.getD (s.length - 1) [] := by
    intro hm
    obtain ⟨j, hj⟩ := List.getElem?_of_mem hm
    obtain ⟨e, he, ids, g1, g2⟩ := o.sets (s.length - 1, j) _ hj
    exact hnew e he ((findAll_perm r.tag.names hT g1 hs).1 (sortAsc_eq_iff_perm.1 g2.symm))
  have g1 := (execAll h).tagSets.indexT_ge s hs0 hnot
  obtain ⟨it, w, hg, hit, _⟩ := r.trie.items_get hk.1 hk.2
  obtain ⟨coll, hcoll, _⟩ := r.tag.vars id.toNat it hk.2 hit
  have f2 := findAllT_fst (execAll h).tags names
  rw [r.tag.tags, hs] at f2
  unfold Index.addTagSetT
  rw [r.tag.tags]
  generalize findAllT (dictOf h).tags names = x at f2
  obtain ⟨res, k⟩ := x
  simp only at f2
  subst f2
  simp only [hg, hcoll.get r.caps]
  omega

/-! ## The hypotheses can be met -/

/-- Within capacity there are always such sizes. -/
theorem Room.different (m : Room h) (k : Nat) : Different h k 65535 255 65536 := ⟨m.readings, m.perWord k, m.sets⟩

/-- The calls that import "a" as a noun, "b" as a verb, with a third tag that is not used. -/
def costEntries : List Entry :=
  [.grammeme (str "NOUN") [], .grammeme (str "VERB") [], .grammeme (str "ADJF") [],
   .lem [(str "a", [str "NOUN"]), (str "b", [str "VERB"])]]

theorem costEntries_room : Room (callsOf costEntries) := by
  refine room_of_doc (declared_of_check _ (by decide)) ?_
  apply DocSmall.room
  constructor <;> decide

/-- A new reading of "a": two readings were known, and the call takes at least two steps. -/
example : 2 ≤ ((execAll (callsOf costEntries)).addTagSetT 1 [str "ADJF"]).2 :=
  C96_tag_grows costEntries_room 1 [str "ADJF"] (by decide) (by decide) (by decide) (by decide)
    [[str "NOUN"], [str "VERB"]] (by decide) (by decide)

/-- It takes 12. -/
example : ((execAll (callsOf costEntries)).addTagSetT 1 [str "ADJF"]).2 = 12 := by decide

/-- The bound for it: the readings are two, one of them is that of "a", and no word had more than one. -/
example : ((execAll (callsOf costEntries)).addTagSetT 1 [str "ADJF"]).2 ≤ 1 * (3 + 2) + 65535 * 2 + (3 * 255 + 2) + 65536 * 257 :=
  C96_tag_partial costEntries_room 1 [str "ADJF"] (costEntries_room.different 1)

/-- Looking up "ab", and "axy", of which only "a" is there. -/
example : ((execAll [.addRunes [97, 98]]).fetchFromItemT 0 [97, 98]).2 = 2 ∧
    ((execAll [.addRunes [97, 98]]).fetchFromItemT 0 [97, 120, 121]).2 = 3 := by decide

/-- Two steps for one character can be needed. -/
example : ((execAll [.addRunes [97, 98]]).fetchFromItemT 0 [98]).2 = 2 := by decide

/-! ## What does not hold -/

/-- Before and after a reading is attached to another word. -/
def costBefore : List Op :=
  [.tagID (str "NOUN") [], .tagID (str "VERB") [], .addRunes [97], .addRunes [98]]

/-- See `costBefore`. -/
def costAfter : List Op := costBefore ++ [.addTagSet 2 [str "NOUN"]]

/-- C96 does not hold for attaching a reading: the number of steps is not determined by the reading, the known tags and
the readings the word has. After "b" became a noun, making "a" a verb takes more steps. -/
theorem not_C96 : ¬ ∃ f : List Str → List Tag → List (List Str) → Nat, ∀ h ix, Run h ix → ∀ id names,
    (ix.addTagSetT id names).2 = f names (dictOf h).tags ((dictOf h).attached id.toNat) := by
  rintro ⟨f, hf⟩
  have h1 := hf costBefore (execAll costBefore) (small_runs _ (by decide)) 1 [str "VERB"]
  have h2 := hf costAfter (execAll costAfter) (small_runs _ (by decide)) 1 [str "VERB"]
  have e1 : (dictOf costAfter).tags = (dictOf costBefore).tags := by decide
  have e2 : (dictOf costAfter).attached (1 : ID).toNat = (dictOf costBefore).attached (1 : ID).toNat := by decide
  rw [e1, e2, ← h1] at h2
  exact absurd h2 (by decide)

end Verif
