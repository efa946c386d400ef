import Verif.Model.Node
import Verif.Lemmas.Readings
import Verif.Props.Capacity
import Verif.Props.Words

/-!
# C34, C56 — queries by id, and the text of a node

`ix.get id` is `Index.Get(id)`; `ix.tagSetsOf id` and `ix.nodeString id` are `TagSets()` and `String()` of the node
with that id, `ix.variants v` is `Index.Variants(v)`.
-/

namespace Verif

open Index

/-- C34 does not hold, in any index whatsoever that has not lost its root: `Get(0)` returns a node without an error,
and both `TagSets()` and `String()` of this node panic. -/
theorem not_C34 (ix : Index) (h : 0 < ix.items.nextID.toNat) :
    ix.get 0 = .ok 0 ∧ ix.tagSetsOf 0 = .panic ∧ ix.nodeString 0 = .panic := by
  refine ⟨?_, rfl, rfl⟩
  unfold Index.get
  rw [if_neg]
  show ¬ (0 ≥ _)
  omega

/-- C34 does not hold for `Variants` either: it has an error result, but panics on an id that denotes nothing (here
on a new index). -/
theorem not_C34_variants : Index.new.variants 0x00010000 = .panic := by decide

/-- Exactly which ids make `Variants` and `VariantsIndex.Get` panic: those with a table number, but without an
entry. All others return; there is no error. -/
theorem C34_variants_exact (ix : Index) (v : VariantID) :
    (ix.variants v = .panic ↔ 1 ≤ (upper16 v).toNat ∧
      (ix.collectionIdx.getD ((upper16 v).toNat - 1) []).length ≤ (lower16 v).toNat) ∧
    (ix.variants v ≠ .panic → ∃ c, ix.variants v = .ok c) := by
  have h0 : upper16 0 = 0 := by decide
  unfold Index.variants VariantsIndex.get variantTableNum variantSubID VariantsTable.get
  by_cases hz : v = 0
  · subst hz
    rw [if_pos rfl]
    refine ⟨⟨fun h => (nomatch h), ?_⟩, fun _ => ⟨_, rfl⟩⟩
    rw [h0]
    rintro ⟨h, _⟩
    exact absurd h (by decide)
  · rw [if_neg hz]
    by_cases ht : (upper16 v).toNat < 1
    · rw [if_pos ht]
      exact ⟨⟨fun h => (nomatch h), fun h => by omega⟩, fun _ => ⟨_, rfl⟩⟩
    · rw [if_neg ht]
      rw [List.getD_eq_getElem?_getD]
      cases hx : ix.collectionIdx[(upper16 v).toNat - 1]? with
      | none => simp; omega
      | some t =>
        simp only [Option.getD_some]
        cases hy : t[(lower16 v).toNat]? with
        | none =>
          simp only
          have := List.getElem?_eq_none_iff.1 hy
          exact ⟨⟨fun _ => ⟨by omega, this⟩, fun _ => trivial⟩, fun h => absurd rfl h⟩
        | some c =>
          have := (List.getElem?_eq_some_iff.1 hy).1
          simp only
          exact ⟨⟨fun h => (nomatch h), fun h => by omega⟩, fun _ => ⟨_, rfl⟩⟩

theorem nodeString_eq {ix : Index} {d : Dict} (t : TrieOK ix d) {id : ID} (h0 : 0 < id.toNat)
    (h1 : id.toNat < d.nodes.length) :
    ∃ it w, ix.items.items[id.toNat]? = some it ∧ it.id.toNat = id.toNat ∧ it.parent.toNat < id.toNat ∧
      d.nodes[it.parent.toNat]? = some w ∧ d.nodes[id.toNat]? = some (w ++ [it.letter]) ∧
      ix.nodeString id = .ok (str "Node(" ++ (encodeRunes w ++ encodeRune it.letter).dropLast ++ str "[" ++
        encodeRune it.letter ++ str "]" ++ it.string.drop 1 ++ str ")") := by
  obtain ⟨it, w, a1, a2, a3, a4, a5⟩ := t.item id.toNat h0 h1
  refine ⟨it, w, a1, a2, a3, a4, a5, ?_⟩
  have hg : ix.items.get id = some it := by
    unfold Items.get
    have := t.next
    rw [if_neg (by omega), if_neg (by omega)]
    exact a1
  have hw : ix.word id = .ok (encodeRunes w ++ encodeRune it.letter) := by
    rw [t.word_eq a5]
    simp [encodeRunes]
  unfold Index.nodeString
  rw [hw, hg]
  simp only [Out.bind_ok]
  rw [if_neg, List.dropLast_eq_take]
  have := encodeRune_ne_nil it.letter
  rw [List.length_append]
  have : (encodeRune it.letter).length ≠ 0 := fun h => this (List.length_eq_zero_iff.1 h)
  omega

/-- C34, the part that holds: in every index built by calls of the API, `Get` refuses exactly the ids above
`NodesCount`, and for the ids 1 … `NodesCount` the node it returns answers `Word()`, `TagSets()`,
`String()` and `AddTagSet()` without panicking. -/
theorem C34_partial {h : List Op} {ix : Index} (r : Run h ix) (id : ID) :
    ((∃ e, ix.get id = .err e) ↔ ix.nodesCount < id.toNat) ∧
    (1 ≤ id.toNat → id.toNat ≤ ix.nodesCount →
      ix.get id = .ok id ∧ (∃ w, ix.word id = .ok w) ∧ (∃ L, ix.tagSetsOf id = .ok L) ∧
      (∃ t, ix.nodeString id = .ok t) ∧ ∀ names, (ix.addTagSet id names).2 ≠ .panic) := by
  have hn := r.trie.next
  have hpos := r.trie.length_pos
  rw [r.trie.nodesCount]
  constructor
  · unfold Index.get
    split
    · exact ⟨fun _ => by omega, fun _ => ⟨_, rfl⟩⟩
    · exact ⟨fun ⟨e, h⟩ => (nomatch h), fun h => by omega⟩
  · intro h1 h2
    have hlt : id.toNat < (dictOf h).nodes.length := by omega
    refine ⟨?_, ?_, ?_, ?_, ?_⟩
    · unfold Index.get
      rw [if_neg (by omega)]
    · exact ⟨_, r.trie.word_eq (List.getElem?_eq_getElem hlt)⟩
    · obtain ⟨c, _, _, _, hc⟩ := tagSetsOf_eq r.refines.1 r.caps h1 hlt
      exact ⟨_, hc⟩
    · obtain ⟨it, w, _, _, _, _, _, hs⟩ := nodeString_eq r.trie h1 hlt
      exact ⟨_, hs⟩
    · intro names hp
      unfold Index.addTagSet at hp
      cases hf : findAll ix.tags names with
      | error n => rw [hf] at hp; cases hp
      | ok ids =>
        rw [hf] at hp
        obtain ⟨it, w, hit, _⟩ := r.trie.item id.toNat h1 hlt
        have hg : ix.items.get id = some it := by
          unfold Items.get
          rw [if_neg (by omega), if_neg (by omega)]
          exact hit
        simp only [hg] at hp
        obtain ⟨c, hc, _⟩ := r.tag.vars id.toNat it hlt hit
        rw [hc.get r.caps] at hp
        cases hp

/-- The hypotheses are met by a history with several words, readings, `Optimize` and a reload. -/
example : ∃ ix, Run sampleHistory ix ∧ 1 ≤ ix.nodesCount :=
  ⟨_, sample_runs, by rw [sample_runs.trie.nodesCount]; decide⟩

/-! ## C56 -/

/-- C56, the part that holds: if the last letter of the word is an ASCII character, the text of its node shows the
letters before it, the letter in brackets, and the numbers of the node, of its parent and of its readings. -/
theorem C56_partial {h : List Op} {ix : Index} (r : Run h ix) (p : List Rune) (l : Rune) (id : ID)
    (hz : NoReload h ∨ NoLeadingNul (p ++ [l])) (hl : codePoint l < 128)
    (hf : (ix.fetchRunes (p ++ [l])).2 = .ok id) :
    ∃ (parent : ID) (it : Item), ix.nodeItem id = .ok it ∧ it.parent = parent ∧
      (p = [] ∧ parent = 0 ∨ (ix.fetchRunes p).2 = .ok parent) ∧
      ix.nodeString id = .ok (str "Node(" ++ encodeRunes p ++ str "[" ++ encodeRunes [l] ++ str "]" ++
        itoa id.toNat ++ str "_" ++ itoa parent.toNat ++ str "_" ++ itoa it.variants.toNat ++ str ")") := by
  rw [r.trie.fetchRoot_iff, Run.root_join hz] at hf
  obtain ⟨_, hf⟩ := hf
  have hlt := TrieOK.lt_next hf
  have h0 : 0 < id.toNat := by
    rcases Nat.eq_zero_or_pos id.toNat with h | h
    · rw [h, r.trie.root] at hf
      have := Option.some.inj hf
      simp at this
    · exact h
  obtain ⟨it, w, a1, a2, a3, a4, a5, a6⟩ := nodeString_eq r.trie h0 hlt
  rw [a5] at hf
  obtain ⟨rfl, hll⟩ := List.append_inj' (Option.some.inj hf) rfl
  obtain rfl : it.letter = l := by simpa using hll
  have he : encodeRune it.letter = [UInt8.ofNat (codePoint it.letter)] := by
    unfold encodeRune
    unfold codePoint at hl
    simp only
    rw [if_pos (by omega)]
    rfl
  refine ⟨it.parent, it, ?_, rfl, ?_, ?_⟩
  · unfold nodeItem; rw [a1]
  · by_cases hp : w = []
    · left
      refine ⟨hp, ?_⟩
      subst hp
      have := nodup_getElem?_inj r.trie.nodup a4 r.trie.root
      exact UInt32.toNat_inj.1 this
    · right
      rw [r.trie.fetchRoot_iff, Run.root_join (hz.imp (fun h => h) fun h => ?_)]
      · exact ⟨hp, a4⟩
      · unfold NoLeadingNul at h ⊢
        cases w with
        | nil => exact absurd rfl hp
        | cons a w => exact h
  · rw [a6, he]
    have e1 : (encodeRunes w ++ [UInt8.ofNat (codePoint it.letter)]).dropLast = encodeRunes w := by simp
    have e2 : encodeRunes [it.letter] = [UInt8.ofNat (codePoint it.letter)] := by
      simp [encodeRunes, he]
    rw [e1, e2]
    unfold Item.string
    rw [he, a2]
    simp [List.append_assoc]

/-- C56 does not hold for other letters: the last byte of the last letter goes missing in the first part of the text,
and the rest of the letter shows up in front of the numbers — the text is not even valid UTF-8. -/
theorem not_C56 : ∃ ix, Run [.addRunes [1103]] ix ∧ (ix.fetchRunes [1103]).2 = .ok 1 ∧
    ix.nodeString 1 = .ok (str "Node(" ++ [0xD1] ++ str "[" ++ [0xD1, 0x8F] ++ str "]" ++ [0x8F] ++ str "1_0_0" ++ str ")") ∧
    ∀ t, ix.nodeString 1 = .ok t → ¬ ValidUtf8 t := by
  refine ⟨_, small_runs _ (by decide), by decide, by decide, ?_⟩
  intro t ht hv
  have : (execAll [.addRunes [1103]]).nodeString 1 =
    .ok (str "Node(" ++ [0xD1] ++ str "[" ++ [0xD1, 0x8F] ++ str "]" ++ [0x8F] ++ str "1_0_0" ++ str ")") := by decide
  rw [this] at ht
  obtain rfl := Out.ok.inj ht
  have := C50_encode_decode _ hv
  revert this
  decide

/-! ## C34, tag numbers -/

/-- C34, `TagSet`: with registered tag numbers only it answers with their tags, in order; otherwise with an error that
names the first unknown number. It never panics. -/
theorem C34_tagSet (ix : Index) (s : TagSet) :
    (∀ T, ix.tagSet s = .ok T ↔ s.map (tagsGet ix.tags) = T.map some) ∧
    (∀ e, ix.tagSet s = .err e ↔ ∃ pre id post, s = pre ++ id :: post ∧ (∀ x ∈ pre, tagsGet ix.tags x ≠ none) ∧
      tagsGet ix.tags id = none ∧ e = .noSuchTag id) ∧
    ((∃ T, ix.tagSet s = .ok T) ∨ ∃ e, ix.tagSet s = .err e) := by
  induction s with
  | nil =>
    refine ⟨fun T => ?_, fun e => ?_, .inl ⟨[], rfl⟩⟩
    · constructor
      · intro h; rw [← Out.ok.inj h]; rfl
      · intro h
        cases T with
        | nil => rfl
        | cons t T => cases h
    · constructor
      · intro h; cases h
      · rintro ⟨pre, id, post, h, _⟩
        cases pre <;> cases h
  | cons a s ih =>
    obtain ⟨ih1, ih2, ih3⟩ := ih
    cases ha : tagsGet ix.tags a with
    | none =>
      have e1 : ix.tagSet (a :: s) = .err (.noSuchTag a) := by rw [Index.tagSet, ha]
      rw [e1]
      refine ⟨fun T => ?_, fun e => ?_, .inr ⟨_, rfl⟩⟩
      · constructor
        · intro h; cases h
        · intro h
          cases T with
          | nil => cases h
          | cons t T => rw [List.map_cons, List.map_cons, ha] at h; cases (List.cons.inj h).1
      · constructor
        · intro h; exact ⟨[], a, s, rfl, by simp, ha, (Out.err.inj h).symm⟩
        · rintro ⟨pre, id, post, h, h1, h2, rfl⟩
          cases pre with
          | nil => obtain ⟨rfl, _⟩ := List.cons.inj h; rfl
          | cons b pre =>
            obtain ⟨rfl, _⟩ := List.cons.inj h
            exact absurd ha (h1 a List.mem_cons_self)
    | some t =>
      have e1 : ix.tagSet (a :: s) = (ix.tagSet s).bind fun ts => .ok (t :: ts) := by rw [Index.tagSet, ha]
      rw [e1]
      refine ⟨fun T => ?_, fun e => ?_, ?_⟩
      · constructor
        · intro h
          rcases ih3 with ⟨T', h'⟩ | ⟨e, h'⟩
          · rw [h'] at h
            rw [← Out.ok.inj h, List.map_cons, List.map_cons, ha, (ih1 T').1 h']
          · rw [h'] at h; cases h
        · intro h
          cases T with
          | nil => cases h
          | cons t' T =>
            rw [List.map_cons, List.map_cons, ha] at h
            obtain ⟨h1, h2⟩ := List.cons.inj h
            rw [(ih1 T).2 h2, ← Option.some.inj h1]
            rfl
      · constructor
        · intro h
          rcases ih3 with ⟨T', h'⟩ | ⟨e', h'⟩
          · rw [h'] at h; cases h
          · rw [h'] at h
            obtain rfl := Out.err.inj h
            obtain ⟨pre, id, post, h1, h2, h3, h4⟩ := (ih2 _).1 h'
            refine ⟨a :: pre, id, post, by rw [h1]; rfl, ?_, h3, h4⟩
            intro x hx
            rcases List.mem_cons.1 hx with rfl | hx
            · rw [ha]; simp
            · exact h2 x hx
        · rintro ⟨pre, id, post, h1, h2, h3, h4⟩
          cases pre with
          | nil =>
            obtain ⟨rfl, _⟩ := List.cons.inj h1
            rw [ha] at h3; cases h3
          | cons b pre =>
            obtain ⟨rfl, h5⟩ := List.cons.inj h1
            rw [(ih2 e).2 ⟨pre, id, post, h5, fun x hx => h2 x (List.mem_cons_of_mem _ hx), h3, h4⟩]
            rfl
      · rcases ih3 with ⟨T', h'⟩ | ⟨e', h'⟩
        · exact .inl ⟨t :: T', by rw [h']; rfl⟩
        · exact .inr ⟨e', by rw [h']; rfl⟩

example : (execAll sampleHistory).tagSet [1, 0] =
      .ok [⟨[78, 79, 85, 78], [86, 69, 82, 66]⟩, ⟨str "----", [78, 79, 85, 78]⟩] ∧
    (execAll sampleHistory).tagSet [1, 7, 0] = .err (.noSuchTag 7) := by
  have e : (execAll sampleHistory).tags = [⟨str "----", [78, 79, 85, 78]⟩, ⟨[78, 79, 85, 78], [86, 69, 82, 66]⟩] := by
    rw [sample_runs.tag.tags]; decide
  refine ⟨((C34_tagSet _ _).1 _).2 (by rw [e]; decide), ((C34_tagSet _ _).2.1 _).2 ⟨[1], 7, [0], rfl, ?_, ?_, rfl⟩⟩
  · rw [e]; decide
  · rw [e]; decide

end Verif
