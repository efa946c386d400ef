import Verif.Lemmas.Reference
import Verif.Lemmas.Copy

/-!
# C113: the index answers every program as the reference implementation does

The reference implementation (`Spec/Reference.lean`) keeps a list of words, a list of tags and the log of attached readings,
and answers by searching these lists.
-/

namespace Verif

/-- C113, for one call or question. -/
theorem C113_one {h : List Op} {ix : Index} (r : Run h ix) (a : Ask)
    (hr : ∀ op, a = .call op → Run (h ++ [op]) (op.exec ix)) : ix.answer a = (dictOf h).answer a := by
  have hnext : ∀ op, a = .call op → (op.spec (dictOf h)).nodes.length < 4294967296 := by
    intro op e
    have := (hr op e).trie.length_lt
    rwa [dictOf_append] at this
  have hpos := r.trie.length_pos
  cases a with
  | call op =>
    have hlt := hnext op rfl
    cases op with
    | addRunes rs => exact congrArg Answer.node (add_ref r.trie 0 rs hlt)
    | addString w =>
      refine congrArg Answer.node ?_
      unfold Index.addString
      by_cases hw : w = []
      · subst hw; rfl
      · rw [if_neg hw, if_neg fun e => hw (List.length_eq_zero_iff.1 e)]
        exact add_ref r.trie 0 _ hlt
    | addToNode id rs => exact congrArg Answer.node (add_ref r.trie id rs hlt)
    | fetchFromItem id rs => exact congrArg Answer.node (fetch_ref r.trie id rs).1
    | fetchItemFromParent id rs => exact congrArg Answer.node (fetch_ref r.trie id rs).2
    | fetchRunes rs => exact congrArg Answer.node (fetch_ref r.trie 0 rs).1
    | fetchString w => exact congrArg Answer.node (fetch_ref r.trie 0 (decodeRunes w)).1
    | tagID name parent =>
      refine congrArg Answer.tagID ?_
      rw [← r.tag.tags]
      exact tagID_ref ix.tags name parent
    | addTagSet id names =>
      refine congrArg Answer.done ?_
      have hf := findAll_ref ix.tags names (dictOf h) r.tag.tags.symm
      cases hx : names.find? fun n => !(dictOf h).hasTag n with
      | some n =>
        rw [hx] at hf
        simp only at hf ⊢
        unfold Index.addTagSet
        rw [hf]
      | none =>
        rw [hx] at hf
        simp only at hf ⊢
        obtain ⟨ids, hids⟩ := hf
        by_cases hid : 0 < id.toNat ∧ id.toNat < (dictOf h).nodes.length
        · rw [if_pos hid]
          exact (r.tag.addTagSet_ok r.trie r.caps r.refines.2.tags id names hid.1 hid.2 (by rw [← r.tag.tags]; exact hids)).1
        · rw [if_neg hid]
          unfold Index.addTagSet
          rw [hids, r.trie.items_get_none hid]
    | optimize => exact congrArg Answer.done (C23 r).1
    | reload =>
      refine congrArg Answer.done ?_
      obtain ⟨_, r0, ha, _, _⟩ := (hr .reload rfl).snoc_inv
      cases r0.unique r
      obtain ⟨h1, h2, -⟩ := reload_eq r.tag ha
      have h3 := h2 []
      rw [List.append_nil] at h3
      rw [h1]
      simp only
      rw [h3]
      rfl
  | get id =>
    refine congrArg Answer.node ?_
    unfold Index.get
    rw [r.trie.next]
    by_cases hid : id.toNat < (dictOf h).nodes.length
    · rw [if_pos hid, if_neg (by omega)]
    · rw [if_neg hid, if_pos (by omega)]
  | word id => exact congrArg Answer.text (word_ref r.trie id)
  | tagSets id =>
    refine congrArg Answer.sets ?_
    by_cases hid : 0 < id.toNat ∧ id.toNat < (dictOf h).nodes.length
    · rw [if_pos hid]
      exact shown_ref r id ⟨hid.1, by rw [r.trie.nodesCount]; omega⟩
    · rw [if_neg hid]
      unfold Index.tagSetsOf
      rw [r.trie.items_get_none hid]
  | child id c => exact congrArg Answer.child (child_ref r.trie id c)
  | tags => exact congrArg Answer.tags r.tag.tags
  | nodesCount => exact congrArg Answer.count r.trie.nodesCount
  | wordsCount =>
    refine congrArg Answer.count ?_
    rw [r.tag.count]
    unfold taggedCount
    congr 1
    refine List.filter_congr fun k _ => ?_
    rw [Bool.eq_iff_iff]
    simp only [List.any_eq_true, beq_iff_eq, decide_eq_true_eq]
    constructor
    · rintro ⟨⟨k', names⟩, he, rfl⟩ h0
      have := mem_attached.2 he
      rw [h0] at this
      cases this
    · intro h0
      obtain ⟨names, hn⟩ := List.exists_mem_of_ne_nil _ h0
      exact ⟨_, mem_attached.1 hn, rfl⟩

/-- C113, for what comes after a history. -/
theorem C113_after {h : List Op} {ix : Index} (r : Run h ix) (p : List Ask) {ix' : Index}
    (r' : Run (h ++ callsMade p) ix') : ix.answers p = (dictOf h).answers p := by
  induction p generalizing h ix with
  | nil => rfl
  | cons a rest ih =>
    by_cases hc : ∃ op, a = .call op
    · obtain ⟨op, rfl⟩ := hc
      have e : h ++ callsMade (.call op :: rest) = (h ++ [op]) ++ callsMade rest := by simp [callsMade]
      rw [e] at r'
      obtain ⟨ix1, r1⟩ := r'.before
      obtain ⟨ix0, r0, _, _, rfl⟩ := r1.snoc_inv
      cases r0.unique r
      have h1 := C113_one r (.call op) (by rintro _ ⟨⟩; exact r1)
      have h2 := ih r1 r'
      rw [dictOf_append] at h2
      show _ :: _ = _ :: _
      rw [h1]
      exact congrArg _ h2
    · have h1 := C113_one r a fun op e => absurd ⟨op, e⟩ hc
      have e1 : ix.after a = ix := by
        cases a <;> first | rfl | exact absurd ⟨_, rfl⟩ hc
      have e2 : (dictOf h).after a = dictOf h := by
        cases a <;> first | rfl | exact absurd ⟨_, rfl⟩ hc
      have e3 : callsMade (a :: rest) = callsMade rest := by
        cases a <;> first | rfl | exact absurd ⟨_, rfl⟩ hc
      rw [e3] at r'
      have h2 := ih r r'
      show _ :: _ = _ :: _
      rw [h1, e1, e2, h2]

/-- C113: a program that starts with a new index and stays within the capacity is answered exactly what the reference
implementation answers. -/
theorem C113 (p : List Ask) (hr : Room (callsMade p)) : Index.new.answers p = Dict.empty.answers p :=
  C113_after Run.nil p (run_of_room _ hr).1

/-- The same words with the same numbers, the same tags, the same readings; NUL is treated alike. -/
structure Dict.Equal (a b : Dict) : Prop where
  nodes : a.nodes = b.nodes
  tags : a.tags = b.tags
  readings : a.readings = b.readings
  nul : a.nul = b.nul

theorem Dict.Equal.answer {a b : Dict} (e : a.Equal b) (q : Ask) : a.answer q = b.answer q := by
  obtain ⟨an, aw, at', ar, au⟩ := a
  obtain ⟨bn, bw, bt, br, bu⟩ := b
  obtain ⟨e1, e2, e3, e4⟩ := e
  simp only at e1 e2 e3 e4
  subst e1 e2 e3 e4
  have hadd : ∀ p rs, Dict.add ⟨an, aw, at', ar, au⟩ p rs = Dict.add ⟨an, bw, at', ar, au⟩ p rs := by
    intro p rs
    unfold Dict.add
    split
    · rfl
    · rename_i hrs
      simp only
      cases hp : an[p.toNat]? with
      | none => rfl
      | some w =>
        simp only [Dict.insert, hp, if_neg hrs]
        rfl
  cases q with
  | call op =>
    cases op with
    | addRunes rs => exact congrArg Answer.node (hadd 0 rs)
    | addString w =>
      refine congrArg Answer.node ?_
      split
      · rfl
      · exact hadd 0 _
    | addToNode id rs => exact congrArg Answer.node (hadd id rs)
    | _ => rfl
  | _ => rfl

theorem Dict.Equal.after {a b : Dict} (e : a.Equal b) (q : Ask) : (a.after q).Equal (b.after q) := by
  have hins : ∀ p rs, (a.insert p rs).Equal (b.insert p rs) := by
    intro p rs
    unfold Dict.insert
    rw [e.nodes]
    have hj : ∀ w rs, a.join w rs = b.join w rs := by
      intro w rs; unfold Dict.join; rw [e.nul]
    split
    · exact e
    · rename_i w _
      split
      · exact e
      · exact ⟨by rw [hj], e.tags, e.readings, e.nul⟩
  have htag : ∀ n, a.hasTag n = b.hasTag n := by
    intro n; unfold Dict.hasTag; rw [e.tags]
  cases q with
  | call op =>
    cases op with
    | addRunes rs => exact hins 0 rs
    | addString w => exact hins 0 _
    | addToNode id rs => exact hins id.toNat rs
    | tagID name parent =>
      show Dict.Equal (if _ then _ else _) (if _ then _ else _)
      rw [htag]
      split
      · exact e
      · exact ⟨e.nodes, by rw [e.tags], e.readings, e.nul⟩
    | addTagSet id names =>
      show Dict.Equal (if _ then _ else _) (if _ then _ else _)
      rw [show a.hasTag = b.hasTag from funext htag, e.nodes]
      split
      · exact ⟨rfl, e.tags, by rw [e.readings], e.nul⟩
      · exact e
    | reload => exact ⟨e.nodes, by simp only [Dict.after, Op.spec]; rw [e.tags], e.readings, by simp only [Dict.after, Op.spec]; rw [e.nodes]⟩
    | fetchFromItem id rs => exact e
    | fetchItemFromParent id rs => exact e
    | fetchRunes rs => exact e
    | fetchString w => exact e
    | optimize => exact e
  | _ => exact e

theorem Dict.Equal.answers {a b : Dict} (e : a.Equal b) (p : List Ask) : a.answers p = b.answers p := by
  induction p generalizing a b with
  | nil => rfl
  | cons q rest ih =>
    show _ :: _ = _ :: _
    rw [e.answer q, ih (e.after q)]

/-- C113: two indexes built in different ways, that stand for the same words, tags and readings, cannot be told apart by any
program. -/
theorem C113_same {h h' : List Op} (he : (dictOf h).Equal (dictOf h')) (p : List Ask) (hr : Room (h ++ callsMade p))
    (hr' : Room (h' ++ callsMade p)) : (execAll h).answers p = (execAll h').answers p := by
  have r := (run_of_room _ hr).1
  have r' := (run_of_room _ hr').1
  obtain ⟨ix, r0⟩ := r.before
  obtain ⟨ix', r0'⟩ := r'.before
  rw [← r0.eq, ← r0'.eq, C113_after r0 p r, C113_after r0' p r', he.answers]

/-! ## Examples -/

/-- Words, tags, readings (one of them empty), failing calls, `Optimize` and saving and loading, and questions. -/
def referenceSample : List Ask :=
  [.call (.addRunes [97, 98]), .call (.tagID (str "AAAA") []), .call (.tagID (str "BBBB") []),
   .call (.addTagSet 2 [str "BBBB", str "AAAA"]), .call (.addTagSet 1 [str "BBBB"]), .call (.addTagSet 2 []),
   .call (.addTagSet 2 [str "CCCC"]), .call (.addTagSet 9 []), .call (.fetchRunes [97, 99]), .call .optimize, .tagSets 2,
   .call .reload, .call (.addToNode 7 [97]), .call (.addToNode 1 [99]), .child 1 99, .word 3, .wordsCount, .nodesCount]

example : Room (callsMade referenceSample) := (by decide : Small (callsMade referenceSample)).toRoom

/-- What is answered, by the reference implementation and so by the index. -/
example : Index.new.answers referenceSample =
    [.node (.ok 2), .tagID 0, .tagID 1, .done (.ok ()), .done (.ok ()), .done (.ok ()),
     .done (.err (.unknownTag (str "CCCC"))), .done .panic, .node (.err (.notFound (str "a") 99)), .done (.ok ()),
     .sets (.ok [[newTag [] (str "BBBB")], [newTag [] (str "AAAA"), newTag [] (str "BBBB")]]),
     .done (.ok ()), .node (.err (.noParent 7)), .node (.ok 3), .child (some 3), .text (.ok (str "ac")),
     .count 2, .count 3] := by
  rw [C113 _ (by decide : Small (callsMade referenceSample)).toRoom]
  rfl

/-- Built letter by letter, or word by word with lookups and `Optimize` in between. -/
example : (dictOf [.addRunes [97], .addToNode 1 [98]]).Equal
    (dictOf [.fetchRunes [97], .addRunes [97, 98], .optimize, .addRunes [97, 98]]) := ⟨by decide, by decide, by decide, by decide⟩

end Verif
