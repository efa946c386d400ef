import Verif.Lemmas.Alike
import Verif.Props.EndToEnd

/-!
# C78 — a dictionary depends on its content, not on the order in which it came

Node numbers do depend on the order; the answers for words do not. `SameContent`, `AlikeAt`: `Spec/Alike.lean`.
-/

namespace Verif

/-- C78, except for words an empty reading was attached to (see `not_C78`) and, after a reload, words starting with NUL
(see C18): two histories whose dictionaries have the same content lead to indexes with the same counters and tags that
answer alike for every word. -/
theorem C78_partial {h₁ h₂ : List Op} {ix₁ ix₂ : Index} (r₁ : Run h₁ ix₁) (r₂ : Run h₂ ix₂)
    (hs : SameContent (dictOf h₁) (dictOf h₂)) :
    ix₁.nodesCount = ix₂.nodesCount ∧ ix₁.wordsCount = ix₂.wordsCount ∧ ix₁.tags.Perm ix₂.tags ∧
    ∀ w, (NoReload h₁ ∧ NoReload h₂) ∨ NoLeadingNul w →
      AlikeAt ix₁ ix₂ ([] ∈ (dictOf h₁).readingsFor w) w := by
  refine ⟨C04_order r₁ r₂ hs.words, sameContent_wordsCount r₁ r₂ hs.readings, ?_, ?_⟩
  · rw [r₁.tag.tags, r₂.tag.tags]
    exact (List.perm_ext_iff_of_nodup r₁.tag.names.of_map r₂.tag.names.of_map).2 hs.tags
  intro w hz
  have z₁ : NoReload h₁ ∨ NoLeadingNul w := hz.imp_left And.left
  have z₂ : NoReload h₂ ∨ NoLeadingNul w := hz.imp_left And.right
  by_cases hf : ∃ id, (ix₁.fetchRunes w).2 = .ok id
  · obtain ⟨i, hi⟩ := hf
    obtain ⟨j, hj⟩ := (sameContent_found r₁ r₂ hs.words w z₁ z₂).1 ⟨i, hi⟩
    have hi' := hi
    have hj' := hj
    rw [r₁.trie.fetchRoot_iff, Run.root_join z₁] at hi'
    rw [r₂.trie.fetchRoot_iff, Run.root_join z₂] at hj'
    refine .inr ⟨i, j, hi, hj, ?_, ?_, ?_⟩
    · rw [r₁.trie.word_eq hi'.2, r₂.trie.word_eq hj'.2]
    · intro c
      have hz' : ∀ h, NoReload h ∨ NoLeadingNul w → NoReload h ∨ NoLeadingNul (w ++ [c]) := by
        intro h hz
        refine hz.imp_right fun hz => ?_
        cases w with
        | nil => exact absurd rfl hi'.1
        | cons a l => simpa [NoLeadingNul] using hz
      have e := sameContent_found r₁ r₂ hs.words (w ++ [c]) (hz' _ z₁) (hz' _ z₂)
      rw [Bool.eq_iff_iff, Option.isSome_iff_exists, Option.isSome_iff_exists]
      simp only [C54 r₁ w i c _ (.inr hi), C54 r₂ w j c _ (.inr hj)]
      exact e
    · intro hne
      have b₁ : 1 ≤ i.toNat ∧ i.toNat ≤ ix₁.nodesCount := by
        have hl := (List.getElem?_eq_some_iff.1 hi'.2).1
        refine ⟨?_, by rw [r₁.trie.nodesCount]; omega⟩
        rcases Nat.eq_zero_or_pos i.toNat with h0 | h0
        · rw [h0, r₁.trie.root] at hi'
          exact absurd (Option.some.inj hi'.2).symm hi'.1
        · exact h0
      have b₂ : 1 ≤ j.toNat ∧ j.toNat ≤ ix₂.nodesCount := by
        have hl := (List.getElem?_eq_some_iff.1 hj'.2).1
        refine ⟨?_, by rw [r₂.trie.nodesCount]; omega⟩
        rcases Nat.eq_zero_or_pos j.toNat with h0 | h0
        · rw [h0, r₂.trie.root] at hj'
          exact absurd (Option.some.inj hj'.2).symm hj'.1
        · exact h0
      have a₁ := readingsFor_eq r₁.trie.nodup hi'.2
      have a₂ := readingsFor_eq r₂.trie.nodup hj'.2
      have hsr := hs.readings w
      rw [a₁, a₂] at hsr
      rw [a₁] at hne
      obtain ⟨L, M, hL, hM, hl, h12, h21⟩ := C14 r₁ r₂ i j b₁ b₂ hsr.1
        (fun b hb => let ⟨a, ha, hp⟩ := hsr.2 b hb; ⟨a, ha, hp.symm⟩) hne
      have hne₂ : [] ∉ (dictOf h₂).attached j.toNat := by
        intro hm
        obtain ⟨a, ha, hp⟩ := hsr.2 _ hm
        rw [hp.eq_nil] at ha
        exact hne ha
      obtain ⟨L', hL', x₁⟩ := C09 r₁ i b₁ hne
      obtain ⟨M', hM', x₂⟩ := C09 r₂ j b₂ hne₂
      obtain rfl : L' = L := by rw [hL] at hL'; exact (Out.ok.inj hL').symm
      obtain rfl : M' = M := by rw [hM] at hM'; exact (Out.ok.inj hM').symm
      have reg₁ : ∀ t ∈ L', ∀ x ∈ t, x ∈ (dictOf h₁).tags := fun t ht x hx => r₁.tag.tags ▸ x₁.registered t ht x hx
      have reg₂ : ∀ t ∈ M', ∀ x ∈ t, x ∈ (dictOf h₁).tags := fun t ht x hx =>
        (hs.tags x).2 (r₂.tag.tags ▸ x₂.registered t ht x hx)
      refine ⟨L', M', hL, hM, hl, ?_, ?_⟩
      · intro t ht
        obtain ⟨t', ht', hp⟩ := h12 t ht
        exact ⟨t', ht', perm_of_tagNames r₁.tag.names (reg₁ t ht) (reg₂ t' ht') hp⟩
      · intro t ht
        obtain ⟨t', ht', hp⟩ := h21 t ht
        exact ⟨t', ht', perm_of_tagNames r₁.tag.names (reg₂ t ht) (reg₁ t' ht') hp⟩
  · exact .inl (sameContent_err r₁ r₂ hs.words w z₁ z₂ fun id h => hf ⟨id, h⟩)

/-! ## Documents -/

/-- The same forms with the same tags, in any order, any number of times. -/
def SameForms (A B : List (Str × List Str)) : Prop :=
  (∀ f ∈ A, ∃ g ∈ B, decodeRunes f.1 = decodeRunes g.1 ∧ f.2.Perm g.2) ∧
    ∀ g ∈ B, ∃ f ∈ A, decodeRunes f.1 = decodeRunes g.1 ∧ f.2.Perm g.2

theorem imported_readingsFor {es : List Entry} (hd : Declared es) (m : DocRoom es) (w : List Rune)
    (hnd : (dictOf (callsOf es ++ [.optimize] ++ [.reload])).nodes.Nodup) :
    (dictOf (callsOf es ++ [.optimize] ++ [.reload])).readingsFor w =
      ((allForms es).filter fun f => decodeRunes f.1 = w).map (·.2) := by
  obtain ⟨h1, _, _, h4⟩ := imported_dict hd m
  by_cases hw : w ∈ (dictOf (callsOf es ++ [.optimize] ++ [.reload])).nodes
  · obtain ⟨k, hk⟩ := List.mem_iff_getElem?.1 hw
    rw [readingsFor_eq hnd hk, h4 k w hk]
  · have e1 : (dictOf (callsOf es ++ [.optimize] ++ [.reload])).readingsFor w = [] := by
      unfold Dict.readingsFor
      rw [List.map_eq_nil_iff, List.filter_eq_nil_iff]
      intro e _ he
      exact hw (List.mem_of_getElem? (of_decide_eq_true he))
    have e2 : ((allForms es).filter fun f => decodeRunes f.1 = w) = [] := by
      rw [List.filter_eq_nil_iff]
      intro f hf he
      refine hw ((dictOf_words _ w).2 (.inr ⟨w, ?_, List.prefix_refl _⟩))
      rw [h1]
      exact List.mem_map.2 ⟨f, hf, of_decide_eq_true he⟩
    rw [e1, e2, List.map_nil]

theorem sameForms_readings {A B : List (Str × List Str)} (h : SameForms A B) (w : List Rune) :
    SameSets ((A.filter fun f => decodeRunes f.1 = w).map (·.2)) ((B.filter fun f => decodeRunes f.1 = w).map (·.2)) := by
  constructor
  · intro a ha
    obtain ⟨f, hf, rfl⟩ := List.mem_map.1 ha
    rw [List.mem_filter] at hf
    obtain ⟨g, hg, h1, h2⟩ := h.1 f hf.1
    exact ⟨g.2, List.mem_map.2 ⟨g, List.mem_filter.2 ⟨hg, decide_eq_true (h1 ▸ of_decide_eq_true hf.2)⟩, rfl⟩, h2⟩
  · intro a ha
    obtain ⟨f, hf, rfl⟩ := List.mem_map.1 ha
    rw [List.mem_filter] at hf
    obtain ⟨g, hg, h1, h2⟩ := h.2 f hf.1
    exact ⟨g.2, List.mem_map.2 ⟨g, List.mem_filter.2 ⟨hg, decide_eq_true (h1 ▸ of_decide_eq_true hf.2)⟩, rfl⟩, h2⟩

/-- C78 for documents, with the same exceptions: two documents with the same grammemes and the same forms, in whatever
order and number, give — imported, optimized, saved and loaded — indexes that answer alike. -/
theorem C78_import_partial (fo : Str → Bool) (doc₁ doc₂ : List Xml) (v₁ : Xml.ValidAll fo [] doc₁)
    (v₂ : Xml.ValidAll fo [] doc₂) (d₁ : Declared (entriesOf doc₁)) (d₂ : Declared (entriesOf doc₂))
    (m₁ : DocRoom (entriesOf doc₁)) (m₂ : DocRoom (entriesOf doc₂))
    (ht : ∀ t, t ∈ declaredTags (entriesOf doc₁) ↔ t ∈ declaredTags (entriesOf doc₂))
    (hf : SameForms (allForms (entriesOf doc₁)) (allForms (entriesOf doc₂))) :
    let a := (PState.run fo (PState.init Index.new 0) (Xml.tokensAll doc₁)).1.ix
    let b := (PState.run fo (PState.init Index.new 0) (Xml.tokensAll doc₂)).1.ix
    ∃ ix₁ ix₂, Index.new.load a.optimize.1.save.bytes = .ok (ix₁, []) ∧
      Index.new.load b.optimize.1.save.bytes = .ok (ix₂, []) ∧
      ix₁.nodesCount = ix₂.nodesCount ∧ ix₁.wordsCount = ix₂.wordsCount ∧ ix₁.tags.Perm ix₂.tags ∧
      ∀ w, NoLeadingNul (decodeRunes w) →
        AlikeAt ix₁ ix₂ ([] ∈ tagListsOf w (allForms (entriesOf doc₁))) (decodeRunes w) := by
  intro a b
  obtain ⟨_, _, _, ix₁, l₁, t₁, r₁⟩ := imported v₁ d₁ m₁
  obtain ⟨_, _, _, ix₂, l₂, t₂, r₂⟩ := imported v₂ d₂ m₂
  have hs : SameContent (dictOf (callsOf (entriesOf doc₁) ++ [.optimize] ++ [.reload]))
      (dictOf (callsOf (entriesOf doc₂) ++ [.optimize] ++ [.reload])) := by
    refine ⟨?_, ?_, ?_⟩
    · intro v
      rw [(imported_dict d₁ m₁).1, (imported_dict d₂ m₂).1, List.mem_map, List.mem_map]
      constructor
      · rintro ⟨f, h, rfl⟩
        obtain ⟨g, hg, e, _⟩ := hf.1 f h
        exact ⟨g, hg, e.symm⟩
      · rintro ⟨f, h, rfl⟩
        obtain ⟨g, hg, e, _⟩ := hf.2 f h
        exact ⟨g, hg, e⟩
    · intro t
      rw [← r₁.tag.tags, ← r₂.tag.tags, t₁, t₂]
      exact ht t
    · intro w
      rw [imported_readingsFor d₁ m₁ w r₁.trie.nodup, imported_readingsFor d₂ m₂ w r₂.trie.nodup]
      exact sameForms_readings hf w
  obtain ⟨c1, c2, c3, c4⟩ := C78_partial r₁ r₂ hs
  refine ⟨ix₁, ix₂, l₁, l₂, c1, c2, c3, fun w hw => ?_⟩
  have := c4 (decodeRunes w) (.inr hw)
  rw [imported_readingsFor d₁ m₁ _ r₁.trie.nodup] at this
  exact this

theorem entriesOf_append (a b : List Xml) : entriesOf (a ++ b) = entriesOf a ++ entriesOf b := by
  have : ∀ n, childrenNamed n (a ++ b) = childrenNamed n a ++ childrenNamed n b := by
    intro n
    induction a with
    | nil => rfl
    | cons x a ih =>
      cases x <;> simp only [List.cons_append, childrenNamed, ih]
      split <;> rfl
  unfold entriesOf
  rw [this, List.flatMap_append]

theorem validAll_append {fo : Str → Bool} {p : List Str} {a b : List Xml} (ha : Xml.ValidAll fo p a)
    (hb : Xml.ValidAll fo p b) : Xml.ValidAll fo p (a ++ b) := by
  induction a with
  | nil => exact hb
  | cons x a ih =>
    simp only [List.cons_append, Xml.ValidAll] at ha ⊢
    exact ⟨ha.1, ih ha.2⟩

/-- C78, several documents: importing one document after another into the same index is importing them as one. -/
theorem C78_several (fo : Str → Bool) (doc₁ doc₂ : List Xml) (v₁ : Xml.ValidAll fo [] doc₁)
    (v₂ : Xml.ValidAll fo [] doc₂) (ix : Index)
    (h1 : (PState.run fo (PState.init ix 0) (Xml.tokensAll doc₁)).2 = none) :
    let r₁ := PState.run fo (PState.init ix 0) (Xml.tokensAll doc₁)
    let r₂ := PState.run fo (PState.init r₁.1.ix 0) (Xml.tokensAll doc₂)
    let r := PState.run fo (PState.init ix 0) (Xml.tokensAll (doc₁ ++ doc₂))
    (r₂.1.ix, r₂.2) = (r.1.ix, r.2) := by
  intro r₁ r₂ r
  have e1 : (r₁.1.ix, r₁.2) = _ := C40 fo doc₁ v₁ ix 0 (by decide)
  have e2 : (r₂.1.ix, r₂.2) = _ := C40 fo doc₂ v₂ r₁.1.ix 0 (by decide)
  have e : (r.1.ix, r.2) = _ := C40 fo (doc₁ ++ doc₂) (validAll_append v₁ v₂) ix 0 (by decide)
  rw [e2, e, entriesOf_append, execEntries_append, ← e1, if_pos h1]

/-! ### The same document twice -/

theorem allForms_append (a b : List Entry) : allForms (a ++ b) = allForms a ++ allForms b := by
  induction a with
  | nil => rfl
  | cons e a ih => cases e <;> simp [allForms, ih]

theorem Declared.append {a b : List Entry} (ha : Declared a) (hb : Declared b) : Declared (a ++ b) := by
  intro es1 fs es2 he f hf
  rcases List.append_eq_append_iff.1 he with ⟨c, hc, hc'⟩ | ⟨c, hc, hc'⟩
  · obtain ⟨h1, h2⟩ := hb c fs es2 hc' f hf
    refine ⟨h1, fun x hx => ?_⟩
    obtain ⟨p, hp⟩ := h2 x hx
    exact ⟨p, hc ▸ List.mem_append_right _ hp⟩
  · cases c with
    | nil =>
      obtain ⟨h1, h2⟩ := hb [] fs es2 (by simpa using hc'.symm) f hf
      refine ⟨h1, fun x hx => ?_⟩
      obtain ⟨p, hp⟩ := h2 x hx
      cases hp
    | cons e c =>
      obtain ⟨rfl, _⟩ := List.cons.inj hc'
      exact ha es1 fs c hc f hf

theorem tagListsOf_append (w : Str) (A B : List (Str × List Str)) :
    tagListsOf w (A ++ B) = tagListsOf w A ++ tagListsOf w B := by
  unfold tagListsOf
  rw [List.filter_append, List.map_append]

theorem tagListsOf_sublist (w : Str) {A B : List (Str × List Str)} (h : A <+: B) :
    ∀ x ∈ tagListsOf w A, x ∈ tagListsOf w B := by
  obtain ⟨s, rfl⟩ := h
  intro x hx
  rw [tagListsOf_append]
  exact List.mem_append_left _ hx

theorem DocRoom.twice {es : List Entry} (m : DocRoom es) : DocRoom (es ++ es) := by
  have hm : ∀ f ∈ allForms (es ++ es), f ∈ allForms es := by
    intro f hf
    rw [allForms_append] at hf
    rcases List.mem_append.1 hf with h | h <;> exact h
  have hg : ∀ e : Entry, e ∈ es ++ es → e ∈ es := by
    intro e he
    rcases List.mem_append.1 he with h | h <;> exact h
  refine ⟨?_, ?_, fun n p h => m.names n p (hg _ h), fun f hf => m.tags f (hm f hf), ?_, ?_, ?_⟩
  · obtain ⟨L, h1, h2, h3⟩ := m.prefixes
    exact ⟨L, h1, h2, fun f hf => h3 f (hm f hf)⟩
  · obtain ⟨L, h1, h2⟩ := m.grammemes
    exact ⟨L, h1, fun n p h => h2 n p (hg _ h)⟩
  · obtain ⟨L, h1, h2⟩ := m.tagLists
    exact ⟨L, h1, fun f hf => h2 f (hm f hf)⟩
  · intro w
    obtain ⟨L, h1, h2⟩ := m.perWord w
    refine ⟨L, h1, fun x hx => h2 x ?_⟩
    rw [allForms_append, tagListsOf_append] at hx
    rcases List.mem_append.1 hx with h | h <;> exact h
  · obtain ⟨L, h1, h2⟩ := m.sets
    refine ⟨L, h1, fun F hF w hne => ?_⟩
    rw [allForms_append] at hF
    rcases List.prefix_or_prefix_of_prefix hF (List.prefix_append (allForms es) (allForms es)) with h | h
    · exact h2 F h w hne
    · obtain ⟨G, rfl⟩ := h
      have hG : G <+: allForms es := (List.prefix_append_right_inj _).1 hF
      rw [tagListsOf_append] at hne ⊢
      have hne' : tagListsOf w (allForms es) ≠ [] := by
        obtain ⟨x, hx⟩ := List.exists_mem_of_ne_nil _ hne
        rcases List.mem_append.1 hx with h | h
        · exact List.ne_nil_of_mem h
        · exact List.ne_nil_of_mem (tagListsOf_sublist w hG x h)
      obtain ⟨A, hA, s1, s2⟩ := h2 _ (List.prefix_refl _) w hne'
      refine ⟨A, hA, ?_, ?_⟩
      · intro a ha
        obtain ⟨b, hb, hp⟩ := s1 a ha
        exact ⟨b, List.mem_append_left _ hb, hp⟩
      · intro b hb
        rcases List.mem_append.1 hb with h | h
        · exact s2 b h
        · exact s2 b (tagListsOf_sublist w hG b h)

theorem declaredTags_twice (es : List Entry) : declaredTags (es ++ es) = declaredTags es := by
  let f : List Tag → Entry → List Tag := fun T e => match e with
    | .grammeme n p =>
      if T.any (·.name == n) then T else T ++ [{ name := n, parent := if p = [] then str "----" else p }]
    | .lem _ => T
  have mono : ∀ (es : List Entry) (T : List Tag), T <+: es.foldl f T := by
    intro es
    induction es with
    | nil => intro T; exact List.prefix_refl _
    | cons e es ih =>
      intro T
      refine List.IsPrefix.trans ?_ (ih (f T e))
      cases e with
      | lem fs => exact List.prefix_refl _
      | grammeme n p =>
        show T <+: if _ then _ else _
        split
        · exact List.prefix_refl _
        · exact List.prefix_append _ _
  have known : ∀ (es : List Entry) (T : List Tag) n p, Entry.grammeme n p ∈ es →
      (es.foldl f T).any (·.name == n) = true := by
    intro es
    induction es with
    | nil => intro T n p h; cases h
    | cons e es ih =>
      intro T n p h
      rcases List.mem_cons.1 h with rfl | h
      · have h1 : (f T (.grammeme n p)).any (·.name == n) = true := by
          show (if _ then _ else _ : List Tag).any _ = true
          split
          · assumption
          · simp
        obtain ⟨s, hs⟩ := mono es (f T (.grammeme n p))
        show (es.foldl f (f T (.grammeme n p))).any _ = true
        rw [← hs, List.any_append, h1, Bool.true_or]
      · exact ih _ n p h
  have stay : ∀ (es : List Entry) (T : List Tag), (∀ n p, Entry.grammeme n p ∈ es → T.any (·.name == n) = true) →
      es.foldl f T = T := by
    intro es
    induction es with
    | nil => intro T _; rfl
    | cons e es ih =>
      intro T h
      have h1 : f T e = T := by
        cases e with
        | lem fs => rfl
        | grammeme n p => exact if_pos (h n p (by simp))
      show es.foldl f (f T e) = T
      rw [h1]
      exact ih T fun n p hm => h n p (List.mem_cons_of_mem _ hm)
  show (es ++ es).foldl f [] = es.foldl f []
  rw [List.foldl_append]
  exact stay es _ fun n p h => known es [] n p h

/-- C78, the same document twice: importing it a second time succeeds, and the index answers like after the first time
(same exceptions). -/
theorem C78_twice_partial (fo : Str → Bool) (doc : List Xml) (v : Xml.ValidAll fo [] doc)
    (d : Declared (entriesOf doc)) (m : DocRoom (entriesOf doc)) :
    let r₁ := PState.run fo (PState.init Index.new 0) (Xml.tokensAll doc)
    let r₂ := PState.run fo (PState.init r₁.1.ix 0) (Xml.tokensAll doc)
    r₁.2 = none ∧ r₂.2 = none ∧
    ∃ ix₁ ix₂, Index.new.load r₁.1.ix.optimize.1.save.bytes = .ok (ix₁, []) ∧
      Index.new.load r₂.1.ix.optimize.1.save.bytes = .ok (ix₂, []) ∧
      ix₁.nodesCount = ix₂.nodesCount ∧ ix₁.wordsCount = ix₂.wordsCount ∧ ix₁.tags.Perm ix₂.tags ∧
      ∀ w, NoLeadingNul (decodeRunes w) →
        AlikeAt ix₁ ix₂ ([] ∈ tagListsOf w (allForms (entriesOf doc))) (decodeRunes w) := by
  intro r₁ r₂
  have v2 := validAll_append v v
  have d2 : Declared (entriesOf (doc ++ doc)) := by rw [entriesOf_append]; exact d.append d
  have m2 : DocRoom (entriesOf (doc ++ doc)) := by rw [entriesOf_append]; exact m.twice
  have h1 : r₁.2 = none := (imported v d m).1
  have hs : (r₂.1.ix, r₂.2) = _ := C78_several fo doc doc v v Index.new h1
  obtain ⟨e1, e2⟩ := Prod.mk.inj hs
  refine ⟨h1, e2.trans (imported v2 d2 m2).1, ?_⟩
  rw [e1]
  refine C78_import_partial fo doc (doc ++ doc) v v2 d d2 m m2 ?_ ?_
  · intro t
    rw [entriesOf_append, declaredTags_twice]
  · rw [entriesOf_append, allForms_append]
    constructor
    · intro f hf
      exact ⟨f, List.mem_append_left _ hf, rfl, List.Perm.refl _⟩
    · intro f hf
      rcases List.mem_append.1 hf with h | h <;> exact ⟨f, h, rfl, List.Perm.refl _⟩

/-! ## Examples -/

/-- Another order of calls with the content of `permutedHistory`. -/
def reorderedHistory : List Op :=
  [.tagID [78, 79, 85, 78] [], .addRunes [97, 98], .tagID [86, 69, 82, 66] [], .addRunes [99], .addRunes [99],
   .addTagSet 2 [[78, 79, 85, 78]], .fetchRunes [99, 99], .addTagSet 3 [[86, 69, 82, 66]],
   .addTagSet 2 [[86, 69, 82, 66], [78, 79, 85, 78]], .optimize]

theorem reordered_same : SameContent (dictOf permutedHistory) (dictOf reorderedHistory) := by
  refine ⟨?_, ?_, ?_⟩
  · have h1 : (dictOf permutedHistory).words = [[99], [97, 98]] := by decide
    have h2 : (dictOf reorderedHistory).words = [[97, 98], [99], [99]] := by decide
    intro v
    rw [h1, h2]
    simp only [List.mem_cons, List.not_mem_nil, or_false]
    tauto
  · have h1 : (dictOf permutedHistory).tags =
        [⟨str "----", [86, 69, 82, 66]⟩, ⟨str "----", [78, 79, 85, 78]⟩] := by decide
    have h2 : (dictOf reorderedHistory).tags =
        [⟨str "----", [78, 79, 85, 78]⟩, ⟨str "----", [86, 69, 82, 66]⟩] := by decide
    intro t
    rw [h1, h2]
    simp only [List.mem_cons, List.not_mem_nil, or_false]
    tauto
  · intro w
    by_cases h1 : w = [99]
    · subst h1; unfold SameSets; decide
    · by_cases h2 : w = [97, 98]
      · subst h2; unfold SameSets; decide
      · have e1 : (dictOf permutedHistory).readings = [(1, [[86, 69, 82, 66]]), (3, [[78, 79, 85, 78], [86, 69, 82, 66]]),
            (3, [[78, 79, 85, 78]]), (3, [[86, 69, 82, 66], [78, 79, 85, 78]])] := by decide
        have e2 : (dictOf permutedHistory).nodes = [[], [99], [97], [97, 98]] := by decide
        have e3 : (dictOf reorderedHistory).readings = [(2, [[78, 79, 85, 78]]), (3, [[86, 69, 82, 66]]),
            (2, [[86, 69, 82, 66], [78, 79, 85, 78]])] := by decide
        have e4 : (dictOf reorderedHistory).nodes = [[], [97], [97, 98], [99]] := by decide
        unfold Dict.readingsFor
        rw [e1, e2, e3, e4]
        simp [SameSets, Ne.symm h1, Ne.symm h2]

/-- The hypotheses of `C78_partial` are met by two histories that give the word [97, 98] different numbers. -/
example : Run permutedHistory (execAll permutedHistory) ∧ Run reorderedHistory (execAll reorderedHistory) ∧
    SameContent (dictOf permutedHistory) (dictOf reorderedHistory) ∧
    ((execAll permutedHistory).fetchRunes [97, 98]).2 = .ok 3 ∧ ((execAll reorderedHistory).fetchRunes [97, 98]).2 = .ok 2 :=
  ⟨small_runs _ (by decide), small_runs _ (by decide), reordered_same, by decide, by decide⟩

/-- What `C78_twice_partial` says about the sample document. -/
example : let r₁ := PState.run (fun _ => true) (PState.init Index.new 0) (Xml.tokensAll sampleDoc)
    (PState.run (fun _ => true) (PState.init r₁.1.ix 0) (Xml.tokensAll sampleDoc)).2 = none :=
  (C78_twice_partial _ sampleDoc sampleDoc_valid sampleDoc_declared sampleDoc_room).2.1

/-! ## What does not hold -/

/-- Two words, two readings, and an empty reading of the first word; the readings come in the order `x`, `y`. -/
def emptyThird (x y : Op) : List Op :=
  [.tagID (str "NOUN") [], .tagID (str "VERB") [], .addString (str "a"), .addString (str "b"), .addString (str "c"), x, y,
   .addTagSet 1 []]

/-- C78 does not hold for a word with an empty reading: what is shown for it depends on which reading of any other word
came first. -/
theorem not_C78 : ∃ h₁ h₂ ix₁ ix₂, Run h₁ ix₁ ∧ Run h₂ ix₂ ∧ (dictOf h₁).words = (dictOf h₂).words ∧
    (dictOf h₁).tags = (dictOf h₂).tags ∧ (∀ w, ((dictOf h₁).readingsFor w).Perm ((dictOf h₂).readingsFor w)) ∧
    (ix₁.fetchString (str "a")).2 = .ok 1 ∧ (ix₂.fetchString (str "a")).2 = .ok 1 ∧
    ix₁.tagSetsOf 1 = .ok [[⟨str "----", str "NOUN"⟩]] ∧ ix₂.tagSetsOf 1 = .ok [[⟨str "----", str "VERB"⟩]] := by
  refine ⟨emptyThird (.addTagSet 2 [str "NOUN"]) (.addTagSet 3 [str "VERB"]),
    emptyThird (.addTagSet 3 [str "VERB"]) (.addTagSet 2 [str "NOUN"]), _, _,
    small_runs _ (by decide), small_runs _ (by decide), by decide, by decide, ?_, by decide, by decide, by decide, by decide⟩
  intro w
  unfold Dict.readingsFor
  refine List.Perm.map _ (List.Perm.filter _ ?_)
  decide

end Verif
