import Verif.Spec.Larger
import Verif.Props.OrderExact

/-!
# C108 — a dictionary that contains another answers everything the other answers

`ContainedIn`, `KnowsMore`, `ReadingsIn`, `shownAs`, `Extends`: `Spec/Larger.lean`.
-/

namespace Verif

theorem shownAs_names {T : List Tag} {first : Option Str} {A : List (List Str)} {L : List (List Tag)}
    (h : Shown T first A L) :
    (∀ a ∈ shownAs first A, ∃ t ∈ L, (tagNames t).Perm a) ∧ (∀ t ∈ L, ∃ a ∈ shownAs first A, (tagNames t).Perm a) ∧
    ∀ t ∈ L, ∀ x ∈ t, x ∈ T := by
  cases first with
  | some x => exact ⟨h.complete, h.sound, h.registered⟩
  | none =>
    by_cases hm : [] ∈ A
    · obtain ⟨D, hD, rfl⟩ := h.2 hm
      simp only [shownAs, if_pos hm]
      refine ⟨?_, ?_, ?_⟩
      · intro a ha
        obtain ⟨a', ha', rfl⟩ := List.mem_map.1 ha
        obtain ⟨b, hb, _⟩ := hD.complete a' ha'
        exact ⟨[], List.mem_map.2 ⟨b, hb, rfl⟩, .refl _⟩
      · intro t ht
        obtain ⟨a, ha, rfl⟩ := List.mem_map.1 ht
        exact ⟨[], List.mem_map.2 ⟨a, hD.sub a ha, rfl⟩, .refl _⟩
      · intro t ht x hx
        obtain ⟨a, ha, rfl⟩ := List.mem_map.1 ht
        cases hx
    · have := h.1 hm
      simp only [shownAs, if_neg hm]
      exact ⟨this.complete, this.sound, this.registered⟩

variable {h₁ h₂ : List Op} {ix₁ ix₂ : Index}

theorem containedIn_found (r₁ : Run h₁ ix₁) (r₂ : Run h₂ ix₂) (hw : ∀ v ∈ (dictOf h₁).words, v ∈ (dictOf h₂).words)
    (q : List Rune) (z₁ : NoReload h₁ ∨ NoLeadingNul q) (z₂ : NoReload h₂ ∨ NoLeadingNul q)
    (hf : ∃ id, (ix₁.fetchRunes q).2 = .ok id) : ∃ id, (ix₂.fetchRunes q).2 = .ok id := by
  rw [(C02_runes r₁ q z₁).1] at hf
  rw [(C02_runes r₂ q z₂).1]
  exact ⟨hf.1, let ⟨v, hv, hp⟩ := hf.2; ⟨v, hw v hv, hp⟩⟩

/-- C108, words: whatever the smaller dictionary finds the larger one finds, with its continuations, and counts. -/
theorem C108_words (r₁ : Run h₁ ix₁) (r₂ : Run h₂ ix₂) (hs : ContainedIn (dictOf h₁) (dictOf h₂)) :
    ix₁.nodesCount ≤ ix₂.nodesCount ∧ ix₁.wordsCount ≤ ix₂.wordsCount ∧ (∀ t ∈ ix₁.tags, t ∈ ix₂.tags) ∧
    ∀ w, (NoReload h₁ ∧ NoReload h₂) ∨ NoLeadingNul w → KnowsMore ix₁ ix₂ w := by
  refine ⟨?_, ?_, ?_, ?_⟩
  · obtain ⟨L₁, n₁, l₁, m₁⟩ := C04 r₁
    obtain ⟨L₂, n₂, l₂, m₂⟩ := C04 r₂
    rw [← l₁, ← l₂]
    refine (List.subperm_of_subset n₁ fun p hp => ?_).length_le
    rw [m₁] at hp
    rw [m₂]
    exact ⟨hp.1, let ⟨v, hv, hq⟩ := hp.2; ⟨v, hs.words v hv, hq⟩⟩
  · obtain ⟨L₁, n₁, l₁, m₁⟩ := r₁.tagged_words
    obtain ⟨L₂, n₂, l₂, m₂⟩ := r₂.tagged_words
    rw [← l₁, ← l₂]
    refine (List.subperm_of_subset n₁ fun w hw => ?_).length_le
    rw [m₁] at hw
    rw [m₂]
    obtain ⟨x, hx⟩ := List.exists_mem_of_ne_nil _ hw
    obtain ⟨y, hy, _⟩ := hs.readings w x hx
    exact List.ne_nil_of_mem hy
  · rw [r₁.tag.tags, r₂.tag.tags]; exact hs.tags
  · intro w hz
    have z₁ : NoReload h₁ ∨ NoLeadingNul w := hz.imp_left And.left
    have z₂ : NoReload h₂ ∨ NoLeadingNul w := hz.imp_left And.right
    constructor
    · intro i hi
      obtain ⟨j, hj⟩ := containedIn_found r₁ r₂ hs.words w z₁ z₂ ⟨i, hi⟩
      have hi' := hi
      have hj' := hj
      rw [r₁.trie.fetchRoot_iff, Run.root_join z₁] at hi'
      rw [r₂.trie.fetchRoot_iff, Run.root_join z₂] at hj'
      refine ⟨j, hj, by rw [r₁.trie.word_eq hi'.2, r₂.trie.word_eq hj'.2], ?_⟩
      intro c
      have hz' : ∀ h, NoReload h ∨ NoLeadingNul w → NoReload h ∨ NoLeadingNul (w ++ [c]) := by
        intro h hz
        refine hz.imp_right fun hz => ?_
        cases w with
        | nil => exact absurd rfl hi'.1
        | cons a l => simpa [NoLeadingNul] using hz
      rw [Option.isSome_iff_exists, Option.isSome_iff_exists]
      simp only [C54 r₁ w i c _ (.inr hi), C54 r₂ w j c _ (.inr hj)]
      exact containedIn_found r₁ r₂ hs.words (w ++ [c]) (hz' _ z₁) (hz' _ z₂)
    · intro hq hno
      have hno₁ : ∀ id, (ix₁.fetchRunes w).2 ≠ .ok id := fun id h =>
        let ⟨id', h'⟩ := containedIn_found r₁ r₂ hs.words w z₁ z₂ ⟨id, h⟩; hno id' h'
      obtain ⟨p₁, c₁, s₁, e₁, f₁, g₁⟩ := C53 r₁ w hq z₁ hno₁
      obtain ⟨p₂, c₂, s₂, e₂, f₂, g₂⟩ := C53 r₂ w hq z₂ hno
      have hp1 : p₁ <+: w := ⟨_, e₁.symm⟩
      refine ⟨p₁, c₁, p₂, c₂, ?_, ⟨s₂, by rw [e₂]; simp⟩, f₁, f₂⟩
      by_cases h0 : p₁ = []
      · rw [h0]; exact List.nil_prefix
      · exact (g₂ p₁ h0 hp1).1 (containedIn_found r₁ r₂ hs.words p₁ (noLeading_prefix z₁ hp1)
          (noLeading_prefix z₂ hp1) ((g₁ p₁ h0 hp1).2 (List.prefix_refl _)))

/-- **C108, readings, exactly**: every reading the smaller dictionary shows for a word is shown by the larger one if and only
if this is so of the readings to be shown. They are those attached, unless one of them is empty (`shownAs`). -/
theorem C108_exact (r₁ : Run h₁ ix₁) (r₂ : Run h₂ ix₂) (hs : ContainedIn (dictOf h₁) (dictOf h₂)) (w : List Rune)
    (hz : (NoReload h₁ ∧ NoReload h₂) ∨ NoLeadingNul w) (i j : ID)
    (hi : (ix₁.fetchRunes w).2 = .ok i) (hj : (ix₂.fetchRunes w).2 = .ok j) :
    ∃ L M, ix₁.tagSetsOf i = .ok L ∧ ix₂.tagSetsOf j = .ok M ∧
      (ReadingsIn L M ↔ ∀ a ∈ shownAs (dictOf h₁).firstSingle ((dictOf h₁).readingsFor w),
        ∃ b ∈ shownAs (dictOf h₂).firstSingle ((dictOf h₂).readingsFor w), a.Perm b) := by
  have z₁ : NoReload h₁ ∨ NoLeadingNul w := hz.imp_left And.left
  have z₂ : NoReload h₂ ∨ NoLeadingNul w := hz.imp_left And.right
  rw [r₁.trie.fetchRoot_iff, Run.root_join z₁] at hi
  rw [r₂.trie.fetchRoot_iff, Run.root_join z₂] at hj
  have bound : ∀ {h : List Op} {ix : Index} {i : ID} (r : Run h ix), w ≠ [] → (dictOf h).nodes[i.toNat]? = some w →
      1 ≤ i.toNat ∧ i.toNat ≤ ix.nodesCount := by
    intro h ix i r h0 hi
    have hl := (List.getElem?_eq_some_iff.1 hi).1
    refine ⟨?_, by rw [r.trie.nodesCount]; omega⟩
    rcases Nat.eq_zero_or_pos i.toNat with h1 | h1
    · rw [h1, r.trie.root] at hi
      exact absurd (Option.some.inj hi).symm h0
    · exact h1
  obtain ⟨L, hL, s₁⟩ := C10_exact r₁ i (bound r₁ hi.1 hi.2)
  obtain ⟨M, hM, s₂⟩ := C10_exact r₂ j (bound r₂ hj.1 hj.2)
  refine ⟨L, M, hL, hM, ?_⟩
  rw [← readingsFor_eq r₁.trie.nodup hi.2, r₁.tag.tags] at s₁
  rw [← readingsFor_eq r₂.trie.nodup hj.2, r₂.tag.tags] at s₂
  obtain ⟨c₁, d₁, g₁⟩ := shownAs_names s₁
  obtain ⟨c₂, d₂, g₂⟩ := shownAs_names s₂
  constructor
  · intro h a ha
    obtain ⟨t, ht, hp⟩ := c₁ a ha
    obtain ⟨t', ht', hp'⟩ := h t ht
    obtain ⟨b, hb, hp''⟩ := d₂ t' ht'
    exact ⟨b, hb, hp.symm.trans ((hp'.map _).trans hp'')⟩
  · intro h t ht
    obtain ⟨a, ha, hp⟩ := d₁ t ht
    obtain ⟨b, hb, hp'⟩ := h a ha
    obtain ⟨t', ht', hp''⟩ := c₂ b hb
    exact ⟨t', ht', perm_of_tagNames r₂.tag.names (fun x hx => hs.tags x (g₁ t ht x hx)) (g₂ t' ht')
      (hp.trans (hp'.trans hp''.symm))⟩

/-- C108, readings, the part that holds: if no empty reading was attached to the word — or, in the larger dictionary, some
word has a reading of one tag — every reading the smaller dictionary shows is shown by the larger one. -/
theorem C108_partial (r₁ : Run h₁ ix₁) (r₂ : Run h₂ ix₂) (hs : ContainedIn (dictOf h₁) (dictOf h₂)) (w : List Rune)
    (hz : (NoReload h₁ ∧ NoReload h₂) ∨ NoLeadingNul w) (i j : ID)
    (hi : (ix₁.fetchRunes w).2 = .ok i) (hj : (ix₂.fetchRunes w).2 = .ok j) (hne : [] ∉ (dictOf h₁).readingsFor w)
    (hne' : [] ∉ (dictOf h₂).readingsFor w ∨ ∃ e ∈ (dictOf h₂).readings, e.2.length = 1) :
    ∃ L M, ix₁.tagSetsOf i = .ok L ∧ ix₂.tagSetsOf j = .ok M ∧ ReadingsIn L M := by
  obtain ⟨L, M, hL, hM, hiff⟩ := C108_exact r₁ r₂ hs w hz i j hi hj
  refine ⟨L, M, hL, hM, hiff.2 ?_⟩
  have e₁ : ∀ a ∈ shownAs (dictOf h₁).firstSingle ((dictOf h₁).readingsFor w),
      a ∈ (dictOf h₁).readingsFor w := by
    intro a ha
    unfold shownAs at ha
    split at ha
    · obtain ⟨b, hb, rfl⟩ := List.mem_map.1 ha
      rwa [if_neg fun e : b = [] => hne (e ▸ hb)]
    · rwa [if_neg hne] at ha
  intro a ha
  have ha := e₁ a ha
  obtain ⟨b, hb, hp⟩ := hs.readings w a ha
  refine ⟨b, ?_, hp⟩
  have hb0 : b ≠ [] := fun e => by
    rw [e] at hp
    rw [hp.eq_nil] at ha
    exact hne ha
  unfold shownAs
  split
  · exact List.mem_map.2 ⟨b, hb, if_neg hb0⟩
  · rename_i hf
    split
    · rename_i hm
      rcases hne' with hne' | ⟨e, he, hl⟩
      · exact absurd hm hne'
      · exfalso
        unfold Dict.firstSingle at hf
        rw [List.findSome?_eq_none_iff] at hf
        obtain ⟨x, hx⟩ := List.length_eq_one_iff.1 hl
        have := hf e he
        rw [hx] at this
        cases this
    · exact hb

/-! ## Going on -/

theorem dictOf_words_grow (h h' : List Op) : ∀ v ∈ (dictOf h).words, v ∈ (dictOf (h ++ h')).words := by
  induction h' using list_reverse_induction with
  | nil => rw [List.append_nil]; exact fun _ h => h
  | snoc l op ih =>
    intro v hv
    rw [← List.append_assoc, dictOf_append]
    have hv := ih v hv
    have hins : ∀ d : Dict, ∀ p rs, v ∈ d.words → v ∈ (d.insert p rs).words := by
      intro d p rs hv
      unfold Dict.insert
      split
      · exact hv
      · split
        · exact hv
        · exact List.mem_append_left _ hv
    cases op with
    | addRunes rs => exact hins _ _ _ hv
    | addString w => exact hins _ _ _ hv
    | addToNode id rs => exact hins _ _ _ hv
    | tagID n p => simp only [Op.spec]; split <;> exact hv
    | addTagSet id names => simp only [Op.spec]; split <;> exact hv
    | _ => exact hv

/-- Further calls make a dictionary larger. -/
theorem containedIn_later (h h' : List Op) (hst : NoReload h' ∨ ∀ t ∈ (dictOf h).tags, storedTag t = t) :
    ContainedIn (dictOf h) (dictOf (h ++ h')) := by
  refine ⟨dictOf_words_grow h h', (dictOf_tags_kept h h' hst).subset, ?_⟩
  intro w names hm
  obtain ⟨e, he, rfl⟩ := List.mem_map.1 hm
  rw [List.mem_filter] at he
  refine ⟨e.2, List.mem_map.2 ⟨e, List.mem_filter.2 ⟨(dictOf_readings_prefix h h').subset he.1, ?_⟩, rfl⟩, .refl _⟩
  exact decide_eq_true (prefix_getElem? (dictOf_nodes_prefix h h') (of_decide_eq_true he.2))

/-! ## Documents -/

/-- C108 for documents: the dictionary of a later edition that drops nothing has all answers of the earlier one. -/
theorem C108_import_partial (fo : Str → Bool) (doc₁ doc₂ : List Xml) (v₁ : Xml.ValidAll fo [] doc₁)
    (v₂ : Xml.ValidAll fo [] doc₂) (d₁ : Declared (entriesOf doc₁)) (d₂ : Declared (entriesOf doc₂))
    (m₁ : DocRoom (entriesOf doc₁)) (m₂ : DocRoom (entriesOf doc₂)) (he : Extends doc₁ doc₂) :
    let a := (PState.run fo (PState.init Index.new 0) (Xml.tokensAll doc₁)).1.ix
    let b := (PState.run fo (PState.init Index.new 0) (Xml.tokensAll doc₂)).1.ix
    ∃ ix₁ ix₂, Index.new.load a.optimize.1.save.bytes = .ok (ix₁, []) ∧
      Index.new.load b.optimize.1.save.bytes = .ok (ix₂, []) ∧
      ix₁.nodesCount ≤ ix₂.nodesCount ∧ ix₁.wordsCount ≤ ix₂.wordsCount ∧ (∀ t ∈ ix₁.tags, t ∈ ix₂.tags) ∧
      ∀ w, NoLeadingNul (decodeRunes w) → KnowsMore ix₁ ix₂ (decodeRunes w) ∧
        ∀ i j, (ix₁.fetchRunes (decodeRunes w)).2 = .ok i → (ix₂.fetchRunes (decodeRunes w)).2 = .ok j →
          [] ∉ tagListsOf w (allForms (entriesOf doc₂)) →
          ∃ L M, ix₁.tagSetsOf i = .ok L ∧ ix₂.tagSetsOf j = .ok M ∧ ReadingsIn L M := by
  intro a b
  obtain ⟨_, _, _, ix₁, l₁, t₁, r₁⟩ := imported v₁ d₁ m₁
  obtain ⟨_, _, _, ix₂, l₂, t₂, r₂⟩ := imported v₂ d₂ m₂
  have hs : ContainedIn (dictOf (callsOf (entriesOf doc₁) ++ [.optimize] ++ [.reload]))
      (dictOf (callsOf (entriesOf doc₂) ++ [.optimize] ++ [.reload])) := by
    refine ⟨?_, ?_, ?_⟩
    · intro v
      rw [(imported_dict d₁ m₁).1, (imported_dict d₂ m₂).1, List.mem_map, List.mem_map]
      rintro ⟨f, h, rfl⟩
      obtain ⟨g, hg, e, _⟩ := he.forms f h
      exact ⟨g, hg, e.symm⟩
    · rw [← r₁.tag.tags, ← r₂.tag.tags, t₁, t₂]
      exact he.grammemes
    · intro w
      rw [imported_readingsFor d₁ m₁ w r₁.trie.nodup, imported_readingsFor d₂ m₂ w r₂.trie.nodup]
      intro x hx
      obtain ⟨f, hf, rfl⟩ := List.mem_map.1 hx
      rw [List.mem_filter] at hf
      obtain ⟨g, hg, e1, e2⟩ := he.forms f hf.1
      exact ⟨g.2, List.mem_map.2 ⟨g, List.mem_filter.2 ⟨hg, decide_eq_true (e1 ▸ of_decide_eq_true hf.2)⟩, rfl⟩, e2⟩
  obtain ⟨c1, c2, c3, c4⟩ := C108_words r₁ r₂ hs
  refine ⟨ix₁, ix₂, l₁, l₂, c1, c2, c3, fun w hw => ⟨c4 (decodeRunes w) (.inr hw), fun i j hi hj hne => ?_⟩⟩
  have e2 := imported_readingsFor d₂ m₂ (decodeRunes w) r₂.trie.nodup
  have hne₂ : [] ∉ (dictOf (callsOf (entriesOf doc₂) ++ [.optimize] ++ [.reload])).readingsFor (decodeRunes w) := by
    rw [e2]; exact hne
  refine C108_partial r₁ r₂ hs _ (.inr hw) i j hi hj (fun hm => hne₂ ?_) (.inl hne₂)
  obtain ⟨b, hb, hp⟩ := hs.readings _ _ hm
  rwa [hp.nil_eq]

theorem upToLemma_mono {m n : Nat} (h : m ≤ n) (es : List Entry) : upToLemma m es <+: upToLemma n es := by
  induction es generalizing m n with
  | nil => cases m <;> cases n <;> simp [upToLemma]
  | cons e es ih =>
    cases e with
    | grammeme nm p =>
      have e1 : ∀ m, upToLemma m (.grammeme nm p :: es) = .grammeme nm p :: upToLemma m es := by
        intro m
        cases m with
        | zero => rfl
        | succ m => cases m <;> rfl
      rw [e1, e1]
      exact (List.prefix_cons_inj _).2 (ih h)
    | lem fs =>
      match m, n, h with
      | 0, n, _ => exact List.nil_prefix
      | 1, 1, _ => exact List.prefix_refl _
      | 1, n + 2, _ => exact ⟨upToLemma (n + 1) es, rfl⟩
      | m + 2, n + 2, h => exact (List.prefix_cons_inj _).2 (ih (m := m + 1) (n := n + 1) (by omega))

theorem Declared.prefix {a es : List Entry} (h : Declared es) (hp : a <+: es) : Declared a := by
  obtain ⟨b, rfl⟩ := hp
  intro es1 fs es2 he
  exact h es1 fs (es2 ++ b) (by rw [he]; simp)

theorem callsOf_prefix {a es : List Entry} (hp : a <+: es) : callsOf a <+: callsOf es := by
  obtain ⟨b, rfl⟩ := hp
  have : ∀ (a : List Entry) (d : Dict), importCalls d a <+: importCalls d (a ++ b) := by
    intro a
    induction a with
    | nil => intro d; exact List.nil_prefix
    | cons e a ih =>
      intro d
      cases e with
      | grammeme n p => exact (List.prefix_cons_inj _).2 (ih _)
      | lem fs => exact (List.prefix_append_right_inj _).2 (ih _)
  exact this a _

/-- The index made of the first entries of a document. -/
theorem limited_run {es a : List Entry} (hd : Declared es) (m : DocRoom es) (hp : a <+: es) :
    execEntries Index.new a = (execAll (callsOf a), none) ∧ Run (callsOf a) (execAll (callsOf a)) := by
  have r := room_runs _ (room_of_doc hd m)
  obtain ⟨t, ht⟩ := callsOf_prefix hp
  rw [← ht] at r
  obtain ⟨jx, s⟩ := r.before
  have hj := s.eq
  subst hj
  exact ⟨entries_ok a Run.nil (by simp [NoReload]) Holds.empty [] (by simp) (hd.prefix hp).steps s, s⟩

theorem callsOf_plain (es : List Entry) : NoReload (callsOf es) := by
  have hf : ∀ (fs : List (Str × List Str)) (d : Dict), Op.reload ∉ formCalls d fs := by
    intro fs
    induction fs with
    | nil => intro d hm; cases hm
    | cons f fs ih =>
      intro d hm
      obtain ⟨w, tags⟩ := f
      simp only [formCalls, List.mem_cons] at hm
      rcases hm with hm | hm | hm
      · cases hm
      · cases hm
      · exact ih _ hm
  have : ∀ (es : List Entry) (d : Dict), Op.reload ∉ importCalls d es := by
    intro es
    induction es with
    | nil => intro d hm; cases hm
    | cons e es ih =>
      intro d hm
      cases e with
      | grammeme n p =>
        simp only [importCalls, List.mem_cons] at hm
        rcases hm with hm | hm
        · cases hm
        · exact ih _ hm
      | lem fs =>
        simp only [importCalls, List.mem_append] at hm
        rcases hm with hm | hm
        · exact hf _ _ hm
        · exact ih _ hm
  exact this es _

/-- C108, limits: an import stopped after `m` lemmas (`SetMaxLemmas`) knows a part of what one stopped later, or not at all
(`n = 0`), knows. -/
theorem C108_limit_partial (fo : Str → Bool) (doc : List Xml) (v : Xml.ValidAll fo [] doc) (d : Declared (entriesOf doc))
    (room : DocRoom (entriesOf doc)) (m n : Nat) (hm : 0 < m) (hn : m ≤ n ∨ n = 0) :
    let a := (PState.run fo (PState.init Index.new m) (Xml.tokensAll doc)).1.ix
    let b := (PState.run fo (PState.init Index.new n) (Xml.tokensAll doc)).1.ix
    a.nodesCount ≤ b.nodesCount ∧ a.wordsCount ≤ b.wordsCount ∧ (∀ t ∈ a.tags, t ∈ b.tags) ∧
    ∀ w, KnowsMore a b w ∧
      ∀ i, (a.fetchRunes w).2 = .ok i → (b.fetchRunes w).2 = .ok i ∧
        ((∀ f ∈ allForms (entriesOf doc), decodeRunes f.1 = w → f.2 ≠ []) →
          ∃ L M, a.tagSetsOf i = .ok L ∧ b.tagSetsOf i = .ok M ∧ ReadingsIn L M) := by
  intro a b
  have hA : upToLemma m (entriesOf doc) <+: entriesOf doc := (upToLemma_prefix m _).1
  obtain ⟨eA, rA⟩ := limited_run d room hA
  have ha : a = execAll (callsOf (upToLemma m (entriesOf doc))) := by
    have := (C43 fo doc v Index.new m hm).1
    rw [eA] at this
    exact this
  obtain ⟨B, hAB, hB, eb⟩ : ∃ B, upToLemma m (entriesOf doc) <+: B ∧ B <+: entriesOf doc ∧ b = (execEntries Index.new B).1 := by
    rcases Nat.eq_zero_or_pos n with h0 | h0
    · refine ⟨entriesOf doc, hA, List.prefix_refl _, ?_⟩
      have := C40 fo doc v Index.new n (by omega)
      exact congrArg Prod.fst this
    · exact ⟨upToLemma n (entriesOf doc), upToLemma_mono (by omega) _, (upToLemma_prefix n _).1,
        (C43 fo doc v Index.new n h0).1⟩
  obtain ⟨eB, rB⟩ := limited_run d room hB
  have hb : b = execAll (callsOf B) := by rw [eb, eB]
  have pl := callsOf_plain B
  have pl' := callsOf_plain (upToLemma m (entriesOf doc))
  obtain ⟨s, hs⟩ := callsOf_prefix hAB
  obtain ⟨u, hu⟩ := callsOf_prefix hB
  rw [ha, hb]
  clear_value a b
  generalize callsOf (upToLemma m (entriesOf doc)) = x at *
  generalize callsOf B = y at *
  subst hs
  have part : ContainedIn (dictOf x) (dictOf (x ++ s)) :=
    containedIn_later x s (.inl fun h => pl (List.mem_append_right _ h))
  obtain ⟨c1, c2, c3, c4⟩ := C108_words rA rB part
  refine ⟨c1, c2, c3, fun w => ⟨c4 w (.inl ⟨pl', pl⟩), fun i hi => ?_⟩⟩
  have hj := C05_stable rA rB w i hi
  refine ⟨hj, fun hne => ?_⟩
  have hno : [] ∉ (dictOf (x ++ s)).readingsFor w := by
    intro hm
    have part' := containedIn_later (x ++ s) u (.inl fun h => callsOf_plain (entriesOf doc) (hu ▸ List.mem_append_right _ h))
    obtain ⟨z, hz, hp⟩ := part'.readings w _ hm
    rw [hu, hp.nil_eq.symm] at hz
    have imp := callsOf_imp d room
    obtain ⟨e, he, hez⟩ := List.mem_map.1 hz
    have hk := of_decide_eq_true (List.mem_filter.1 he).2
    rw [readingsFor_eq imp.nodup hk, imp.attached _ _ hk] at hz
    obtain ⟨f, hf, hf2⟩ := List.mem_map.1 hz
    rw [List.mem_filter] at hf
    exact hne f hf.1 (of_decide_eq_true hf.2) hf2
  refine C108_partial rA rB part w (.inl ⟨pl', pl⟩) i i hi hj (fun hm => hno ?_) (.inl hno)
  obtain ⟨z, hz, hp⟩ := part.readings w _ hm
  rwa [hp.nil_eq]

/-! ## Where it fails, and examples -/

/-- C108 does not hold of words with an empty reading: the word "a" has the reading noun and verb, and a further call
attaches an empty reading. The larger dictionary no longer shows noun and verb. -/
theorem not_C108 :
    let h := [Op.tagID (str "NOUN") [], .tagID (str "VERB") [], .addRunes [97], .addTagSet 1 [str "NOUN", str "VERB"]]
    let h' := h ++ [.addTagSet 1 []]
    Run h (execAll h) ∧ Run h' (execAll h') ∧ ContainedIn (dictOf h) (dictOf h') ∧
    (execAll h).tagSetsOf 1 = .ok [[newTag [] (str "NOUN"), newTag [] (str "VERB")]] ∧
    (execAll h').tagSetsOf 1 = .ok [[], []] := by
  intro h h'
  refine ⟨small_runs _ (by decide), small_runs _ (by decide), containedIn_later h _ (.inl (by simp [NoReload])), by decide, by decide⟩

/-- The hypotheses are met by a dictionary and a larger one made in another order. -/
example :
    let h := [Op.tagID (str "NOUN") [], .addRunes [97, 98], .addTagSet 2 [str "NOUN"]]
    let h' := [Op.tagID (str "VERB") [], .tagID (str "NOUN") [], .addRunes [97, 99], .addRunes [97, 98],
      .addTagSet 3 [str "VERB"], .addTagSet 3 [str "NOUN"]]
    Run h (execAll h) ∧ Run h' (execAll h') ∧ ContainedIn (dictOf h) (dictOf h') ∧
    [] ∉ (dictOf h').readingsFor [97, 98] ∧ ((execAll h).fetchRunes [97, 98]).2 = .ok 2 ∧
    ((execAll h').fetchRunes [97, 98]).2 = .ok 3 := by
  intro h h'
  refine ⟨small_runs _ (by decide), small_runs _ (by decide), ⟨by decide, by decide, ?_⟩, by decide, by decide, by decide⟩
  intro w names hm
  obtain ⟨e, he, rfl⟩ := List.mem_map.1 hm
  have e1 : (dictOf h).readings = [(2, [str "NOUN"])] := by decide
  rw [List.mem_filter, e1, List.mem_singleton] at he
  obtain ⟨rfl, hw⟩ := he
  have hw : [97, 98] = w := by
    have : (dictOf h).nodes[2]? = some [97, 98] := by decide
    rw [this] at hw
    exact Option.some.inj (of_decide_eq_true hw)
  subst hw
  exact ⟨[str "NOUN"], by decide, .refl _⟩

/-- A later edition of the sample document: a grammeme, a lemma and a reading more, in another order. -/
def laterDoc : List Xml :=
  [.elem (str "dictionary") [⟨str "version", str "0.92"⟩, ⟨str "revision", str "417128"⟩] [
    .elem (str "grammemes") [] [
      .elem (str "grammeme") [⟨str "parent", []⟩] [.elem (str "name") [] [.text (str "VERB")]],
      .elem (str "grammeme") [⟨str "parent", str "NMbr"⟩] [.elem (str "name") [] [.text (str "plur")]],
      .elem (str "grammeme") [⟨str "parent", str "NMbr"⟩] [.elem (str "name") [] [.text (str "sing")]],
      .elem (str "grammeme") [⟨str "parent", []⟩] [.elem (str "name") [] [.text (str "NOUN")]]],
    .elem (str "lemmata") [] [
      .elem (str "lemma") [⟨str "id", str "2"⟩, ⟨str "rev", str "1"⟩] [
        .elem (str "l") [⟨str "t", str "cat"⟩] [.elem (str "g") [⟨str "v", str "VERB"⟩] []],
        .elem (str "f") [⟨str "t", str "cat"⟩] [],
        .elem (str "f") [⟨str "t", str "cater"⟩] []],
      .elem (str "lemma") [⟨str "id", str "1"⟩, ⟨str "rev", str "2"⟩] [
        .elem (str "l") [⟨str "t", str "cat"⟩] [.elem (str "g") [⟨str "v", str "NOUN"⟩] []],
        .elem (str "f") [⟨str "t", str "cats"⟩] [.elem (str "g") [⟨str "v", str "plur"⟩] []],
        .elem (str "f") [⟨str "t", str "cat"⟩] [.elem (str "g") [⟨str "v", str "sing"⟩] []]]]]]

theorem laterDoc_entries : entriesOf laterDoc =
    [.grammeme (str "VERB") [], .grammeme (str "plur") (str "NMbr"), .grammeme (str "sing") (str "NMbr"),
     .grammeme (str "NOUN") [], .lem [(str "cat", [str "VERB"]), (str "cater", [str "VERB"])],
     .lem [(str "cats", [str "NOUN", str "plur"]), (str "cat", [str "NOUN", str "sing"])]] := by decide

/-- The hypotheses of the theorems about documents are met. -/
example : Xml.ValidAll (fun _ => true) [] laterDoc ∧ Declared (entriesOf laterDoc) ∧ DocRoom (entriesOf laterDoc) ∧
    Extends sampleDoc laterDoc ∧ [] ∉ tagListsOf (str "cat") (allForms (entriesOf laterDoc)) := by
  refine ⟨by decide, declared_of_check _ (by decide), ?_, ?_, by rw [laterDoc_entries]; decide⟩
  · apply DocSmall.room
    rw [laterDoc_entries]
    constructor <;> decide
  · constructor
    · rw [sampleDoc_entries, laterDoc_entries]; decide
    · rw [sampleDoc_entries, laterDoc_entries]; decide

end Verif
