import Verif.Props.Order
import Verif.Props.Exact

/-!
# C78 — words with an empty reading, exactly
-/

namespace Verif

/-- The readings shown for a word: an empty one is replaced by the first one-tag reading of the dictionary, if there is
one. -/
def Dict.shownFor (d : Dict) (w : List Rune) : List (List Str) :=
  (d.readingsFor w).map fun names => if names = [] then d.firstSingle.toList else names

theorem oneEach_length {A B D E : List (List Str)} (hs : SameSets A B) (hD : OneEach A D) (hE : OneEach B E) :
    D.length ≤ E.length := by
  let f : List Str → List Tag := fun names => names.map fun n => ⟨[], n⟩
  have hf : ∀ names, tagNames (f names) = names := by 
    intro names
    show (names.map fun n => (⟨[], n⟩ : Tag)).map (·.name) = names
    rw [List.map_map]; exact List.map_id names
  have := pairwise_cover_length (L₁ := D.map f) (L₂ := E.map f)
    (by rw [List.pairwise_map]; exact hD.once.imp fun h => by rw [hf, hf]; exact h)
    (by
      intro t ht
      obtain ⟨a, ha, rfl⟩ := List.mem_map.1 ht
      obtain ⟨b, hb, hp⟩ := hs.1 a (hD.sub a ha)
      obtain ⟨e, he, hp'⟩ := hE.complete b hb
      exact ⟨f e, List.mem_map.2 ⟨e, he, rfl⟩, by rw [hf, hf]; exact hp.trans hp'⟩)
  simpa using this

theorem SameSets.symm {A B : List (List Str)} (h : SameSets A B) : SameSets B A :=
  ⟨fun b hb => let ⟨a, ha, hp⟩ := h.2 b hb; ⟨a, ha, hp.symm⟩, fun a ha => let ⟨b, hb, hp⟩ := h.1 a ha; ⟨b, hb, hp.symm⟩⟩

/-- Whether there is a one-tag reading depends on the content alone. -/
theorem firstSingle_some {h₁ h₂ : List Op} {ix₁ : Index} (r₁ : Run h₁ ix₁)
    (hs : ∀ w, SameSets ((dictOf h₁).readingsFor w) ((dictOf h₂).readingsFor w)) {x : Str}
    (hx : (dictOf h₁).firstSingle = some x) : ∃ y, (dictOf h₂).firstSingle = some y := by
  obtain ⟨⟨k, names⟩, hm, hn⟩ := List.exists_of_findSome?_eq_some hx
  have hone : names = [x] := singleName_some hn
  subst hone
  have hk := (r₁.tag.readings k [x] hm).2.1
  have hin : [x] ∈ (dictOf h₁).readingsFor (dictOf h₁).nodes[k] :=
    List.mem_map.2 ⟨(k, [x]), List.mem_filter.2 ⟨hm, by simp⟩, rfl⟩
  obtain ⟨b, hb, hp⟩ := (hs _).1 _ hin
  obtain ⟨e, he, heq⟩ := List.mem_map.1 hb
  have he := (List.mem_filter.1 he).1
  cases h : (dictOf h₂).firstSingle with
  | some y => exact ⟨y, rfl⟩
  | none =>
    unfold Dict.firstSingle at h
    rw [List.findSome?_eq_none_iff] at h
    have := h e he
    rw [heq, ← List.singleton_perm.1 hp] at this
    cases this

/-- The readings shown by two indexes, one list each, are the same exactly if the readings to be shown are. -/
theorem exact_same {T : List Tag} (hn : (T.map (·.name)).Nodup) {A B : List (List Str)} {L M : List (List Tag)}
    (hL : ExactReadings T A L) {T' : List Tag} (hT : ∀ x ∈ T', x ∈ T) (hM : ExactReadings T' B M) :
    SameTagSets L M ↔ SameSets A B := by
  constructor
  · intro h
    constructor
    · intro a ha
      obtain ⟨t, ht, hp⟩ := hL.complete a ha
      obtain ⟨t', ht', hp'⟩ := h.left t ht
      obtain ⟨b, hb, hp''⟩ := hM.sound t' ht'
      exact ⟨b, hb, hp.symm.trans ((hp'.map _).trans hp'')⟩
    · intro b hb
      obtain ⟨t, ht, hp⟩ := hM.complete b hb
      obtain ⟨t', ht', hp'⟩ := h.right t ht
      obtain ⟨a, ha, hp''⟩ := hL.sound t' ht'
      exact ⟨a, ha, hp''.symm.trans ((hp'.map _).symm.trans hp)⟩
  · intro h
    have c12 : ∀ t ∈ L, ∃ t' ∈ M, (tagNames t).Perm (tagNames t') := by
      intro t ht
      obtain ⟨a, ha, hp⟩ := hL.sound t ht
      obtain ⟨b, hb, hp'⟩ := h.1 a ha
      obtain ⟨t', ht', hp''⟩ := hM.complete b hb
      exact ⟨t', ht', hp.trans (hp'.trans hp''.symm)⟩
    have c21 : ∀ t ∈ M, ∃ t' ∈ L, (tagNames t).Perm (tagNames t') := by
      intro t ht
      obtain ⟨b, hb, hp⟩ := hM.sound t ht
      obtain ⟨a, ha, hp'⟩ := h.2 b hb
      obtain ⟨t', ht', hp''⟩ := hL.complete a ha
      exact ⟨t', ht', hp.trans (hp'.symm.trans hp''.symm)⟩
    refine ⟨Nat.le_antisymm (pairwise_cover_length hL.once c12) (pairwise_cover_length hM.once c21), ?_, ?_⟩
    · intro t ht
      obtain ⟨t', ht', hp⟩ := c12 t ht
      exact ⟨t', ht', perm_of_tagNames hn (hL.registered t ht) (fun x hx => hT x (hM.registered t' ht' x hx)) hp⟩
    · intro t ht
      obtain ⟨t', ht', hp⟩ := c21 t ht
      exact ⟨t', ht', perm_of_tagNames hn (fun x hx => hT x (hM.registered t ht x hx)) (hL.registered t' ht') hp⟩

/-- **C78, exactly what depends on the order**: two histories with the same content show the same readings for a word if
and only if the readings to be shown — an empty one counting as the first one-tag reading of the dictionary — are the
same. -/
theorem C78_exact {h₁ h₂ : List Op} {ix₁ ix₂ : Index} (r₁ : Run h₁ ix₁) (r₂ : Run h₂ ix₂)
    (hs : SameContent (dictOf h₁) (dictOf h₂)) (w : List Rune) (hz : (NoReload h₁ ∧ NoReload h₂) ∨ NoLeadingNul w) (i j : ID)
    (hi : (ix₁.fetchRunes w).2 = .ok i) (hj : (ix₂.fetchRunes w).2 = .ok j) :
    ∃ L M, ix₁.tagSetsOf i = .ok L ∧ ix₂.tagSetsOf j = .ok M ∧
      (SameTagSets L M ↔ SameSets ((dictOf h₁).shownFor w) ((dictOf h₂).shownFor w)) := by
  have z₁ : NoReload h₁ ∨ NoLeadingNul w := hz.imp_left And.left
  have z₂ : NoReload h₂ ∨ NoLeadingNul w := hz.imp_left And.right
  have hi' := hi
  have hj' := hj
  rw [r₁.trie.fetchRoot_iff, Run.root_join z₁] at hi'
  rw [r₂.trie.fetchRoot_iff, Run.root_join z₂] at hj'
  have b₁ : 1 ≤ i.toNat ∧ i.toNat ≤ ix₁.nodesCount := by
    have hl := (List.getElem?_eq_some_iff.1 hi'.2).1
    refine ⟨?_, by rw [r₁.trie.nodesCount]; omega⟩
    rcases Nat.eq_zero_or_pos i.toNat with h0 | h0
    · rw [h0, r₁.trie.root] at hi'
      exact absurd (Option.some.inj hi'.2).symm hi'.1
    · exact h0
  have b₂ : 1 ≤ j.toNat ∧ j.toNat ≤ ix₂.nodesCount := by
    have hl := (List.getElem?_eq_some_iff.1 hj'.2).1
    refine ⟨?_, by rw [r₂.trie.nodesCount]; omega⟩
    rcases Nat.eq_zero_or_pos j.toNat with h0 | h0
    · rw [h0, r₂.trie.root] at hj'
      exact absurd (Option.some.inj hj'.2).symm hj'.1
    · exact h0
  have a₁ := readingsFor_eq r₁.trie.nodup hi'.2
  have a₂ := readingsFor_eq r₂.trie.nodup hj'.2
  have hsr := hs.readings w
  obtain ⟨L, hL, s₁⟩ := C10_exact r₁ i b₁
  obtain ⟨M, hM, s₂⟩ := C10_exact r₂ j b₂
  refine ⟨L, M, hL, hM, ?_⟩
  rw [← a₁, r₁.tag.tags] at s₁
  rw [← a₂, r₂.tag.tags] at s₂
  unfold Dict.shownFor
  cases e₁ : (dictOf h₁).firstSingle with
  | some x =>
    obtain ⟨y, e₂⟩ := firstSingle_some r₁ hs.readings e₁
    rw [e₁] at s₁
    rw [e₂] at s₂ ⊢
    exact exact_same r₁.tag.names s₁ (fun t ht => (hs.tags t).2 ht) s₂
  | none =>
    have e₂ : (dictOf h₂).firstSingle = none := by
      cases e₂ : (dictOf h₂).firstSingle with
      | none => rfl
      | some y =>
        obtain ⟨x, e⟩ := firstSingle_some r₂ (fun w => (hs.readings w).symm) e₂
        rw [e] at e₁; cases e₁
    rw [e₁] at s₁
    rw [e₂] at s₂ ⊢
    have hid : ∀ A : List (List Str), (A.map fun names => if names = [] then (none : Option Str).toList else names) = A := by
      intro A
      conv_rhs => rw [← List.map_id A]
      refine List.map_congr_left fun a _ => ?_
      by_cases h : a = []
      · rw [if_pos h, h]; rfl
      · rw [if_neg h]; rfl
    rw [hid, hid]
    by_cases hm : [] ∈ (dictOf h₁).readingsFor w
    · have hm' : [] ∈ (dictOf h₂).readingsFor w := by
        obtain ⟨b, hb, hp⟩ := hsr.1 _ hm
        rwa [← hp.nil_eq] at hb
      obtain ⟨D, hD, rfl⟩ := s₁.2 hm
      obtain ⟨E, hE, rfl⟩ := s₂.2 hm'
      refine ⟨fun _ => hsr, fun _ => ?_⟩
      have hl := Nat.le_antisymm (oneEach_length hsr hD hE) (oneEach_length hsr.symm hE hD)
      have hD0 : D ≠ [] := by
        obtain ⟨b, hb, _⟩ := hD.complete _ hm
        exact List.ne_nil_of_mem hb
      have hE0 : E ≠ [] := by
        obtain ⟨b, hb, _⟩ := hE.complete _ hm'
        exact List.ne_nil_of_mem hb
      refine ⟨by simpa using hl, ?_, ?_⟩
      · intro t ht
        obtain ⟨a, _, rfl⟩ := List.mem_map.1 ht
        obtain ⟨e, he⟩ := List.exists_mem_of_ne_nil _ hE0
        exact ⟨[], List.mem_map.2 ⟨e, he, rfl⟩, .refl _⟩
      · intro t ht
        obtain ⟨a, _, rfl⟩ := List.mem_map.1 ht
        obtain ⟨e, he⟩ := List.exists_mem_of_ne_nil _ hD0
        exact ⟨[], List.mem_map.2 ⟨e, he, rfl⟩, .refl _⟩
    · have hm' : [] ∉ (dictOf h₂).readingsFor w := by
        intro h
        obtain ⟨a, ha, hp⟩ := hsr.2 _ h
        rw [hp.eq_nil] at ha
        exact hm ha
      exact exact_same r₁.tag.names (s₁.1 hm) (fun t ht => (hs.tags t).2 ht) (s₂.1 hm')

/-- So they are the same whenever the first one-tag reading is, or no empty reading is attached to the word. -/
theorem C78_first {h₁ h₂ : List Op} {ix₁ ix₂ : Index} (r₁ : Run h₁ ix₁) (r₂ : Run h₂ ix₂)
    (hs : SameContent (dictOf h₁) (dictOf h₂)) (w : List Rune) (hz : (NoReload h₁ ∧ NoReload h₂) ∨ NoLeadingNul w) :
    AlikeAt ix₁ ix₂ ([] ∈ (dictOf h₁).readingsFor w ∧ (dictOf h₁).firstSingle ≠ (dictOf h₂).firstSingle) w := by
  rcases (C78_partial r₁ r₂ hs).2.2.2 w hz with h | ⟨i, j, h1, h2, h3, h4, h5⟩
  · exact .inl h
  · refine .inr ⟨i, j, h1, h2, h3, h4, fun hn => ?_⟩
    by_cases he : [] ∈ (dictOf h₁).readingsFor w
    · have hf : (dictOf h₁).firstSingle = (dictOf h₂).firstSingle := by
        by_contra hc; exact hn ⟨he, hc⟩
      obtain ⟨L, M, hL, hM, hiff⟩ := C78_exact r₁ r₂ hs w hz i j h1 h2
      refine ⟨L, M, hL, hM, hiff.2 ?_⟩
      unfold Dict.shownFor
      rw [hf]
      have hsr := hs.readings w
      constructor
      · intro a ha
        obtain ⟨c, hc, rfl⟩ := List.mem_map.1 ha
        obtain ⟨b, hb, hp⟩ := hsr.1 c hc
        refine ⟨_, List.mem_map.2 ⟨b, hb, rfl⟩, ?_⟩
        by_cases h : c = []
        · subst h; rw [← hp.nil_eq]
        · rw [if_neg h, if_neg (fun h' => h (by rw [h'] at hp; exact hp.eq_nil))]; exact hp
      · intro b hb
        obtain ⟨c, hc, rfl⟩ := List.mem_map.1 hb
        obtain ⟨a, ha, hp⟩ := hsr.2 c hc
        refine ⟨_, List.mem_map.2 ⟨a, ha, rfl⟩, ?_⟩
        by_cases h : c = []
        · subst h; rw [hp.eq_nil]
        · rw [if_neg h, if_neg (fun h' => h (by rw [h'] at hp; exact hp.symm.eq_nil))]; exact hp
    · exact h5 he

/-! ## Example: the two orders of `not_C78`, and one that agrees with the first -/

example : let h := emptyThird (.addTagSet 2 [str "NOUN"]) (.addTagSet 3 [str "VERB"])
    let h' := emptyThird (.addTagSet 3 [str "VERB"]) (.addTagSet 2 [str "NOUN"])
    let h'' := emptyThird (.addTagSet 2 [str "NOUN"]) (.addTagSet 3 [str "VERB"]) ++ [.addTagSet 2 [str "NOUN"]]
    (dictOf h).shownFor (decodeRunes (str "a")) = [[str "NOUN"]] ∧
    (dictOf h').shownFor (decodeRunes (str "a")) = [[str "VERB"]] ∧
    (dictOf h'').shownFor (decodeRunes (str "a")) = [[str "NOUN"]] := by decide

end Verif
