import Verif.Spec.Completions
import Verif.Lemmas.Answers

/-! # Helper lemmas: walking the children -/

namespace Verif

theorem gatherAll_some {α β : Type} {f : α → Option (List β)} {g : α → List β} {l : List α}
    (h : ∀ a ∈ l, f a = some (g a)) : gatherAll f l = some (l.flatMap g) := by
  induction l with
  | nil => rfl
  | cons a l ih =>
    unfold gatherAll
    rw [h a (by simp), ih fun a ha => h a (by simp [ha])]
    rfl

theorem gatherAll_none {α β : Type} {f : α → Option (List β)} {l : List α} {a : α} (ha : a ∈ l) (h : f a = none) :
    gatherAll f l = none := by
  induction l with
  | nil => cases ha
  | cons b l ih =>
    unfold gatherAll
    rcases List.mem_cons.1 ha with rfl | ha
    · rw [h]; rfl
    · rw [ih ha]
      cases f b <;> rfl

theorem TrieOK.word_le {ix : Index} {d : Dict} (h : TrieOK ix d) : ∀ (k : Nat) (w : List Rune), d.nodes[k]? = some w →
    w.length ≤ k := by
  intro k
  induction k using Nat.strong_induction_on with
  | _ k ih =>
    intro w hk
    by_cases hk0 : k = 0
    · subst hk0
      rw [h.root] at hk
      cases hk; simp
    · obtain ⟨it, w', _, _, h3, h4, h5⟩ := h.item k (by omega) (TrieOK.lt_next hk)
      rw [h5] at hk
      cases hk
      have := ih _ h3 w' h4
      rw [List.length_append, List.length_singleton]
      omega

theorem begins_cases {w v : List Rune} (h : w <+: v) : v = w ∨ ∃ c, w ++ [c] <+: v := by
  obtain ⟨t, rfl⟩ := h
  cases t with
  | nil => left; simp
  | cons c t => right; exact ⟨c, ⟨t, by simp⟩⟩

theorem begins_letter {w v : List Rune} {a b : Rune} (ha : w ++ [a] <+: v) (hb : w ++ [b] <+: v) : a = b := by
  obtain ⟨s, rfl⟩ := ha
  rw [List.append_assoc, List.prefix_append_right_inj] at hb
  obtain ⟨t, ht⟩ := hb
  simp at ht
  exact ht.1.symm

/-- The children of a node below which the walk stays. -/
theorem TrieOK.children_of {ix : Index} {d : Dict} (h : TrieOK ix d) {id : ID} {w : List Rune}
    (hw : d.nodes[id.toNat]? = some w) (hz : d.nul = false ∨ w ≠ []) (c : Rune) (x : ID) :
    ix.getChildrenMap id c = some x ↔ d.nodes[x.toNat]? = some (w ++ [c]) := by
  rw [h.child_some hw]
  have : d.join w [c] = w ++ [c] := by
    unfold Dict.join
    rw [if_neg]
    rintro ⟨h1, h2⟩
    rcases hz with hz | hz
    · rw [hz] at h2; cases h2
    · exact hz h1
  rw [this]

/-- The walk from the node of `w` ends, and visits the nodes of the words that begin with `w`, each once. -/
theorem TrieOK.completions {ix : Index} {d : Dict} (h : TrieOK ix d) {order : ID → List (Rune × ID)}
    (ho : VisitsChildren ix order) (depth : Nat) : ∀ (id : ID) (w : List Rune), d.nodes[id.toNat]? = some w →
    (d.nul = false ∨ w ≠ []) → d.nodes.length ≤ depth + w.length →
    ∃ L, (∀ m, completions order (depth + m) id = some L) ∧ L.Nodup ∧
      (∀ x : ID, x ∈ L ↔ ∃ v, d.nodes[x.toNat]? = some v ∧ w <+: v) ∧
      ∀ lt : Rune → Rune → Prop, (∀ id, (order id).Pairwise fun a b => lt a.1 b.1) →
        L.Pairwise fun x y => ∀ u v, d.nodes[x.toNat]? = some u → d.nodes[y.toNat]? = some v → LexBefore lt u v := by
  induction depth with
  | zero =>
    intro id w hw _ hd
    have h1 := h.word_le _ w hw
    have h2 := TrieOK.lt_next hw
    omega
  | succ depth ih =>
    intro id w hw hz hd
    have hch : ∀ c x, (c, x) ∈ order id ↔ d.nodes[x.toNat]? = some (w ++ [c]) := fun c x => by
      rw [(ho id).mem, h.children_of hw hz]
    have hsub : ∀ e ∈ order id, ∃ L, (∀ m, Verif.completions order (depth + m) e.2 = some L) ∧ L.Nodup ∧
      (∀ x : ID, x ∈ L ↔ ∃ v, d.nodes[x.toNat]? = some v ∧ w ++ [e.1] <+: v) ∧
      ∀ lt : Rune → Rune → Prop, (∀ id, (order id).Pairwise fun a b => lt a.1 b.1) →
        L.Pairwise fun x y => ∀ u v, d.nodes[x.toNat]? = some u → d.nodes[y.toNat]? = some v → LexBefore lt u v := by
      intro e he
      exact ih e.2 (w ++ [e.1]) ((hch e.1 e.2).1 he) (.inr (by simp)) (by rw [List.length_append, List.length_singleton]; omega)
    classical
    let g : Rune × ID → List ID := fun e => if he : e ∈ order id then (hsub e he).choose else []
    have hg : ∀ e ∈ order id, (∀ m, Verif.completions order (depth + m) e.2 = some (g e)) ∧ (g e).Nodup ∧
      (∀ x : ID, x ∈ g e ↔ ∃ v, d.nodes[x.toNat]? = some v ∧ w ++ [e.1] <+: v) ∧
      ∀ lt : Rune → Rune → Prop, (∀ id, (order id).Pairwise fun a b => lt a.1 b.1) →
        (g e).Pairwise fun x y => ∀ u v, d.nodes[x.toNat]? = some u → d.nodes[y.toNat]? = some v → LexBefore lt u v := by
      intro e he
      have : g e = (hsub e he).choose := dif_pos he
      rw [this]
      exact (hsub e he).choose_spec
    have hdist : (order id).Pairwise fun a b => a.1 ≠ b.1 := List.pairwise_map.1 (ho id).once
    have hin : ∀ x : ID, x ∈ (order id).flatMap g ↔ ∃ v c, d.nodes[x.toNat]? = some v ∧ w ++ [c] <+: v := by
      intro x
      rw [List.mem_flatMap]
      constructor
      · rintro ⟨e, he, hx⟩
        obtain ⟨v, hv, hp⟩ := ((hg e he).2.2.1 x).1 hx
        exact ⟨v, e.1, hv, hp⟩
      · rintro ⟨v, c, hv, hp⟩
        obtain ⟨k, hk⟩ := h.exists_id (h.closed hv _ hp)
        have he := (hch c k).2 hk
        exact ⟨(c, k), he, ((hg _ he).2.2.1 x).2 ⟨v, hv, hp⟩⟩
    have hself : ∀ v c, d.nodes[id.toNat]? = some v → ¬ w ++ [c] <+: v := by
      intro v c hv hp
      rw [hw] at hv
      cases hv
      have := hp.length_le
      rw [List.length_append, List.length_singleton] at this
      omega
    refine ⟨id :: (order id).flatMap g, ?_, ?_, ?_, ?_⟩
    · intro m
      rw [show depth + 1 + m = (depth + m) + 1 by omega, Verif.completions, gatherAll_some (g := g) fun e he => (hg e he).1 m]
      rfl
    · rw [List.nodup_cons]
      refine ⟨?_, ?_⟩
      · intro hx
        obtain ⟨v, c, hv, hp⟩ := (hin id).1 hx
        exact hself v c hv hp
      · rw [List.nodup_flatMap]
        refine ⟨fun e he => (hg e he).2.1, ?_⟩
        refine hdist.imp_of_mem fun {a b} ha hb hne => ?_
        rw [Function.onFun, List.disjoint_left]
        intro x hx hx'
        obtain ⟨v, hv, hp⟩ := ((hg a ha).2.2.1 x).1 hx
        obtain ⟨v', hv', hp'⟩ := ((hg b hb).2.2.1 x).1 hx'
        rw [hv] at hv'
        cases hv'
        exact hne (begins_letter hp hp')
    · intro x
      rw [List.mem_cons, hin]
      constructor
      · rintro (rfl | ⟨v, c, hv, hp⟩)
        · exact ⟨w, hw, List.prefix_refl _⟩
        · exact ⟨v, hv, (List.prefix_append w [c]).trans hp⟩
      · rintro ⟨v, hv, hp⟩
        rcases begins_cases hp with rfl | ⟨c, hc⟩
        · left
          exact UInt32.toNat_inj.1 (h.idx_unique hv hw)
        · exact .inr ⟨v, c, hv, hc⟩
    · intro lt hlt
      rw [List.pairwise_cons]
      refine ⟨?_, ?_⟩
      · intro x hx u v hu hv
        obtain ⟨v', c, hv', hp⟩ := (hin x).1 hx
        rw [hw] at hu; cases hu
        rw [hv] at hv'; cases hv'
        refine .inl ⟨(List.prefix_append w [c]).trans hp, ?_⟩
        rintro rfl
        exact hself w c hw hp
      · rw [List.pairwise_flatMap]
        refine ⟨fun e he => (hg e he).2.2.2 lt hlt, ?_⟩
        refine (hlt id).imp_of_mem fun {a b} ha hb hab => ?_
        intro x hx y hy u v hu hv
        obtain ⟨u', hu', hp⟩ := ((hg a ha).2.2.1 x).1 hx
        obtain ⟨v', hv', hp'⟩ := ((hg b hb).2.2.1 y).1 hy
        rw [hu] at hu'; cases hu'
        rw [hv] at hv'; cases hv'
        exact .inr ⟨w, a.1, b.1, hp, hp', hab⟩

theorem gatherAll_mono {α β : Type} {f g : α → Option (List β)} (hfg : ∀ a x, f a = some x → g a = some x) {l : List α} {x : List β}
    (h : gatherAll f l = some x) : gatherAll g l = some x := by
  induction l generalizing x with
  | nil => exact h
  | cons a l ih =>
    unfold gatherAll at h ⊢
    rw [Option.bind_eq_some_iff] at h
    obtain ⟨y, hy, h⟩ := h
    rw [Option.map_eq_some_iff] at h
    obtain ⟨z, hz, rfl⟩ := h
    rw [hfg a y hy, Option.bind_some, ih hz]
    rfl

/-- A walk that has ended has ended. -/
theorem completions_mono (order : ID → List (Rune × ID)) {depth m : Nat} {id : ID} {L : List ID}
    (h : completions order depth id = some L) : completions order (depth + m) id = some L := by
  induction depth generalizing id L with
  | zero => cases h
  | succ depth ih =>
    rw [show depth + 1 + m = (depth + m) + 1 by omega]
    unfold completions at h ⊢
    rw [Option.map_eq_some_iff] at h ⊢
    obtain ⟨x, hx, hL⟩ := h
    exact ⟨x, gatherAll_mono (fun e y hy => ih hy) hx, hL⟩

/-- If the root is among its own children, the walk from the root never ends. -/
theorem completions_loop {ix : Index} {order : ID → List (Rune × ID)} (ho : VisitsChildren ix order) {c : Rune}
    (hl : ix.getChildrenMap 0 c = some 0) (depth : Nat) : completions order depth 0 = none := by
  induction depth with
  | zero => rfl
  | succ depth ih =>
    unfold completions
    rw [gatherAll_none (a := (c, 0)) (((ho 0).mem c 0).2 hl) ih]
    rfl

end Verif
