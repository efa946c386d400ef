import Verif.Spec.Size
import Verif.Lemmas.Room
import Verif.Lemmas.Alike
import Verif.Lemmas.Optimize
import Mathlib.Data.List.Basic
import Mathlib.Data.List.Nodup

/-! # Lemmas for the size of a file -/

namespace Verif

/-! ## Lists -/

/-- Lists whose elements correspond one to one. -/
theorem map_perm_of_match {α β γ : Type} (ρ : α → β → Prop) (f : α → γ) (g : β → γ) :
    ∀ (L : List α) (R : List β), L.Nodup → R.Nodup → (∀ a ∈ L, ∃ b ∈ R, ρ a b) → (∀ b ∈ R, ∃ a ∈ L, ρ a b) →
    (∀ a ∈ L, ∀ b ∈ R, ∀ b' ∈ R, ρ a b → ρ a b' → b = b') →
    (∀ a ∈ L, ∀ a' ∈ L, ∀ b ∈ R, ρ a b → ρ a' b → a = a') →
    (∀ a ∈ L, ∀ b ∈ R, ρ a b → f a = g b) → (L.map f).Perm (R.map g) := by
  intro L
  induction L with
  | nil =>
    intro R _ _ _ h2 _ _ _
    cases R with
    | nil => exact List.Perm.refl _
    | cons b R =>
      obtain ⟨a, ha, _⟩ := h2 b (by simp)
      cases ha
  | cons a L ih =>
    intro R hL hR h1 h2 h3 h4 h5
    obtain ⟨b, hb, hab⟩ := h1 a (by simp)
    obtain ⟨R1, R2, rfl⟩ := List.append_of_mem hb
    rw [List.nodup_cons] at hL
    have hp : (R1 ++ b :: R2).Perm (b :: (R1 ++ R2)) := List.perm_middle
    have hR' := hp.nodup_iff.1 hR
    rw [List.nodup_cons] at hR'
    have hsub : ∀ x ∈ R1 ++ R2, x ∈ R1 ++ b :: R2 := fun x hx => hp.mem_iff.2 (List.mem_cons_of_mem _ hx)
    refine List.Perm.trans ?_ (hp.symm.map g)
    rw [List.map_cons, List.map_cons, h5 a (by simp) b hb hab]
    refine List.Perm.cons _ (ih (R1 ++ R2) hL.2 hR'.2 ?_ ?_ ?_ ?_ ?_)
    · intro x hx
      obtain ⟨y, hy, hxy⟩ := h1 x (by simp [hx])
      rcases List.mem_cons.1 (hp.mem_iff.1 hy) with rfl | hy'
      · have := h4 x (by simp [hx]) a (by simp) y hb hxy hab
        subst this
        exact absurd hx hL.1
      · exact ⟨y, hy', hxy⟩
    · intro y hy
      obtain ⟨x, hx, hxy⟩ := h2 y (hsub y hy)
      rcases List.mem_cons.1 hx with rfl | hx
      · have := h3 x (by simp) b hb y (hsub y hy) hab hxy
        subst this
        exact absurd hy hR'.1
      · exact ⟨x, hx, hxy⟩
    · exact fun x hx y hy y' hy' => h3 x (by simp [hx]) y (hsub y hy) y' (hsub y' hy')
    · exact fun x hx x' hx' y hy => h4 x (by simp [hx]) x' (by simp [hx']) y (hsub y hy)
    · exact fun x hx y hy => h5 x (by simp [hx]) y (hsub y hy)

theorem longest_le {α : Type} {L : List (List α)} {n : Nat} : longest L ≤ n ↔ ∀ x ∈ L, x.length ≤ n := by
  induction L with
  | nil => simp [longest]
  | cons a L ih => simp only [longest, Nat.max_le, ih, List.mem_cons, forall_eq_or_imp]

theorem longest_perm {α β : Type} {L : List (List α)} {R : List (List β)}
    (h : (L.map List.length).Perm (R.map List.length)) : longest L = longest R := by
  apply Nat.le_antisymm
  · rw [longest_le]
    intro x hx
    obtain ⟨y, hy, e⟩ := List.mem_map.1 (h.mem_iff.1 (List.mem_map.2 ⟨x, hx, rfl⟩))
    rw [← e]
    exact longest_le.1 (Nat.le_refl _) y hy
  · rw [longest_le]
    intro x hx
    obtain ⟨y, hy, e⟩ := List.mem_map.1 (h.mem_iff.2 (List.mem_map.2 ⟨x, hx, rfl⟩))
    rw [← e]
    exact longest_le.1 (Nat.le_refl _) y hy

theorem sum_perm {α β : Type} {L : List (List α)} {R : List (List β)}
    (h : (L.map List.length).Perm (R.map List.length)) (f : Nat → Nat) :
    (L.map fun x => f x.length).sum = (R.map fun x => f x.length).sum := by
  have e := (h.map f).sum_nat
  rw [List.map_map, List.map_map] at e
  exact e

theorem sum_tables {α : Type} (c : List (List (List α))) (a : Nat) (f : List α → Nat) :
    (c.map fun t => a + (t.map f).sum).sum = a * c.length + (c.flatten.map f).sum := by
  induction c with
  | nil => simp
  | cons t c ih =>
    rw [List.map_cons, List.sum_cons, ih, List.flatten_cons, List.map_append, List.sum_append, List.length_cons,
      Nat.mul_succ]
    omega

theorem pairwise_nodup {α : Type} {r : α → α → Prop} (hr : ∀ a, r a a) {L : List α} (h : L.Pairwise fun a b => ¬ r a b) :
    L.Nodup := h.imp fun {a b} hn (e : a = b) => hn (e ▸ hr a)

theorem pairwise_eq {α : Type} {r : α → α → Prop} (hs : ∀ a b, r a b → r b a) {L : List α}
    (h : L.Pairwise fun a b => ¬ r a b) {a b : α} (ha : a ∈ L) (hb : b ∈ L) (hab : r a b) : a = b := by
  obtain ⟨i, hi, rfl⟩ := List.getElem_of_mem ha
  obtain ⟨j, hj, rfl⟩ := List.getElem_of_mem hb
  rw [List.pairwise_iff_getElem] at h
  rcases Nat.lt_trichotomy i j with hij | rfl | hij
  · exact absurd hab (h i j hi hj hij)
  · rfl
  · exact absurd (hs _ _ hab) (h j i hj hi hij)

/-! ## Tables -/

theorem mem_flatten_gGet {α : Type} {c : List (List (List α))} {s : List α} :
    s ∈ c.flatten ↔ ∃ p, gGet c p = some s := by
  rw [List.mem_flatten]
  constructor
  · rintro ⟨t, ht, hs⟩
    obtain ⟨i, hi, rfl⟩ := List.getElem_of_mem ht
    obtain ⟨j, hj⟩ := List.getElem?_of_mem hs
    refine ⟨(i, j), ?_⟩
    unfold gGet
    rw [List.getD_eq_getElem?_getD, List.getElem?_eq_getElem hi]
    exact hj
  · rintro ⟨p, hp⟩
    have hlt : p.1 < c.length := by
      by_contra hn
      unfold gGet at hp
      have e : c[p.1]? = none := List.getElem?_eq_none (by omega)
      rw [List.getD_eq_getElem?_getD, e] at hp
      simp at hp
    unfold gGet at hp
    rw [List.getD_eq_getElem?_getD, List.getElem?_eq_getElem hlt] at hp
    exact ⟨c[p.1], List.getElem_mem _, List.mem_of_getElem? hp⟩

theorem GInv.nodup_flatten {α : Type} [LE α] {c : List (List (List α))} (hc : GInv c) : c.flatten.Nodup := by
  have hg : ∀ i (hi : i < c.length), c.getD i [] = c[i] := by
    intro i hi
    rw [List.getD_eq_getElem?_getD, List.getElem?_eq_getElem hi]; rfl
  rw [List.nodup_flatten]
  constructor
  · intro t ht
    obtain ⟨i, hi, rfl⟩ := List.getElem_of_mem ht
    rw [← hg i hi]
    exact (hc i).1
  · rw [List.pairwise_iff_getElem]
    intro i j hi hj hij s hs hs'
    rw [← hg i hi] at hs
    rw [← hg j hj] at hs'
    have := ((hc i).2 s hs).1
    have := ((hc j).2 s hs').1
    omega

/-- The last table is not empty. -/
def TopFull {α : Type} (c : List (List (List α))) : Prop := c ≠ [] → c.getD (c.length - 1) [] ≠ []

theorem GInv.longest_flatten {α : Type} [LE α] {c : List (List (List α))} (hc : GInv c) (ht : TopFull c) :
    longest c.flatten = c.length := by
  apply Nat.le_antisymm
  · rw [longest_le]
    intro s hs
    obtain ⟨t, ht, hs⟩ := List.mem_flatten.1 hs
    obtain ⟨i, hi, rfl⟩ := List.getElem_of_mem ht
    have := (hc i).2 s (by rw [List.getD_eq_getElem?_getD, List.getElem?_eq_getElem hi]; exact hs)
    omega
  · by_cases h0 : c = []
    · subst h0; exact Nat.zero_le _
    · obtain ⟨s, hs⟩ := List.exists_mem_of_ne_nil _ (ht h0)
      have hl := ((hc (c.length - 1)).2 s hs).1
      have hpos := List.length_pos_iff.2 h0
      have hm : s ∈ c.flatten := by
        rw [List.mem_flatten]
        refine ⟨c.getD (c.length - 1) [], ?_, hs⟩
        rw [List.getD_eq_getElem?_getD, List.getElem?_eq_getElem (by omega)]
        exact List.getElem_mem _
      have := longest_le.1 (Nat.le_refl (longest c.flatten)) s hm
      omega

theorem topFull_set {α : Type} {c : List (List (List α))} (hc : TopFull c) (n : Nat) {t : List (List α)} (h0 : t ≠ []) :
    TopFull ((extendTables c n).set n t) := by
  intro _
  rw [List.length_set, length_extendTables_eq]
  rw [getD_set _ _ _ _ (length_extendTables _ _)]
  split
  · exact h0
  · rename_i hn
    rw [getD_extendTables]
    have hlt : n + 1 ≤ c.length := by omega
    rw [Nat.max_eq_left hlt]
    exact hc (by rintro rfl; simp at hlt)

theorem topFull_gIndex {α : Type} [DecidableEq α] [LE α] [DecidableRel (α := α) (· ≤ ·)] {c : List (List (List α))}
    (hc : TopFull c) (x : List α) : TopFull (gIndex c x).1 := by
  unfold gIndex
  simp only
  refine topFull_set hc _ fun h0 => ?_
  have := (gTable_mem (t := (extendTables c (x.length - 1)).getD (x.length - 1) []) (x := x) (s := sortAsc x)).2 (.inr rfl)
  rw [h0] at this
  cases this

theorem VariantsIndex.topFull_index {c : VariantsIndex} (hc : TopFull c) (x : Coll) : TopFull (c.index x).1 := by
  unfold VariantsIndex.index
  split
  · exact hc
  · simp only
    refine topFull_set hc _ fun h0 => ?_
    have hx : (sortAsc x).length ≠ 0 := by rw [length_sortAsc]; assumption
    revert h0
    unfold VariantsTable.index
    rw [if_neg hx]
    simp only
    split
    · rename_i i hi
      intro h0
      simp only at h0
      rw [h0] at hi
      cases hi
    · intro h0
      simp at h0

theorem optimizeBuild_topFull (old : VariantsIndex) (used : VariantID → Option (List ID)) (l : List VariantID)
    (new : VariantsIndex) (acc : List (VariantID × VariantID)) (ht : TopFull new) (new' : VariantsIndex)
    (acc' : List (VariantID × VariantID)) (h : Index.optimizeBuild old used l new acc = .ok (new', acc')) :
    TopFull new' := by
  induction l generalizing new acc with
  | nil =>
    obtain ⟨rfl, _⟩ := Prod.mk.inj (Out.ok.inj h)
    exact ht
  | cons id rest ih =>
    unfold Index.optimizeBuild at h
    split at h
    · exact ih new acc ht h
    · cases hc : old.get id with
      | ok c =>
        rw [hc] at h
        simp only [Out.bind] at h
        have ht' := VariantsIndex.topFull_index ht c
        generalize new.index c = x at h ht'
        obtain ⟨n1, nid⟩ := x
        simp only at h ht'
        cases hc' : n1.get nid with
        | ok c' =>
          rw [hc'] at h
          simp only at h
          split at h
          · exact ih _ _ ht' h
          · cases h
        | err e => rw [hc'] at h; cases h
        | panic => rw [hc'] at h; cases h
        | diverge => rw [hc'] at h; cases h
      | err e => rw [hc] at h; cases h
      | panic => rw [hc] at h; cases h
      | diverge => rw [hc] at h; cases h

theorem optimize_topFull {ix : Index} (h : TopFull ix.collectionIdx) : TopFull ix.optimize.1.collectionIdx := by
  unfold Index.optimize
  simp only
  split
  · exact h
  · split
    · rename_i new repl he
      have := optimizeBuild_topFull _ _ _ [] [] (fun h0 => absurd rfl h0) _ _ he
      split
      · exact this
      · exact h
    · exact h

/-- Tables that are not longer take up no more space. -/
theorem space_le {α : Type} (a b : Nat) : ∀ (c' c : List (List (List α))) (n : Nat), c'.length ≤ c.length →
    (∀ i, (c'.getD i []).length ≤ (c.getD i []).length) → (∀ i, ∀ s ∈ c'.getD i [], s.length = i + n) →
    (∀ i, ∀ s ∈ c.getD i [], s.length = i + n) →
    (c'.map fun t => a + (t.map fun s => 1 + b * s.length).sum).sum ≤
      (c.map fun t => a + (t.map fun s => 1 + b * s.length).sum).sum := by
  have one : ∀ (t : List (List α)) (n : Nat), (∀ s ∈ t, s.length = n) →
      (t.map fun s => 1 + b * s.length).sum = t.length * (1 + b * n) := by
    intro t n h
    induction t with
    | nil => simp
    | cons s t ih =>
      rw [List.map_cons, List.sum_cons, ih fun x hx => h x (by simp [hx]), h s (by simp), List.length_cons, Nat.succ_mul]
      omega
  intro c'
  induction c' with
  | nil => intro c n _ _ _ _; simp
  | cons t' c' ih =>
    intro c n hl hi h1 h2
    cases c with
    | nil => simp at hl
    | cons t c =>
      have := ih c (n + 1) (by simpa using hl) (fun i => by simpa using hi (i + 1))
        (fun i s hs => by have := h1 (i + 1) s (by simpa using hs); omega)
        (fun i s hs => by have := h2 (i + 1) s (by simpa using hs); omega)
      rw [List.map_cons, List.map_cons, List.sum_cons, List.sum_cons, one t' n fun s hs => by simpa using h1 0 s (by simpa using hs),
        one t n fun s hs => by simpa using h2 0 s (by simpa using hs)]
      have hm := Nat.mul_le_mul_right (1 + b * n) (show t'.length ≤ t.length by simpa using hi 0)
      omega

/-- One representative of each class. -/
theorem representatives {α : Type} (ρ : α → α → Prop) (hr : ∀ a, ρ a a) (L : List α) :
    ∃ M : List α, (∀ x ∈ L, ∃ y ∈ M, ρ x y) ∧ (∀ y ∈ M, y ∈ L) ∧ M.Pairwise fun a b => ¬ ρ a b := by
  induction L with
  | nil => exact ⟨[], by simp, by simp, .nil⟩
  | cons a L ih =>
    obtain ⟨M, h1, h2, h3⟩ := ih
    by_cases h : ∃ y ∈ M, ρ a y
    · exact ⟨M, fun x hx => by rcases List.mem_cons.1 hx with rfl | hx; exacts [h, h1 x hx],
        fun y hy => List.mem_cons_of_mem _ (h2 y hy), h3⟩
    · refine ⟨a :: M, ?_, ?_, List.Pairwise.cons (fun y hy hρ => h ⟨y, hy, hρ⟩) h3⟩
      · intro x hx
        rcases List.mem_cons.1 hx with rfl | hx
        · exact ⟨x, by simp, hr x⟩
        · obtain ⟨y, hy, hxy⟩ := h1 x hx
          exact ⟨y, by simp [hy], hxy⟩
      · intro y hy
        rcases List.mem_cons.1 hy with rfl | hy
        · simp
        · exact List.mem_cons_of_mem _ (h2 y hy)

/-! ## Runs -/

/-- Every stored set is a reading of the dictionary, and the last tables are not empty. -/
theorem Run.stored {h : List Op} {ix : Index} (r : Run h ix) :
    (∀ p s, gGet ix.tagSets p = some s → ∃ e ∈ (dictOf h).readings, ∃ ids,
      Index.findAll (dictOf h).tags e.2 = .ok ids ∧ s = sortAsc ids) ∧ TopFull ix.tagSets ∧ TopFull ix.collectionIdx := by
  induction r with
  | nil => exact ⟨fun p s h => by simp [Index.new, gGet] at h, fun h0 => absurd rfl h0, fun h0 => absurd rfl h0⟩
  | @step h ix op r ha hf ih =>
    obtain ⟨i1, i2, i3⟩ := ih
    have r' : Run (h ++ [op]) (op.exec ix) := Run.step op r ha hf
    have hpre := dictOf_readings_prefix h [op]
    have hfind : ∀ e ∈ (dictOf h).readings, ∀ ids, Index.findAll (dictOf h).tags e.2 = .ok ids →
        Index.findAll (dictOf (h ++ [op])).tags e.2 = .ok ids := by
      intro e _ ids he
      rw [findAll_ok] at he ⊢
      exact he.imp fun a b hab => r'.find_mono _ _ hab
    refine ⟨?_, ?_, ?_⟩
    · intro p s hg
      rw [exec_tagSets r.refines.1 r.caps op ha] at hg
      have old : gGet ix.tagSets p = some s → ∃ e ∈ (dictOf (h ++ [op])).readings, ∃ ids,
          Index.findAll (dictOf (h ++ [op])).tags e.2 = .ok ids ∧ s = sortAsc ids := by
        intro hg
        obtain ⟨e, he, ids, h1, h2⟩ := i1 p s hg
        exact ⟨e, hpre.subset he, ids, hfind e he ids h1, h2⟩
      cases op with
      | addTagSet id names =>
        simp only at hg
        split at hg
        · rename_i hok
          obtain ⟨ids, hids⟩ := all_hasTag_iff.1 hok.1
          rw [hids] at hg
          simp only at hg
          by_cases h0 : ids = []
          · subst h0; exact old hg
          · rw [TagSetIndex.index_eq _ h0] at hg
            have hm := gGet_mem hg
            rw [gIndex_getD] at hm
            have hd : dictOf (h ++ [.addTagSet id names]) =
                { dictOf h with readings := (dictOf h).readings ++ [(id.toNat, names)] } := by
              rw [dictOf_append]; simp only [Op.spec]; rw [if_pos hok]
            split at hm
            · rw [gTable_mem] at hm
              rcases hm with hm | rfl
              · obtain ⟨j, hj⟩ := List.getElem?_of_mem hm
                obtain ⟨e, he, ids, h1, h2⟩ := i1 (p.1, j) s hj
                exact ⟨e, hpre.subset he, ids, hfind e he ids h1, h2⟩
              · refine ⟨(id.toNat, names), by rw [hd]; simp, ids, ?_, rfl⟩
                rw [hd]
                exact hids
            · obtain ⟨j, hj⟩ := List.getElem?_of_mem hm
              obtain ⟨e, he, ids, h1, h2⟩ := i1 (p.1, j) s hj
              exact ⟨e, hpre.subset he, ids, hfind e he ids h1, h2⟩
        · exact old hg
      | _ => exact old hg
    · rw [exec_tagSets r.refines.1 r.caps op ha]
      cases op with
      | addTagSet id names =>
        simp only
        split
        · split
          · rename_i ids _
            by_cases h0 : ids = []
            · subst h0; exact i2
            · rw [TagSetIndex.index_eq _ h0]
              exact topFull_gIndex i2 ids
          · exact i2
        · exact i2
      | _ => exact i2
    · cases op with
      | addRunes rs => exact (addLoop_colls rs 0 ix 0).symm ▸ i3
      | addString w =>
        simp only [Op.exec, Index.addString]
        split
        · exact i3
        · exact (addLoop_colls _ 0 ix 0).symm ▸ i3
      | addToNode id rs => exact (addLoop_colls rs id ix id).symm ▸ i3
      | fetchFromItem id rs => exact (fetchFromItem_obs ix id rs).collectionIdx.symm ▸ i3
      | fetchItemFromParent id rs => exact (fetchItemFromParent_obs ix id rs).collectionIdx.symm ▸ i3
      | fetchRunes rs => exact (fetchFromItem_obs ix 0 rs).collectionIdx.symm ▸ i3
      | fetchString w => exact (fetchFromItem_obs ix 0 _).collectionIdx.symm ▸ i3
      | tagID name parent => exact i3
      | addTagSet id names =>
        simp only [Op.exec]
        unfold Index.addTagSet
        split
        · exact i3
        · split
          · exact i3
          · split
            · exact VariantsIndex.topFull_index i3 _
            · exact i3
      | optimize => exact optimize_topFull i3
      | reload =>
        rw [(reload_eq r.tag ha).2.2]
        exact (rebuildFold_other _ _).2.2.1.symm ▸ i3

theorem Run.tags_le {h : List Op} {ix : Index} (r : Run h ix) : (dictOf h).tags.length ≤ 256 := r.refines.2.tags

/-- Two readings have the same number exactly if they are kept as the same reading. -/
theorem Run.same_id {h : List Op} {ix : Index} (r : Run h ix) {a b : List Str} {i j : TagSetID}
    (ha : TSId (dictOf h).tags ix.tagSets a i) (hb : TSId (dictOf h).tags ix.tagSets b j) :
    i = j ↔ ((dictOf h).kept a).Perm ((dictOf h).kept b) := by
  have hl := r.tags_le
  have full : ∀ {a b : List Str} {i j : TagSetID}, a ≠ [] → b ≠ [] → TSId (dictOf h).tags ix.tagSets a i →
      TSId (dictOf h).tags ix.tagSets b j → (i = j ↔ a.Perm b) := by
    intro a b i j na nb ha hb
    constructor
    · rintro rfl
      obtain ⟨ids, p, h1, _, _, h2⟩ := ha.get r.caps na
      obtain ⟨ids', p', h1', _, _, h2'⟩ := hb.get r.caps nb
      rw [h2] at h2'
      exact (findAll_perm r.tag.names hl h1 h1').1 (sortAsc_eq_iff_perm.1 (Option.some.inj h2'))
    · intro hp
      exact (ha.perm r.tag.names hl hp).unique r.tag.sets hb
  have hfs := r.firstSet
  cases hf : (dictOf h).firstSingle with
  | some x =>
    have hk : ∀ {a : List Str} {i : TagSetID}, TSId (dictOf h).tags ix.tagSets a i →
        (dictOf h).kept a ≠ [] ∧ TSId (dictOf h).tags ix.tagSets ((dictOf h).kept a) i := by
      intro a i ha
      unfold Dict.kept
      split
      · rename_i h0
        subst h0
        rw [hf]
        refine ⟨by simp, ?_⟩
        obtain ⟨ids, h1, h2⟩ := ha
        rw [show Index.findAll (dictOf h).tags [] = .ok [] from rfl] at h1
        obtain rfl : [] = ids := by injection h1
        have hi : i = 0 := by
          rcases h2 with ⟨_, rfl⟩ | ⟨h0, _⟩
          · rfl
          · exact absurd rfl h0
        subst hi
        obtain ⟨⟨k, names⟩, hm, he⟩ := List.exists_of_findSome?_eq_some hf
        have hn := singleName_some he
        simp only at hn
        subst hn
        obtain ⟨_, _, j, ids, hids, _⟩ := r.tag.readings k _ hm
        rw [findAll_ok] at hids
        cases hids with
        | @cons _ t _ l hx hr =>
          cases hr
          rw [hf] at hfs
          simp only [Option.bind_some] at hfs
          rw [hx] at hfs
          refine ⟨[t], ?_, .inr ⟨by simp, (0, 0), hfs, rfl⟩⟩
          rw [findAll_ok]
          exact .cons hx .nil
      · exact ⟨by assumption, ha⟩
    obtain ⟨na, ta⟩ := hk ha
    obtain ⟨nb, tb⟩ := hk hb
    exact full na nb ta tb
  | none =>
    have hk : ∀ a, (dictOf h).kept a = a := by
      intro a
      unfold Dict.kept
      split
      · rename_i h0; rw [h0, hf]; rfl
      · rfl
    rw [hk, hk]
    rw [hf] at hfs
    simp only [Option.bind_none] at hfs
    have zero : ∀ {i : TagSetID}, TSId (dictOf h).tags ix.tagSets [] i → i = 0 := by
      rintro i ⟨ids, h1, h2⟩
      rw [show Index.findAll (dictOf h).tags [] = .ok [] from rfl] at h1
      obtain rfl : [] = ids := by injection h1
      rcases h2 with ⟨_, rfl⟩ | ⟨h0, _⟩
      · rfl
      · exact absurd rfl h0
    have nonzero : ∀ {b : List Str} {j : TagSetID}, b ≠ [] → TSId (dictOf h).tags ix.tagSets b j → j ≠ 0 := by
      intro b j nb hb h0
      obtain ⟨ids, p, h1, hp, _, h2⟩ := hb.get r.caps nb
      rw [h0, TagSetIndex.get_eq, show unpackTS 0 = (0, 0) from rfl, hfs] at h2
      simp at h2
    by_cases na : a = []
    · subst na
      have hi := zero ha
      by_cases nb : b = []
      · subst nb
        rw [hi, zero hb]
        exact ⟨fun _ => List.Perm.refl _, fun _ => rfl⟩
      · refine ⟨fun e => absurd (e ▸ hi) (nonzero nb hb), fun hp => absurd (List.nil_perm.1 hp) nb⟩
    · by_cases nb : b = []
      · subst nb
        exact ⟨fun e => absurd (e.trans (zero hb)) (nonzero na ha), fun hp => absurd (List.perm_nil.1 hp) na⟩
      · exact full na nb ha hb

theorem mem_readingsFor {d : Dict} {w : List Rune} {names : List Str} :
    names ∈ d.readingsFor w ↔ ∃ k, d.nodes[k]? = some w ∧ (k, names) ∈ d.readings := by
  unfold Dict.readingsFor
  simp only [List.mem_map, List.mem_filter, decide_eq_true_eq]
  constructor
  · rintro ⟨⟨k, n⟩, ⟨h, h2⟩, rfl⟩; exact ⟨k, h2, h⟩
  · rintro ⟨k, h1, h2⟩; exact ⟨(k, names), ⟨h2, h1⟩, rfl⟩

/-- The lengths of the stored sets are those of the different readings. -/
theorem Run.reading_lengths {h : List Op} {ix : Index} (r : Run h ix) {P : List (List Rune)} {R : List (List Str)} {S : List (List (List Str))}
    (inv : Inventory (dictOf h) P R S) : (ix.tagSets.flatten.map List.length).Perm (R.map List.length) := by
  have hl := r.tags_le
  have word : ∀ {e : Nat × List Str}, e ∈ (dictOf h).readings → ∃ w, e.2 ∈ (dictOf h).readingsFor w := by
    intro e he
    obtain ⟨_, hk, _⟩ := r.tag.readings e.1 e.2 he
    exact ⟨_, mem_readingsFor.2 ⟨e.1, List.getElem?_eq_getElem hk, he⟩⟩
  refine map_perm_of_match (fun s r => ∃ names ids, names.Perm r ∧ Index.findAll (dictOf h).tags names = .ok ids ∧
    s = sortAsc ids) _ _ _ _ r.tag.sets.nodup_flatten (pairwise_nodup List.Perm.refl inv.readingsOnce) ?_ ?_ ?_ ?_ ?_
  · intro s hs
    obtain ⟨p, hp⟩ := mem_flatten_gGet.1 hs
    obtain ⟨e, he, ids, h1, h2⟩ := r.stored.1 p s hp
    obtain ⟨w, hw⟩ := word he
    have hne : e.2 ≠ [] := by
      intro h0
      rw [h0, show Index.findAll (dictOf h).tags [] = .ok [] from rfl] at h1
      obtain rfl : [] = ids := by injection h1
      have := ((r.tag.sets p.1).2 s (gGet_mem hp)).1
      rw [h2] at this
      simp at this
    obtain ⟨q, hq, hpq⟩ := inv.readings w _ hw hne
    exact ⟨q, hq, e.2, ids, hpq, h1, h2⟩
  · intro q hq
    obtain ⟨hne, w, names, hm, hp⟩ := inv.readingsOnly q hq
    obtain ⟨k, _, hk⟩ := mem_readingsFor.1 hm
    obtain ⟨_, _, i, hi⟩ := r.tag.readings k names hk
    have hn : names ≠ [] := by rintro rfl; exact hne (List.nil_perm.1 hp)
    obtain ⟨ids, p, h1, h2, _⟩ := hi.get r.caps hn
    exact ⟨_, mem_flatten_gGet.2 ⟨p, h2⟩, names, ids, hp, h1, rfl⟩
  · rintro s _ q hq q' hq' ⟨n, ids, hp, h1, rfl⟩ ⟨n', ids', hp', h1', e⟩
    have := (findAll_perm r.tag.names hl h1 h1').1 (sortAsc_eq_iff_perm.1 e)
    exact pairwise_eq (fun _ _ h => h.symm) inv.readingsOnce hq hq' (hp.symm.trans (this.trans hp'))
  · rintro s _ s' _ q hq ⟨n, ids, hp, h1, rfl⟩ ⟨n', ids', hp', h1', rfl⟩
    exact sortAsc_eq_iff_perm.2 ((findAll_perm r.tag.names hl h1 h1').2 (hp.trans hp'.symm))
  · rintro s _ q hq ⟨n, ids, hp, h1, rfl⟩
    rw [length_sortAsc, findAll_length h1, hp.length_eq]

/-- The lengths of the stored collections are those of the different combinations, if no stored collection is unused. -/
theorem Run.combination_lengths {h : List Op} {ix : Index} (r : Run h ix)
    (hu : ∀ id ∈ ix.collectionIdx.knownID, ∃ it ∈ ix.items.items, it.variants = id)
    {P : List (List Rune)} {R : List (List Str)} {S : List (List (List Str))}
    (inv : Inventory (dictOf h) P R S) : (ix.collectionIdx.flatten.map List.length).Perm (S.map List.length) := by
  have member : ∀ {w : List Rune} {names : List Str}, names ∈ (dictOf h).readingsFor w →
      ∃ i, TSId (dictOf h).tags ix.tagSets names i := by
    intro w names hm
    obtain ⟨k, _, hk⟩ := mem_readingsFor.1 hm
    exact (r.tag.readings k names hk).2.2
  have good : ∀ c ∈ ix.collectionIdx.flatten, c.Pairwise (· ≤ ·) ∧ c.Nodup ∧ c ≠ [] := by
    intro c hc
    obtain ⟨p, hp⟩ := mem_flatten_gGet.1 hc
    have := (r.tag.colls p.1).2 c (gGet_mem hp)
    exact ⟨this.2, r.tag.collNodup p c hp, by rintro rfl; simp at this⟩
  have key : ∀ {k : Nat} {w : List Rune}, (dictOf h).nodes[k]? = some w →
      (∀ names, (k, names) ∈ (dictOf h).readings ↔ names ∈ (dictOf h).readingsFor w) := by
    intro k w hk names
    rw [readingsFor_eq r.trie.nodup hk, mem_attached]
  refine map_perm_of_match (fun c A => ∃ w, SameSets ((dictOf h).combination w) A ∧
    ∀ i, i ∈ c ↔ ∃ names ∈ (dictOf h).readingsFor w, TSId (dictOf h).tags ix.tagSets names i) _ _ _ _
    r.tag.colls.nodup_flatten
    (pairwise_nodup (fun A => ⟨fun a ha => ⟨a, ha, List.Perm.refl _⟩, fun a ha => ⟨a, ha, List.Perm.refl _⟩⟩)
      inv.combinationsOnce) ?_ ?_ ?_ ?_ ?_
  · intro c hc
    obtain ⟨_, _, hne⟩ := good c hc
    obtain ⟨p, hp⟩ := mem_flatten_gGet.1 hc
    obtain ⟨it, hit, hv⟩ := hu (packV p) ((mem_knownID r.caps.collTables).2 ⟨p, ⟨c, hp⟩, rfl⟩)
    obtain ⟨k, hk⟩ := List.getElem?_of_mem hit
    have hb := gGet_bounds r.caps.collTables r.caps.colls hp
    obtain ⟨_, hkn, _⟩ := item_id_of_variants r.trie r.tag hk (by rw [hv]; exact packV_ne_zero hb.1)
    obtain ⟨c', hc', hm⟩ := r.tag.vars k it hkn hk
    obtain rfl : c' = c := by
      rcases hc' with ⟨h0, _⟩ | ⟨q, hq, hq'⟩
      · exact absurd (hv.symm.trans h0) (packV_ne_zero hb.1)
      · have hb' := gGet_bounds r.caps.collTables r.caps.colls hq
        rw [hv] at hq'
        obtain rfl := packV_inj hb.1 hb.2 hb'.1 hb'.2 hq'
        exact Option.some.inj (hq.symm.trans hp)
    have hw := List.getElem?_eq_getElem hkn
    have hmem : ∀ i, i ∈ c' ↔ ∃ names ∈ (dictOf h).readingsFor ((dictOf h).nodes[k]),
        TSId (dictOf h).tags ix.tagSets names i := by
      intro i
      rw [hm i]
      constructor
      · rintro ⟨names, h1, h2⟩; exact ⟨names, (key hw names).1 h1, h2⟩
      · rintro ⟨names, h1, h2⟩; exact ⟨names, (key hw names).2 h1, h2⟩
    obtain ⟨i, hi⟩ := List.exists_mem_of_ne_nil _ hne
    obtain ⟨names, h1, _⟩ := (hmem i).1 hi
    obtain ⟨A, hA, hs⟩ := inv.combinations _ (List.ne_nil_of_mem h1)
    exact ⟨A, hA, _, hs, hmem⟩
  · intro A hA
    obtain ⟨w, hne, hs⟩ := inv.combinationsOnly A hA
    obtain ⟨names, hn⟩ := List.exists_mem_of_ne_nil _ hne
    obtain ⟨k, hk, hr⟩ := mem_readingsFor.1 hn
    obtain ⟨_, hkn, i, hi⟩ := r.tag.readings k names hr
    have hki : k < ix.items.items.length := Nat.lt_of_lt_of_le hkn r.trie.cap
    obtain ⟨c, hc, hm⟩ := r.tag.vars k _ hkn (List.getElem?_eq_getElem hki)
    have hic : i ∈ c := (hm i).2 ⟨names, hr, hi⟩
    rcases hc with ⟨_, rfl⟩ | ⟨p, hp, _⟩
    · cases hic
    · refine ⟨c, mem_flatten_gGet.2 ⟨p, hp⟩, w, hs, ?_⟩
      intro i
      rw [hm i]
      constructor
      · rintro ⟨names, h1, h2⟩; exact ⟨names, (key hk names).1 h1, h2⟩
      · rintro ⟨names, h1, h2⟩; exact ⟨names, (key hk names).2 h1, h2⟩
  · rintro c _ A hA A' hA' ⟨w, hs, hm⟩ ⟨w', hs', hm'⟩
    have half : ∀ {w w' : List Rune}, (∀ i, i ∈ c ↔ ∃ names ∈ (dictOf h).readingsFor w, TSId (dictOf h).tags ix.tagSets names i) →
        (∀ i, i ∈ c ↔ ∃ names ∈ (dictOf h).readingsFor w', TSId (dictOf h).tags ix.tagSets names i) →
        ∀ a ∈ (dictOf h).combination w, ∃ b ∈ (dictOf h).combination w', a.Perm b := by
      intro w w' hm hm' a ha
      obtain ⟨n, hn, rfl⟩ := List.mem_map.1 ha
      obtain ⟨i, hi⟩ := member hn
      obtain ⟨n', hn', hi'⟩ := (hm' i).1 ((hm i).2 ⟨n, hn, hi⟩)
      exact ⟨_, List.mem_map.2 ⟨n', hn', rfl⟩, (r.same_id hi hi').1 rfl⟩
    refine pairwise_eq (fun A B h => ⟨fun b hb => let ⟨a, ha, hp⟩ := h.2 b hb; ⟨a, ha, hp.symm⟩,
      fun a ha => let ⟨b, hb, hp⟩ := h.1 a ha; ⟨b, hb, hp.symm⟩⟩) inv.combinationsOnce hA hA' ⟨?_, ?_⟩
    · intro a ha
      obtain ⟨x, hx, p1⟩ := hs.2 a ha
      obtain ⟨y, hy, p2⟩ := half hm hm' x hx
      obtain ⟨z, hz, p3⟩ := hs'.1 y hy
      exact ⟨z, hz, p1.symm.trans (p2.trans p3)⟩
    · intro a ha
      obtain ⟨x, hx, p1⟩ := hs'.2 a ha
      obtain ⟨y, hy, p2⟩ := half hm' hm x hx
      obtain ⟨z, hz, p3⟩ := hs.1 y hy
      exact ⟨z, hz, (p1.symm.trans (p2.trans p3)).symm⟩
  · rintro c hc c' hc' A hA ⟨w, hs, hm⟩ ⟨w', hs', hm'⟩
    obtain ⟨g1, g2, _⟩ := good c hc
    obtain ⟨g1', g2', _⟩ := good c' hc'
    have half : ∀ {c c' : Coll} {w w' : List Rune}, SameSets ((dictOf h).combination w) A →
        SameSets ((dictOf h).combination w') A →
        (∀ i, i ∈ c ↔ ∃ names ∈ (dictOf h).readingsFor w, TSId (dictOf h).tags ix.tagSets names i) →
        (∀ i, i ∈ c' ↔ ∃ names ∈ (dictOf h).readingsFor w', TSId (dictOf h).tags ix.tagSets names i) → ∀ i ∈ c, i ∈ c' := by
      intro c c' w w' hs hs' hm hm' i hi
      obtain ⟨n, hn, h1⟩ := (hm i).1 hi
      obtain ⟨a, ha, hp⟩ := hs.1 _ (List.mem_map.2 ⟨n, hn, rfl⟩)
      obtain ⟨x, hx, hp'⟩ := hs'.2 a ha
      obtain ⟨n', hn', rfl⟩ := List.mem_map.1 hx
      obtain ⟨j, hj⟩ := member hn'
      obtain rfl : i = j := (r.same_id h1 hj).2 (hp.trans hp'.symm)
      exact (hm' i).2 ⟨n', hn', hj⟩
    exact eq_of_sorted_nodup g1 g1' g2 g2' fun i => ⟨half hs hs' hm hm' i, half hs' hs hm' hm i⟩
  · rintro c hc A hA ⟨w, hs, hm⟩
    obtain ⟨g1, g2, _⟩ := good c hc
    have := map_perm_of_match (fun i a => ∃ names ∈ (dictOf h).readingsFor w, TSId (dictOf h).tags ix.tagSets names i ∧
      ((dictOf h).kept names).Perm a) (fun _ => ()) (fun _ => ()) c A g2 (pairwise_nodup List.Perm.refl (inv.once A hA))
      ?_ ?_ ?_ ?_ (fun _ _ _ _ _ => rfl)
    · simpa using this.length_eq
    · intro i hi
      obtain ⟨n, hn, h1⟩ := (hm i).1 hi
      obtain ⟨a, ha, hp⟩ := hs.1 _ (List.mem_map.2 ⟨n, hn, rfl⟩)
      exact ⟨a, ha, n, hn, h1, hp⟩
    · intro a ha
      obtain ⟨x, hx, hp⟩ := hs.2 a ha
      obtain ⟨n, hn, rfl⟩ := List.mem_map.1 hx
      obtain ⟨i, hi⟩ := member hn
      exact ⟨i, (hm i).2 ⟨n, hn, hi⟩, n, hn, hi, hp⟩
    · rintro i _ a ha a' ha' ⟨n, _, h1, h2⟩ ⟨n', _, h1', h2'⟩
      exact pairwise_eq (fun _ _ h => h.symm) (inv.once A hA) ha ha'
        (h2.symm.trans (((r.same_id h1 h1').1 rfl).trans h2'))
    · rintro i _ i' _ a _ ⟨n, _, h1, h2⟩ ⟨n', _, h1', h2'⟩
      exact (r.same_id h1 h1').2 (h2.trans h2'.symm)

end Verif
