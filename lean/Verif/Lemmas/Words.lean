import Verif.Spec.Dictionary

/-! # Helper lemmas: the word lists of the specification -/

namespace Verif

section
variable {α : Type}

theorem mem_prefixes {q p : List α} : p ∈ prefixes q ↔ p ≠ [] ∧ p <+: q := by
  induction q generalizing p with
  | nil =>
    simp only [prefixes, List.not_mem_nil, List.prefix_nil, false_iff]
    tauto
  | cons a q ih =>
    simp only [prefixes, List.mem_cons, List.mem_map, ih]
    constructor
    · rintro (rfl | ⟨p', ⟨_, hp⟩, rfl⟩)
      · simp
      · simp [hp]
    · rintro ⟨h0, hp⟩
      cases p with
      | nil => exact absurd rfl h0
      | cons b p =>
        obtain ⟨rfl, hp1⟩ := List.cons_prefix_cons.1 hp
        by_cases hp0 : p = []
        · left; rw [hp0]
        · right; exact ⟨p, ⟨hp0, hp1⟩, rfl⟩

theorem prefixes_append (w v : List α) :
    prefixes (w ++ v) = prefixes w ++ (prefixes v).map (w ++ ·) := by
  induction w with
  | nil => simp [prefixes]
  | cons a w ih => simp [prefixes, ih, Function.comp_def]

theorem prefixes_concat (w : List α) (a : α) : prefixes (w ++ [a]) = prefixes w ++ [w ++ [a]] := by
  rw [prefixes_append]; simp [prefixes]

theorem nodup_prefixes (q : List α) : (prefixes q).Nodup := by
  induction q with
  | nil => exact List.nodup_nil
  | cons a q ih =>
    simp only [prefixes, List.nodup_cons, List.mem_map]
    constructor
    · rintro ⟨p, hp, h⟩
      have := (mem_prefixes.1 hp).1
      simp at h
      exact this h
    · unfold List.Nodup
      rw [List.pairwise_map]
      exact ih.imp fun h h' => h (by simpa using h')

end

theorem addNew_of_mem {ws : List (List Rune)} {w : List Rune} (h : w ∈ ws) : addNew ws w = ws := by
  unfold addNew; rw [if_pos h]

theorem addNew_of_not_mem {ws : List (List Rune)} {w : List Rune} (h : w ∉ ws) :
    addNew ws w = ws ++ [w] := by
  unfold addNew; rw [if_neg h]

theorem mem_addNew {ws : List (List Rune)} {w x : List Rune} : x ∈ addNew ws w ↔ x ∈ ws ∨ x = w := by
  unfold addNew
  split
  · constructor
    · exact Or.inl
    · rintro (h | rfl) <;> assumption
  · simp

theorem addNew_prefix (ws : List (List Rune)) (w : List Rune) : ws <+: addNew ws w := by
  unfold addNew; split
  · exact List.prefix_refl _
  · exact List.prefix_append _ _

theorem nodup_addNew {ws : List (List Rune)} (h : ws.Nodup) (w : List Rune) : (addNew ws w).Nodup := by
  unfold addNew; split
  · exact h
  · rename_i hw
    rw [List.nodup_append]
    refine ⟨h, by simp, ?_⟩
    intro a ha b hb
    simp only [List.mem_singleton] at hb
    subst hb
    rintro rfl
    exact hw ha

theorem addAll_nil (ws : List (List Rune)) : addAll ws [] = ws := rfl
theorem addAll_cons (ws : List (List Rune)) (w : List Rune) (l : List (List Rune)) :
    addAll ws (w :: l) = addAll (addNew ws w) l := rfl
theorem addAll_append (ws l l' : List (List Rune)) :
    addAll ws (l ++ l') = addAll (addAll ws l) l' := List.foldl_append

theorem addAll_of_subset {ws l : List (List Rune)} (h : ∀ w ∈ l, w ∈ ws) : addAll ws l = ws := by
  induction l with
  | nil => rfl
  | cons a l ih =>
    rw [addAll_cons, addNew_of_mem (h a (by simp)), ih fun w hw => h w (by simp [hw])]

theorem mem_addAll {ws l : List (List Rune)} {x : List Rune} : x ∈ addAll ws l ↔ x ∈ ws ∨ x ∈ l := by
  induction l generalizing ws with
  | nil => simp [addAll_nil]
  | cons a l ih =>
    rw [addAll_cons, ih, mem_addNew, List.mem_cons]
    tauto

theorem addAll_prefix (ws l : List (List Rune)) : ws <+: addAll ws l := by
  induction l generalizing ws with
  | nil => exact List.prefix_refl _
  | cons a l ih => exact (addNew_prefix ws a).trans (ih _)

theorem nodup_addAll {ws : List (List Rune)} (h : ws.Nodup) (l : List (List Rune)) :
    (addAll ws l).Nodup := by
  induction l generalizing ws with
  | nil => exact h
  | cons a l ih => exact ih (nodup_addNew h a)

/-- Adding a prefix first makes no difference if its own proper prefixes are there. -/
theorem addAll_addNew {ws : List (List Rune)} {w : List Rune} {r : Rune} {q : List Rune}
    (hw : ∀ p ∈ prefixes w, p ∈ ws) (hq : w ++ [r] <+: q) :
    addAll (addNew ws (w ++ [r])) (prefixes q) = addAll ws (prefixes q) := by
  obtain ⟨v, rfl⟩ := hq
  rw [prefixes_append, prefixes_concat, addAll_append, addAll_append, addAll_append, addAll_append,
    addAll_of_subset hw, addAll_of_subset (l := prefixes w)]
  · congr 1
    simp only [addAll_cons, addAll_nil]
    exact addNew_of_mem (mem_addNew.2 (.inr rfl))
  · intro p hp
    exact mem_addNew.2 (.inl (hw p hp))

namespace Dict

theorem join_nil_right (d : Dict) (w : List Rune) : d.join w [] = w := by
  unfold join
  split
  · rename_i h; simp [h.1]
  · simp

theorem join_step (d : Dict) (w : List Rune) (r : Rune) (rest : List Rune) :
    d.join (d.join w [r]) rest = d.join w (r :: rest) := by
  unfold join
  by_cases h : w = [] ∧ d.nul = true
  · obtain ⟨rfl, hn⟩ := h
    by_cases hr : r = 0
    · subst hr; simp [hn]
    · simp [hn, hr]
  · simp [h]

theorem join_single (d : Dict) (w : List Rune) (r : Rune) :
    (d.join w [r] = w ++ [r] ∧ ¬ (w = [] ∧ d.nul = true ∧ r = 0)) ∨
    (w = [] ∧ d.nul = true ∧ r = 0 ∧ d.join w [r] = []) := by
  unfold join
  by_cases h : w = [] ∧ d.nul = true
  · obtain ⟨rfl, hn⟩ := h
    by_cases hr : r = 0
    · subst hr; right; simp [hn]
    · left; simp [hn, hr]
  · left
    rw [if_neg h]
    exact ⟨rfl, fun h' => h ⟨h'.1, h'.2.1⟩⟩

end Dict

end Verif
