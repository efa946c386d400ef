import Verif.Lemmas.ImportText
import Verif.Lemmas.DocRoom
import Verif.Lemmas.Utf8
import Verif.Lemmas.Words

/-! # Helper lemmas: the ID in a report tells words with the same text apart -/

namespace Verif

/-! ## Characters of a string that is continued by an ASCII character -/

theorem decodeRune_ascii (b : UInt8) (hb : b.toNat < 0x80) (u s : Str) (hs : s ≠ []) :
    decodeRune (s ++ b :: u) = decodeRune s := by
  have n1 : ¬ 0x80 ≤ b.toNat := by omega
  have n2 : ¬ 0x90 ≤ b.toNat := by omega
  have n3 : ¬ 0xA0 ≤ b.toNat := by omega
  have lo1 : ∀ a : Nat, ¬ (if a = 0xE0 then 0xA0 else 0x80) ≤ b.toNat := by intro a; split <;> omega
  have lo2 : ∀ a : Nat, ¬ (if a = 0xF0 then 0x90 else 0x80) ≤ b.toNat := by intro a; split <;> omega
  cases s with
  | nil => exact absurd rfl hs
  | cons b0 s =>
    cases s with
    | nil =>
      unfold decodeRune
      cases u with
      | nil => simp [n1]
      | cons u0 u => cases u with
        | nil => simp [n1, lo1]
        | cons u1 u => simp [n1, lo1, lo2]
    | cons b1 s => cases s with
      | nil =>
        unfold decodeRune
        cases u with
        | nil => simp [n1]
        | cons u0 u => simp [n1]
      | cons b2 s => cases s with
        | nil => unfold decodeRune; simp [n1]
        | cons b3 s => unfold decodeRune; simp

theorem decodeRune_le (s : Str) (hs : s ≠ []) : 1 ≤ (decodeRune s).2 ∧ (decodeRune s).2 ≤ s.length := by
  cases s with
  | nil => exact absurd rfl hs
  | cons b t =>
    rcases decodeRune_cases b t with ⟨r, rest, _, hbt, hd⟩ | hd
    · rw [hd]
      have : 0 < (encodeRune r).length := List.length_pos_iff.2 (encodeRune_ne_nil r)
      rw [hbt, List.length_append]
      simp only
      omega
    · rw [hd]; simp

theorem decodeAux_ascii (b : UInt8) (hb : b.toNat < 0x80) (u : Str) : ∀ (n : Nat) (s : Str) (k : Nat), s.length ≤ n →
    n + 1 ≤ k → ∃ v, v ≠ [] ∧ decodeAux k (s ++ b :: u) = decodeAux n s ++ v := by
  intro n
  induction n with
  | zero =>
    intro s k hs hk
    obtain rfl := List.eq_nil_of_length_eq_zero (Nat.le_zero.1 hs)
    obtain ⟨k, rfl⟩ : ∃ j, k = j + 1 := ⟨k - 1, by omega⟩
    exact ⟨decodeAux (k + 1) (b :: u), by simp [decodeAux], rfl⟩
  | succ n ih =>
    intro s k hs hk
    obtain ⟨k, rfl⟩ : ∃ j, k = j + 1 := ⟨k - 1, by omega⟩
    cases s with
    | nil => exact ⟨decodeAux (k + 1) (b :: u), by simp [decodeAux], rfl⟩
    | cons c t =>
      have hd := decodeRune_ascii b hb u (c :: t) (by simp)
      have hle := decodeRune_le (c :: t) (by simp)
      obtain ⟨v, hv, he⟩ := ih ((c :: t).drop (decodeRune (c :: t)).2) k (by rw [List.length_drop]; omega) (by omega)
      refine ⟨v, hv, ?_⟩
      have e1 : decodeAux (k + 1) (c :: t ++ b :: u) = (decodeRune (c :: t ++ b :: u)).1 ::
          decodeAux k ((c :: t ++ b :: u).drop (decodeRune (c :: t ++ b :: u)).2) := rfl
      have e2 : decodeAux (n + 1) (c :: t) = (decodeRune (c :: t)).1 ::
          decodeAux n ((c :: t).drop (decodeRune (c :: t)).2) := rfl
      rw [e1, e2, hd, List.drop_append_of_le_length hle.2, he]
      rfl

/-- A string that goes on with an ASCII character has more characters, and begins with the same. -/
theorem decodeRunes_ascii (b : UInt8) (hb : b.toNat < 0x80) (s u : Str) :
    ∃ v, v ≠ [] ∧ decodeRunes (s ++ b :: u) = decodeRunes s ++ v :=
  decodeAux_ascii b hb u s.length s _ (Nat.le_refl _) (by simp)

/-! ## The nodes after the import of words -/

/-- The nodes of these words, in the order in which they are made. -/
def nodesAfter (N : List (List Rune)) (ws : List (List Rune)) : List (List Rune) :=
  ws.foldl (fun N w => addAll N (prefixes w)) N

theorem nodesAfter_append (N a b : List (List Rune)) : nodesAfter N (a ++ b) = nodesAfter (nodesAfter N a) b :=
  List.foldl_append

theorem nodesAfter_prefix (N b : List (List Rune)) : N <+: nodesAfter N b := by
  induction b generalizing N with
  | nil => exact List.prefix_refl _
  | cons w b ih => exact (addAll_prefix N _).trans (ih _)

theorem nodesAfter_nodup {N : List (List Rune)} (h : N.Nodup) (b : List (List Rune)) : (nodesAfter N b).Nodup := by
  induction b generalizing N with
  | nil => exact h
  | cons w b ih => exact ih (nodup_addAll h _)

theorem mem_nodesAfter {N a : List (List Rune)} {w : List Rune} (hw : w ≠ []) : w ∈ nodesAfter N (a ++ [w]) := by
  rw [nodesAfter_append]
  exact mem_addAll.2 (.inr (mem_prefixes.2 ⟨hw, List.prefix_refl _⟩))

theorem steps_nodes (ss : List IStep) (d : Dict) (h0 : d.nodes[0]? = some []) (hn : d.nul = false) :
    ((stepCalls d ss).foldl Op.spec d).nodes = nodesAfter d.nodes ((stepForms ss).map fun f => decodeRunes f.1) := by
  induction ss generalizing d with
  | nil => rfl
  | cons x ss ih =>
    cases x with
    | gram n p =>
      have e1 : ((Op.tagID n p).spec d).nodes = d.nodes := by unfold Op.spec; simp only; split <;> rfl
      have e2 : ((Op.tagID n p).spec d).nul = d.nul := by unfold Op.spec; simp only; split <;> rfl
      have := ih ((Op.tagID n p).spec d) (by rw [e1]; exact h0) (by rw [e2]; exact hn)
      rw [e1] at this
      exact this
    | form w tags =>
      have f1 : ((Op.addString w).spec d).nodes = addAll d.nodes (prefixes (decodeRunes w)) := by
        unfold Op.spec Dict.insert
        simp only [h0]
        by_cases he : decodeRunes w = []
        · rw [if_pos he, he]; rfl
        · rw [if_neg he]
          simp [Dict.join, hn]
      have f2 : ((Op.addString w).spec d).nul = d.nul := by
        unfold Op.spec Dict.insert
        simp only [h0]
        split <;> rfl
      have g1 : ∀ (id : ID) (d : Dict), ((Op.addTagSet id tags).spec d).nodes = d.nodes := by
        intro id d; unfold Op.spec; simp only; split <;> rfl
      have g2 : ∀ (id : ID) (d : Dict), ((Op.addTagSet id tags).spec d).nul = d.nul := by
        intro id d; unfold Op.spec; simp only; split <;> rfl
      have := ih ((Op.addTagSet (formID d w) tags).spec ((Op.addString w).spec d))
        (by
          rw [g1, f1]
          obtain ⟨t, ht⟩ := addAll_prefix d.nodes (prefixes (decodeRunes w))
          rw [← ht, List.getElem?_append_left (List.getElem?_eq_some_iff.1 h0).1, h0])
        (by rw [g2, f2]; exact hn)
      rw [g1, f1] at this
      exact this

/-- A node keeps its number. -/
theorem index_before {N M : List (List Rune)} (hp : N <+: M) (hM : M.Nodup) {w : List Rune} (hw : w ∈ N) {k : Nat}
    (hk : M[k]? = some w) : N[k]? = some w := by
  obtain ⟨j, hj, e⟩ := List.getElem_of_mem hw
  obtain ⟨t, rfl⟩ := hp
  have hj' : (N ++ t)[j]? = some w := by rw [List.getElem?_append_left hj, List.getElem?_eq_getElem hj, e]
  have := (List.getElem?_inj (List.getElem?_eq_some_iff.1 hj').1 hM).1 (hj'.trans hk.symm)
  subst this
  rw [List.getElem?_eq_getElem hj, e]

/-- A word and a continuation of it do not get the same number after the same words. -/
theorem numbers_differ {N : List (List Rune)} {w v : List Rune} (hv : v ≠ []) {k : Nat}
    (h1 : (nodesAfter N [w])[k]? = some w) (h2 : (nodesAfter N [w ++ v])[k]? = some (w ++ v)) : False := by
  have hp : nodesAfter N [w] <+: nodesAfter N [w ++ v] := by
    show addAll N (prefixes w) <+: addAll N (prefixes (w ++ v))
    rw [prefixes_append, addAll_append]
    exact addAll_prefix _ _
  obtain ⟨t, ht⟩ := hp
  rw [← ht, List.getElem?_append_left (List.getElem?_eq_some_iff.1 h1).1, h1] at h2
  have := congrArg List.length (Option.some.inj h2)
  rw [List.length_append] at this
  exact hv (List.eq_nil_of_length_eq_zero (by omega))

/-- Two forms with the same text: the same form, or one continues the other with a space. -/
theorem form_cases {t t' : List Str} {w w' : Str} (h4 : ∀ a ∈ t, a.length = 4) (h4' : ∀ a ∈ t', a.length = 4)
    (h : w ++ (str " [" ++ joinComma t) = w' ++ (str " [" ++ joinComma t')) :
    (w = w' ∧ t = t') ∨ (∃ x, w' = w ++ 0x20 :: x) ∨ ∃ x, w = w' ++ 0x20 :: x := by
  have ne : ∀ a : Str, a.length = 4 → a ≠ [] := by rintro a h rfl; cases h
  have es : str " [" = [0x20, 0x5b] := by decide
  have key : ∀ {J J' w w' : Str}, w ++ (str " [" ++ J) = w' ++ (str " [" ++ J') → w.length < w'.length →
      ∃ x, w' = w ++ 0x20 :: x := by
    intro J J' w w' h hlt
    obtain ⟨x, rfl⟩ : w <+: w' := List.prefix_of_prefix_length_le ⟨_, h⟩ ⟨_, rfl⟩ (by omega)
    rw [List.append_assoc] at h
    have h := List.append_cancel_left h
    cases x with
    | nil => simp at hlt
    | cons c x =>
      rw [es] at h
      obtain ⟨rfl, -⟩ := List.cons.inj h
      exact ⟨x, rfl⟩
  rcases Nat.lt_trichotomy w.length w'.length with hl | hl | hl
  · exact .inr (.inl (key h hl))
  · obtain ⟨rfl, h'⟩ := List.append_inj h hl
    exact .inl ⟨rfl, joinComma_inj (separable_length 4) t t' (fun a ha => ⟨h4 a ha, ne a (h4 a ha)⟩)
      (fun a ha => ⟨h4' a ha, ne a (h4' a ha)⟩) (List.append_cancel_left h')⟩
  · exact .inr (.inr (key h.symm hl))

end Verif
