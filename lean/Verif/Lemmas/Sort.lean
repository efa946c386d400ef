import Verif.Model.Sort
import Verif.Lemmas.HeapIndex
import Mathlib.Data.List.Induction

/-! # Helper lemmas for C89: algorithms that know their data by `Less` and `Swap` -/

namespace Verif

section lists

variable {α β γ : Type}

theorem goSwap_ok {l : List α} {i j : Nat} (hi : i < l.length) (hj : j < l.length) :
    goSwap l i j = .ok ((l.set i l[j]).set j l[i]) := by
  simp [goSwap, hi, hj]

theorem goSwap_cases (l : List α) (i j : Nat) :
    (∃ (hi : i < l.length) (hj : j < l.length), goSwap l i j = .ok ((l.set i l[j]).set j l[i])) ∨
      ((¬ i < l.length ∨ ¬ j < l.length) ∧ goSwap l i j = .panic) := by
  by_cases hi : i < l.length
  · by_cases hj : j < l.length
    · exact .inl ⟨hi, hj, goSwap_ok hi hj⟩
    · exact .inr ⟨.inr hj, by simp [goSwap, hj]⟩
  · exact .inr ⟨.inl hi, by simp [goSwap, hi]⟩

theorem perm_swap {l : List α} {i j : Nat} (hi : i < l.length) (hj : j < l.length) :
    ((l.set i l[j]).set j l[i]).Perm l := by
  classical
  rw [List.perm_iff_count]
  intro a
  by_cases e : i = j
  · subst e; simp
  · have hj' : j < (l.set i l[j]).length := by simpa using hj
    rw [List.count_set hj', List.count_set hi, List.getElem_set_ne e]
    have h1 : l[i] = a → 1 ≤ l.count a := fun h => h ▸ List.count_pos_iff.2 (List.getElem_mem hi)
    have h2 : l[j] = a → 1 ≤ l.count a := fun h => h ▸ List.count_pos_iff.2 (List.getElem_mem hj)
    by_cases e1 : l[i] = a <;> by_cases e2 : l[j] = a <;> simp [e1, e2] <;> have := h1 <;> have := h2 <;>
      simp_all

variable [LT β] [DecidableLT β]

theorem run_perm (key : α → β) (p : SortProg) {l r : List α} (h : p.run key l = .ok r) : r.Perm l := by
  induction p generalizing l with
  | done => cases h; exact .refl _
  | less i j k ih =>
    simp only [SortProg.run] at h
    cases hb : goLess key l i j with
    | ok b => rw [hb] at h; exact ih b h
    | err e => rw [hb] at h; cases h
    | panic => rw [hb] at h; cases h
    | diverge => rw [hb] at h; cases h
  | swap i j k ih =>
    simp only [SortProg.run] at h
    rcases goSwap_cases l i j with ⟨hi, hj, e⟩ | ⟨-, e⟩
    · rw [e] at h; exact (ih h).trans (perm_swap hi hj)
    · rw [e] at h; cases h

/-- `Less` sees only the keys. -/
theorem goLess_map (f : β → γ) [LT γ] [DecidableLT γ] (hf : ∀ a b : β, a < b ↔ f a < f b) (key : α → β) (l : List α)
    (i j : Nat) : goLess (id : γ → γ) (l.map fun a => f (key a)) i j = goLess key l i j := by
  unfold goLess
  simp only [List.getElem?_map]
  cases l[i]? <;> cases l[j]? <;> simp [hf]

theorem goSwap_map (f : α → γ) (l : List α) (i j : Nat) :
    goSwap (l.map f) i j = (goSwap l i j).bind fun r => .ok (r.map f) := by
  unfold goSwap
  simp only [List.getElem?_map]
  cases l[i]? <;> cases l[j]? <;> simp [List.map_set]

theorem run_map (f : β → γ) [LT γ] [DecidableLT γ] (hf : ∀ a b : β, a < b ↔ f a < f b) (key : α → β) (p : SortProg)
    (l : List α) : p.run (id : γ → γ) (l.map fun a => f (key a)) =
      (p.run key l).bind fun r => .ok (r.map fun a => f (key a)) := by
  induction p generalizing l with
  | done => rfl
  | less i j k ih =>
    simp only [SortProg.run, goLess_map f hf]
    cases goLess key l i j <;> simp [ih]
  | swap i j k ih =>
    simp only [SortProg.run, goSwap_map]
    cases goSwap l i j <;> simp [ih]

end lists

/-! ## In memory -/

section heap

variable {α : Type}

theorem getElem?_read {h : Heap α} {s : Slice} {i : Nat} (hi : i < s.len) :
    (h.read s)[i]? = (h.getD s.arr [])[i]? := by
  simp only [Heap.read, List.getElem?_take, if_pos hi]

theorem hLess_read [LT α] [DecidableLT α] {h : Heap α} {s : Slice} (v : h.Valid s) (i j : Nat) :
    hLess h s i j = goLess id (h.read s) i j := by
  unfold hLess goLess
  by_cases hi : i < s.len
  · by_cases hj : j < s.len
    · rw [if_pos ⟨hi, hj⟩, getElem?_read hi, getElem?_read hj]; rfl
    · have : (h.read s)[j]? = none := List.getElem?_eq_none (by rw [Heap.length_read v]; omega)
      rw [if_neg (fun x => hj x.2), this]
      cases (h.read s)[i]? <;> rfl
  · have : (h.read s)[i]? = none := List.getElem?_eq_none (by rw [Heap.length_read v]; omega)
    rw [if_neg (fun x => hi x.1), this]

theorem hSwap_read {h : Heap α} {s : Slice} (v : h.Valid s) (i j : Nat) :
    hSwap h s i j = (goSwap (h.read s) i j).bind fun l => .ok (h.write s l) := by
  unfold hSwap
  by_cases hi : i < s.len
  · by_cases hj : j < s.len
    · have hi' : i < (h.read s).length := by rw [Heap.length_read v]; exact hi
      have hj' : j < (h.read s).length := by rw [Heap.length_read v]; exact hj
      have e1 : (h.getD s.arr [])[i]? = some (h.read s)[i] := by
        rw [← getElem?_read hi]; exact List.getElem?_eq_getElem hi'
      have e2 : (h.getD s.arr [])[j]? = some (h.read s)[j] := by
        rw [← getElem?_read hj]; exact List.getElem?_eq_getElem hj'
      rw [if_pos ⟨hi, hj⟩, e1, e2, goSwap_ok hi' hj']
      simp only [Out.bind_ok, Heap.write]
      congr 2
      generalize (h.read s)[i] = x
      generalize (h.read s)[j] = y
      have : (h.getD s.arr []) = h.read s ++ (h.getD s.arr []).drop s.len := (List.take_append_drop _ _).symm
      rw [this, List.set_append_left _ _ hi', List.set_append_left _ _ (by simpa using hj')]
      congr 1
      rw [← this]
    · have : (h.read s)[j]? = none := List.getElem?_eq_none (by rw [Heap.length_read v]; omega)
      rw [if_neg (fun x => hj x.2), goSwap, this]
      cases (h.read s)[i]? <;> rfl
  · have : (h.read s)[i]? = none := List.getElem?_eq_none (by rw [Heap.length_read v]; omega)
    rw [if_neg (fun x => hi x.1), goSwap, this]; rfl

theorem read_write {h : Heap α} {s : Slice} (v : h.Valid s) {l : List α} (hl : l.length = s.len) :
    (h.write s l).read s = l := by
  unfold Heap.read Heap.write
  rw [Heap.getD_set_self v.1, List.take_append_of_le_length (by omega), List.take_of_length_le (by omega)]

theorem valid_write {h : Heap α} {s : Slice} (v : h.Valid s) {l : List α} (hl : l.length = s.len) :
    (h.write s l).Valid s := by
  refine ⟨by simpa [Heap.write] using v.1, ?_⟩
  unfold Heap.write
  rw [Heap.getD_set_self v.1]
  simp [hl]

theorem write_write {h : Heap α} {s : Slice} (v : h.Valid s) {l : List α} (hl : l.length = s.len) (l' : List α) :
    (h.write s l).write s l' = h.write s l' := by
  unfold Heap.write
  rw [Heap.getD_set_self v.1, List.set_set]
  congr 2
  rw [List.drop_append_of_le_length (by omega), List.drop_of_length_le (by omega), List.nil_append]

theorem runIn_eq [LT α] [DecidableLT α] {s : Slice} (p : SortProg) (h : Heap α) (v : h.Valid s) :
    p.runIn s h = (p.run id (h.read s)).bind fun l => .ok (h.write s l) := by
  induction p generalizing h with
  | done => simp [SortProg.runIn, SortProg.run, Heap.write_read v]
  | less i j k ih =>
    simp only [SortProg.runIn, SortProg.run, hLess_read v]
    cases goLess id (h.read s) i j <;> simp [ih _ h v]
  | swap i j k ih =>
    simp only [SortProg.runIn, SortProg.run, hSwap_read v]
    rcases goSwap_cases (h.read s) i j with ⟨hi, hj, e⟩ | ⟨-, e⟩
    · rw [e]
      have hl : (((h.read s).set i (h.read s)[j]).set j (h.read s)[i]).length = s.len := by
        simp [Heap.length_read v]
      simp only [Out.bind_ok]
      rw [ih _ (valid_write v hl), read_write v hl]
      cases SortProg.run id k (((h.read s).set i (h.read s)[j]).set j (h.read s)[i]) <;>
        simp [write_write v hl]
    · rw [e]; rfl

end heap

/-! ## Insertion sort -/

theorem insertDown_run (next : SortProg) (S : List Nat) (x : Nat) : ∀ (P1 P2 : List Nat),
    (P1 ++ P2).Pairwise (· ≤ ·) → (∀ y ∈ P2, x ≤ y) →
      ∃ Q : List Nat, Q.length = P1.length + P2.length + 1 ∧ Q.Pairwise (· ≤ ·) ∧
        (insertDown next P1.length).run id (P1 ++ x :: (P2 ++ S)) = next.run id (Q ++ S) := by
  intro P1
  induction P1 using List.reverseRecOn with
  | nil =>
    intro P2 hp hx
    exact ⟨x :: P2, by simp, by simpa using ⟨hx, by simpa using hp⟩, by simp [insertDown]⟩
  | append_singleton P1 a ih =>
    intro P2 hp hx
    have hlen : (P1 ++ [a]).length = P1.length + 1 := by simp
    rw [hlen]
    have g1 : (P1 ++ [a] ++ x :: (P2 ++ S))[P1.length + 1]? = some x := by
      rw [List.getElem?_append_right (by simp)]; simp
    have g0 : (P1 ++ [a] ++ x :: (P2 ++ S))[P1.length]? = some a := by
      rw [List.getElem?_append_left (by simp), List.getElem?_append_right (by simp)]; simp
    simp only [insertDown, SortProg.run, goLess, g1, g0, Out.bind_ok, id]
    by_cases h : x < a
    · have hsw : goSwap (P1 ++ [a] ++ x :: (P2 ++ S)) (P1.length + 1) P1.length = .ok (P1 ++ x :: (a :: P2 ++ S)) := by
        simp only [goSwap, g1, g0]
        congr 1
        rw [List.set_append_right _ _ (by simp)]
        simp
      rw [if_pos (by simpa using h), SortProg.run, hsw, Out.bind_ok]
      have hp' : (P1 ++ a :: P2).Pairwise (· ≤ ·) := by simpa using hp
      obtain ⟨Q, h1, h2, h3⟩ := ih (a :: P2) hp' (by
        intro y hy
        rcases List.mem_cons.1 hy with rfl | hy
        · exact Nat.le_of_lt h
        · exact hx y hy)
      exact ⟨Q, by simp at h1 ⊢; omega, h2, h3⟩
    · rw [if_neg (by simpa using h)]
      refine ⟨P1 ++ [a] ++ x :: P2, by simp; omega, ?_, by simp⟩
      have hp' := List.pairwise_append.1 hp
      refine List.pairwise_append.2 ⟨hp'.1, List.pairwise_cons.2 ⟨hx, hp'.2.1⟩, ?_⟩
      intro b hb y hy
      have hb' : b ≤ a := by
        rcases List.mem_append.1 hb with hb | hb
        · exact (List.pairwise_append.1 hp'.1).2.2 b hb a (by simp)
        · simp at hb; omega
      rcases List.mem_cons.1 hy with rfl | hy
      · omega
      · exact hp'.2.2 b hb y hy

theorem insertRounds_run : ∀ (S Q : List Nat), Q.Pairwise (· ≤ ·) →
    ∃ r : List Nat, r.Pairwise (· ≤ ·) ∧ (insertRounds Q.length S.length).run id (Q ++ S) = .ok r
  | [], Q, h => ⟨Q, h, by simp [insertRounds, SortProg.run]⟩
  | x :: S, Q, h => by
    obtain ⟨Q', h1, h2, h3⟩ := insertDown_run (insertRounds (Q.length + 1) S.length) S x Q [] (by simpa using h) (by simp)
    obtain ⟨r, h4, h5⟩ := insertRounds_run S Q' h2
    refine ⟨r, h4, ?_⟩
    simp only [List.length_nil, Nat.add_zero] at h1
    rw [h1] at h5
    simpa [insertRounds, h5] using h3

end Verif
