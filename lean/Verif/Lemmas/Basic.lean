import Verif.Model.Storage

/-! # Helper lemmas: sorting, set comparison, linear search, truncation -/

namespace Verif

section Sorting
variable {α : Type} [LE α] [DecidableRel (α := α) (· ≤ ·)]

theorem sortAsc_perm (l : List α) : (sortAsc l).Perm l := List.perm_insertionSort _ l
theorem length_sortAsc (l : List α) : (sortAsc l).length = l.length := (sortAsc_perm l).length_eq
theorem mem_sortAsc {l : List α} {x : α} : x ∈ sortAsc l ↔ x ∈ l := (sortAsc_perm l).mem_iff
@[simp] theorem sortAsc_nil : sortAsc ([] : List α) = [] := rfl

variable [Std.Total (α := α) (· ≤ ·)] [IsTrans α (· ≤ ·)]
theorem sortAsc_sorted (l : List α) : (sortAsc l).Pairwise (· ≤ ·) :=
  List.pairwise_insertionSort _ l

variable [Std.Antisymm (α := α) (· ≤ ·)]
omit [DecidableRel (α := α) (· ≤ ·)] [Std.Total (α := α) (· ≤ ·)] [IsTrans α (· ≤ ·)] in
theorem eq_of_perm_of_sorted {a b : List α} (ha : a.Pairwise (· ≤ ·)) (hb : b.Pairwise (· ≤ ·))
    (h : a.Perm b) : a = b :=
  h.eq_of_pairwise (fun x y _ _ h1 h2 => Std.Antisymm.antisymm x y h1 h2) ha hb

theorem sortAsc_eq_iff_perm {a b : List α} : sortAsc a = sortAsc b ↔ a.Perm b :=
  ⟨fun h => (sortAsc_perm a).symm.trans (h ▸ sortAsc_perm b),
   fun h => eq_of_perm_of_sorted (sortAsc_sorted a) (sortAsc_sorted b)
    ((sortAsc_perm a).trans (h.trans (sortAsc_perm b).symm))⟩

theorem sortAsc_of_sorted {a : List α} (h : a.Pairwise (· ≤ ·)) : sortAsc a = a :=
  eq_of_perm_of_sorted (sortAsc_sorted a) h (sortAsc_perm a)

theorem sortAsc_idem (a : List α) : sortAsc (sortAsc a) = sortAsc a :=
  sortAsc_of_sorted (sortAsc_sorted a)

end Sorting

section Find
variable {α : Type} [DecidableEq α]

theorem equalTo_go_iff : ∀ (a b : List α), a.length = b.length → (equalTo.go a b = true ↔ a = b)
  | [], [], _ => by simp [equalTo.go]
  | x :: xs, y :: ys, h => by
    have ih := equalTo_go_iff xs ys (by simpa using h)
    by_cases hxy : x = y <;> simp [equalTo.go, hxy, ih]
  | [], _ :: _, h => by simp at h
  | _ :: _, [], h => by simp at h

theorem equalTo_iff (a b : List α) : equalTo a b = true ↔ a = b := by
  unfold equalTo
  split
  · rename_i h; constructor
    · intro h'; simp at h'
    · intro h'; exact absurd (by rw [h']) h
  · rename_i h; exact equalTo_go_iff a b (by simpa using h)

theorem findSet_some {t : List (List α)} {x : List α} {i : Nat} (h : findSet t x = some i) :
    t[i]? = some x := by
  unfold findSet at h
  rw [List.findIdx?_eq_some_iff_getElem] at h
  obtain ⟨hi, hp, _⟩ := h
  rw [List.getElem?_eq_getElem hi]
  rw [equalTo_iff] at hp
  rw [hp]

theorem findSet_none {t : List (List α)} {x : List α} : findSet t x = none ↔ x ∉ t := by
  unfold findSet
  rw [List.findIdx?_eq_none_iff]
  constructor
  · intro h hx
    have := h x hx
    rw [(equalTo_iff x x).2 rfl] at this
    cases this
  · intro h y hy
    by_contra hc
    have : equalTo y x = true := by simpa using hc
    rw [equalTo_iff] at this
    exact h (this ▸ hy)

theorem findSet_of_mem {t : List (List α)} {x : List α} (h : x ∈ t) : ∃ i, findSet t x = some i := by
  cases hf : findSet t x with
  | some i => exact ⟨i, rfl⟩
  | none => exact absurd h (findSet_none.1 hf)

theorem findSet_lt {t : List (List α)} {x : List α} {i : Nat} (h : findSet t x = some i) :
    i < t.length := by
  have := findSet_some h
  exact (List.getElem?_eq_some_iff.1 this).1

/-- In a duplicate free list a position is determined by its element. -/
theorem nodup_getElem?_inj {β : Type} {l : List β} (h : l.Nodup) {i j : Nat} {x : β}
    (hi : l[i]? = some x) (hj : l[j]? = some x) : i = j := by
  obtain ⟨hi', e1⟩ := List.getElem?_eq_some_iff.1 hi
  obtain ⟨hj', e2⟩ := List.getElem?_eq_some_iff.1 hj
  exact (List.Nodup.getElem_inj_iff h).1 (e1.trans e2.symm)

theorem findSet_eq_of_nodup {t : List (List α)} (h : t.Nodup) {x : List α} {i : Nat}
    (hi : t[i]? = some x) : findSet t x = some i := by
  obtain ⟨j, hj⟩ := findSet_of_mem (List.mem_of_getElem? hi)
  rw [hj, nodup_getElem?_inj h (findSet_some hj) hi]

end Find

theorem length_extendTables {β : Type} (ts : List (List β)) (col : Nat) :
    col < (extendTables ts col).length := by
  unfold extendTables
  split
  · simp; omega
  · omega

theorem le_length_extendTables {β : Type} (ts : List (List β)) (col : Nat) :
    ts.length ≤ (extendTables ts col).length := by
  unfold extendTables
  split <;> simp

theorem length_extendTables_eq {β : Type} (ts : List (List β)) (col : Nat) :
    (extendTables ts col).length = max ts.length (col + 1) := by
  unfold extendTables
  split
  · simp; omega
  · omega

theorem getD_extendTables {β : Type} (ts : List (List β)) (col i : Nat) :
    (extendTables ts col).getD i [] = ts.getD i [] := by
  unfold extendTables
  split
  · simp only [List.getD_eq_getElem?_getD, List.getElem?_append, List.getElem?_replicate]
    split
    · rfl
    · rename_i h
      rw [List.getElem?_eq_none (by omega)]
      split <;> rfl
  · rfl

end Verif
