import Verif.Lemmas.TagThreads
import Verif.Spec.Tagging

/-! # Which cells the programs of `Model/Tagging.lean` write and use when they run alone -/

namespace Verif

section
variable {Loc : Type} {Val : Loc → Type} {ρ σ : Type} [DecidableEq Loc]

/-- The program, run alone, writes the cell. -/
def Prog.Wr (p : Prog Loc Val ρ) (m : Cells Loc Val) (l : Loc) : Prop := (l, true) ∈ p.accesses m
/-- The program, run alone, reads or writes the cell. -/
def Prog.Us (p : Prog Loc Val ρ) (m : Cells Loc Val) (l : Loc) : Prop := ∃ w, (l, w) ∈ p.accesses m

theorem clash_iff {p : Prog Loc Val ρ} {q : Prog Loc Val σ} {m : Cells Loc Val} :
    Clash (p.accesses m) (q.accesses m) ↔ ∃ l, p.Wr m l ∧ q.Us m l := by
  constructor
  · rintro ⟨l, w, h1, h2⟩; exact ⟨l, h1, w, h2⟩
  · rintro ⟨l, h1, w, h2⟩; exact ⟨l, w, h1, h2⟩

variable {p : Prog Loc Val ρ} {m : Cells Loc Val} {l : Loc}

theorem Prog.wr_bind {f : ρ → Prog Loc Val σ} : (p.bind f).Wr m l ↔ p.Wr m l ∨ (f (p.alone m).2).Wr (p.alone m).1 l := by
  unfold Wr; rw [Prog.accesses_bind, List.mem_append]

theorem Prog.us_bind {f : ρ → Prog Loc Val σ} : (p.bind f).Us m l ↔ p.Us m l ∨ (f (p.alone m).2).Us (p.alone m).1 l := by
  unfold Us; rw [Prog.accesses_bind]
  simp only [List.mem_append]
  constructor
  · rintro ⟨w, h | h⟩
    · exact .inl ⟨w, h⟩
    · exact .inr ⟨w, h⟩
  · rintro (⟨w, h⟩ | ⟨w, h⟩)
    · exact ⟨w, .inl h⟩
    · exact ⟨w, .inr h⟩

theorem Prog.wr_done {r : ρ} : ¬ (Prog.done r : Prog Loc Val ρ).Wr m l := fun h => by cases h
theorem Prog.us_done {r : ρ} : ¬ (Prog.done r : Prog Loc Val ρ).Us m l := fun ⟨_, h⟩ => by cases h

theorem Prog.wr_read {a : Loc} {k : Val a → Prog Loc Val ρ} : (Prog.read a k).Wr m l ↔ (k (m a)).Wr m l := by
  show (l, true) ∈ (a, false) :: (k (m a)).accesses m ↔ (l, true) ∈ (k (m a)).accesses m
  simp

theorem Prog.us_read {a : Loc} {k : Val a → Prog Loc Val ρ} : (Prog.read a k).Us m l ↔ l = a ∨ (k (m a)).Us m l := by
  show (∃ w, (l, w) ∈ (a, false) :: (k (m a)).accesses m) ↔ l = a ∨ ∃ w, (l, w) ∈ (k (m a)).accesses m
  simp only [List.mem_cons, Prod.mk.injEq]
  constructor
  · rintro ⟨w, ⟨h, _⟩ | h⟩
    · exact .inl h
    · exact .inr ⟨w, h⟩
  · rintro (h | ⟨w, h⟩)
    · exact ⟨false, .inl ⟨h, rfl⟩⟩
    · exact ⟨w, .inr h⟩

theorem Prog.wr_write {a : Loc} {v : Val a} {k : Prog Loc Val ρ} : (Prog.write a v k).Wr m l ↔ l = a ∨ k.Wr (m.set a v) l := by
  show (l, true) ∈ (a, true) :: k.accesses (m.set a v) ↔ l = a ∨ (l, true) ∈ k.accesses (m.set a v)
  simp

theorem Prog.us_write {a : Loc} {v : Val a} {k : Prog Loc Val ρ} : (Prog.write a v k).Us m l ↔ l = a ∨ k.Us (m.set a v) l := by
  show (∃ w, (l, w) ∈ (a, true) :: k.accesses (m.set a v)) ↔ l = a ∨ ∃ w, (l, w) ∈ k.accesses (m.set a v)
  simp only [List.mem_cons, Prod.mk.injEq]
  constructor
  · rintro ⟨w, ⟨h, _⟩ | h⟩
    · exact .inl h
    · exact .inr ⟨w, h⟩
  · rintro (h | ⟨w, h⟩)
    · exact ⟨true, .inl ⟨h, rfl⟩⟩
    · exact ⟨w, .inr h⟩

theorem Prog.us_of_wr (h : p.Wr m l) : p.Us m l := ⟨true, h⟩

end

namespace TProg

open Prog TCall

variable {m : Cells TLoc TVal} {l : TLoc}

theorem wr_findAll (names : List Str) : ¬ (findAll names).Wr m l := by
  induction names with
  | nil => exact wr_done
  | cons n rest ih =>
    unfold findAll
    rw [wr_read]
    split
    · exact wr_done
    · rw [wr_bind]
      rintro (h | h)
      · exact ih h
      · exact wr_done h

theorem us_findAll (names : List Str) : (findAll names).Us m l ↔ names ≠ [] ∧ l = .tags := by
  induction names with
  | nil => exact ⟨fun h => (us_done h).elim, fun h => absurd rfl h.1⟩
  | cons n rest ih =>
    unfold findAll
    rw [us_read]
    constructor
    · rintro (h | h)
      · exact ⟨by simp, h⟩
      · refine ⟨by simp, ?_⟩
        split at h
        · exact (us_done h).elim
        · rcases us_bind.1 h with h | h
          · exact (ih.1 h).2
          · exact (us_done h).elim
    · exact fun h => .inl h.2

theorem wr_tagID (name parent : Str) : (tagID name parent).Wr m l ↔ l = .tags ∧ tagsFind (m .tags) name = none := by
  unfold tagID
  rw [wr_read]
  split
  · rename_i h
    exact ⟨fun h => (wr_done h).elim, fun h' => by rw [h] at h'; cases h'.2⟩
  · rename_i h
    rw [wr_read, wr_read, wr_write]
    exact ⟨fun h' => ⟨h'.resolve_right wr_done, h⟩, fun h' => .inl h'.1⟩

theorem us_tagID (name parent : Str) : (tagID name parent).Us m l ↔ l = .tags := by
  unfold tagID
  rw [us_read]
  refine ⟨fun h => h.elim id fun h => ?_, fun h => .inl h⟩
  split at h
  · exact (us_done h).elim
  · rw [us_read, us_read, us_write] at h
    rcases h with h | h | h | h
    · exact h
    · exact h
    · exact h
    · exact (us_done h).elim

theorem wr_collGet (v : VariantID) : ¬ (collGet v).Wr m l := by
  unfold collGet
  rw [wr_read]
  split
  · exact wr_done
  split
  · exact wr_done
  split
  · exact wr_done
  · rw [wr_read]; exact wr_done

theorem us_collGet (v : VariantID) : (collGet v).Us m l ↔ l = .colls ∨ (v ≠ 0 ∧ 1 ≤ (variantTableNum v).toNat ∧
    (variantTableNum v).toNat - 1 < (m .colls : Nat) ∧ l = .collTable ((variantTableNum v).toNat - 1)) := by
  unfold collGet
  rw [us_read]
  refine or_congr Iff.rfl ?_
  split
  · rename_i h
    exact ⟨fun h => (us_done h).elim, fun h' => absurd h h'.1⟩
  rename_i h0
  split
  · rename_i h
    exact ⟨fun h => (us_done h).elim, fun h' => absurd h'.2.1 (by omega)⟩
  rename_i h1
  split
  · rename_i h
    exact ⟨fun h => (us_done h).elim, fun h' => absurd h'.2.2.1 (Nat.not_lt.2 h)⟩
  · rename_i h
    rw [us_read]
    exact ⟨fun h' => ⟨h0, by omega, Nat.lt_of_not_le h, h'.resolve_right us_done⟩, fun h' => .inl h'.2.2.2⟩

theorem wr_extendSets (k : Nat) : ∀ {m : Cells TLoc TVal}, (extendSets k).Wr m l ↔
    k ≠ 0 ∧ (l = .sets ∨ ∃ j, (m .sets : Nat) ≤ j ∧ j < (m .sets : Nat) + k ∧ l = .setTable j) := by
  induction k with
  | zero => intro m; exact ⟨fun h => (wr_done h).elim, fun h => absurd rfl h.1⟩
  | succ k ih =>
    intro m
    unfold extendSets
    rw [wr_read, wr_write, wr_write, ih, Cells.set_same]
    constructor
    · rintro (h | h | ⟨h0, h | ⟨j, h1, h2, h⟩⟩)
      · exact ⟨by omega, .inr ⟨m .sets, Nat.le_refl _, Nat.lt_add_of_pos_right (by omega), h⟩⟩
      · exact ⟨by omega, .inl h⟩
      · exact ⟨by omega, .inl h⟩
      · refine ⟨by omega, .inr ⟨j, ?_, ?_, h⟩⟩
        · exact Nat.le_trans (Nat.le_succ _) h1
        · rw [show (m .sets : Nat) + (k + 1) = (m .sets : Nat) + 1 + k from by rw [Nat.add_assoc, Nat.add_comm k]]; exact h2
    · rintro ⟨-, h | ⟨j, h1, h2, h⟩⟩
      · exact .inr (.inl h)
      · by_cases hj : j = (m .sets : Nat)
        · subst hj; exact .inl h
        · have h1' : (m .sets : Nat) + 1 ≤ j := Nat.lt_of_le_of_ne h1 (Ne.symm hj)
          have h2' : j < (m .sets : Nat) + 1 + k := by
            rw [show (m .sets : Nat) + (k + 1) = (m .sets : Nat) + 1 + k from by rw [Nat.add_assoc, Nat.add_comm k]] at h2
            exact h2
          refine .inr (.inr ⟨?_, .inr ⟨j, h1', h2', h⟩⟩)
          rintro rfl
          exact absurd h2' (Nat.not_lt.2 h1')

theorem us_extendSets (k : Nat) : ∀ {m : Cells TLoc TVal}, (extendSets k).Us m l ↔ (extendSets k).Wr m l := by
  induction k with
  | zero => intro m; exact ⟨fun h => (us_done h).elim, fun h => (wr_done h).elim⟩
  | succ k ih =>
    intro m
    unfold extendSets
    rw [us_read, us_write, us_write, wr_read, wr_write, wr_write, ih]
    exact ⟨fun h => h.elim (fun h => .inr (.inl h)) id, .inr⟩

theorem wr_extendColls (k : Nat) : ∀ {m : Cells TLoc TVal}, (extendColls k).Wr m l ↔
    k ≠ 0 ∧ (l = .colls ∨ ∃ j, (m .colls : Nat) ≤ j ∧ j < (m .colls : Nat) + k ∧ l = .collTable j) := by
  induction k with
  | zero => intro m; exact ⟨fun h => (wr_done h).elim, fun h => absurd rfl h.1⟩
  | succ k ih =>
    intro m
    unfold extendColls
    rw [wr_read, wr_write, wr_write, ih, Cells.set_same]
    constructor
    · rintro (h | h | ⟨h0, h | ⟨j, h1, h2, h⟩⟩)
      · exact ⟨by omega, .inr ⟨m .colls, Nat.le_refl _, Nat.lt_add_of_pos_right (by omega), h⟩⟩
      · exact ⟨by omega, .inl h⟩
      · exact ⟨by omega, .inl h⟩
      · refine ⟨by omega, .inr ⟨j, ?_, ?_, h⟩⟩
        · exact Nat.le_trans (Nat.le_succ _) h1
        · rw [show (m .colls : Nat) + (k + 1) = (m .colls : Nat) + 1 + k from by rw [Nat.add_assoc, Nat.add_comm k]]; exact h2
    · rintro ⟨-, h | ⟨j, h1, h2, h⟩⟩
      · exact .inr (.inl h)
      · by_cases hj : j = (m .colls : Nat)
        · subst hj; exact .inl h
        · have h1' : (m .colls : Nat) + 1 ≤ j := Nat.lt_of_le_of_ne h1 (Ne.symm hj)
          have h2' : j < (m .colls : Nat) + 1 + k := by
            rw [show (m .colls : Nat) + (k + 1) = (m .colls : Nat) + 1 + k from by rw [Nat.add_assoc, Nat.add_comm k]] at h2
            exact h2
          refine .inr (.inr ⟨?_, .inr ⟨j, h1', h2', h⟩⟩)
          rintro rfl
          exact absurd h2' (Nat.not_lt.2 h1')

theorem us_extendColls (k : Nat) : ∀ {m : Cells TLoc TVal}, (extendColls k).Us m l ↔ (extendColls k).Wr m l := by
  induction k with
  | zero => intro m; exact ⟨fun h => (us_done h).elim, fun h => (wr_done h).elim⟩
  | succ k ih =>
    intro m
    unfold extendColls
    rw [us_read, us_write, us_write, wr_read, wr_write, wr_write, ih]
    exact ⟨fun h => h.elim (fun h => .inr (.inl h)) id, .inr⟩

/-- What storing a tag set writes. -/
theorem wr_setIndex {ts : TagSetIndex} (hm : m = setSets m ts) (item : TagSet) : (setIndex item).Wr m l ↔
    item ≠ [] ∧ ((ts.length < item.length ∧ (l = .sets ∨ ∃ j, ts.length ≤ j ∧ j < item.length ∧ l = .setTable j)) ∨
      (sortAsc item ∉ ts.getD (item.length - 1) [] ∧ l = .setTable (item.length - 1))) := by
  by_cases h : item.length = 0
  · unfold setIndex
    rw [if_pos h]
    exact ⟨fun h => (wr_done h).elim, fun h' => absurd (List.length_eq_zero_iff.1 h) h'.1⟩
  have h1 : m .sets = ts.length := by rw [hm]; rfl
  have hne : item ≠ [] := fun e => h (by rw [e]; rfl)
  rw [setIndex_eq h, wr_read, wr_bind, and_iff_right hne]
  refine or_congr ?_ ?_
  · rw [h1]
    split
    · rename_i hc
      rw [wr_read, wr_extendSets, h1]
      have e : ts.length + (item.length - 1 + 1 - ts.length) = item.length := by
        have : item.length - 1 ≥ ts.length := hc
        omega
      have hlt : ts.length < item.length := by
        have : item.length - 1 ≥ ts.length := hc
        omega
      have e' : ((show Nat from ts.length) + (item.length - 1 + 1 - ts.length) : Nat) = item.length := e
      rw [e']
      exact ⟨fun h => ⟨hlt, h.2⟩, fun h => ⟨by omega, h.2⟩⟩
    · rename_i hc
      refine ⟨fun h => (wr_done h).elim, fun h' => absurd h'.1 ?_⟩
      have : ¬ item.length - 1 ≥ ts.length := hc
      omega
  · rw [alone_moreSets hm]
    simp only
    unfold setIndexRest
    have h2 : setSets m (extendTables ts (item.length - 1)) (.setTable (item.length - 1)) = ts.getD (item.length - 1) [] :=
      getD_extendTables ts _ _
    rw [wr_read, if_neg (show ¬ setSets m (extendTables ts (item.length - 1)) .sets ≤ item.length - 1 from Nat.not_le.2 (length_extendTables _ _)),
      wr_read, h2]
    cases hf : TagSetTable.find (ts.getD (item.length - 1) []) (sortAsc item) with
    | some sub =>
      refine ⟨fun h => (wr_done h).elim, fun h' => absurd ?_ h'.1⟩
      unfold TagSetTable.find at hf
      cases hs : findSet (ts.getD (item.length - 1) []) (sortAsc item) with
      | none => rw [hs] at hf; cases hf
      | some i => exact List.mem_of_getElem? (findSet_some hs)
    | none =>
      simp only
      rw [wr_read, wr_read, wr_write]
      refine ⟨fun h => ⟨fun hmem => ?_, h.resolve_right wr_done⟩, fun h => .inl h.2⟩
      obtain ⟨i, hi⟩ := findSet_of_mem hmem
      unfold TagSetTable.find at hf
      rw [hi] at hf
      cases hf

/-- What storing a tag set uses. -/
theorem us_setIndex {ts : TagSetIndex} (hm : m = setSets m ts) (item : TagSet) : (setIndex item).Us m l ↔
    item ≠ [] ∧ (l = .sets ∨ l = .setTable (item.length - 1) ∨ ∃ j, ts.length ≤ j ∧ j < item.length ∧ l = .setTable j) := by
  by_cases h : item.length = 0
  · unfold setIndex
    rw [if_pos h]
    exact ⟨fun h => (us_done h).elim, fun h' => absurd (List.length_eq_zero_iff.1 h) h'.1⟩
  have h1 : m .sets = ts.length := by rw [hm]; rfl
  have hne : item ≠ [] := fun e => h (by rw [e]; rfl)
  constructor
  · intro hu
    refine ⟨hne, ?_⟩
    rw [setIndex_eq h, us_read, us_bind] at hu
    rcases hu with hu | hu | hu
    · exact .inl hu
    · rw [h1] at hu
      split at hu
      · rename_i hc
        rw [us_read, us_extendSets, wr_extendSets, h1] at hu
        rcases hu with hu | ⟨-, hu | ⟨j, hj1, hj2, hu⟩⟩
        · exact .inl hu
        · exact .inl hu
        · refine .inr (.inr ⟨j, hj1, ?_, hu⟩)
          have h3 : item.length - 1 ≥ ts.length := hc
          exact Nat.lt_of_lt_of_eq hj2
            (show ts.length + (item.length - 1 + 1 - ts.length) = item.length by omega)
      · exact (us_done hu).elim
    · rw [alone_moreSets hm] at hu
      simp only at hu
      unfold setIndexRest at hu
      rw [us_read, if_neg (show ¬ setSets m (extendTables ts (item.length - 1)) .sets ≤ item.length - 1 from Nat.not_le.2 (length_extendTables _ _)),
        us_read] at hu
      rcases hu with hu | hu | hu
      · exact .inl hu
      · exact .inr (.inl hu)
      · split at hu
        · exact (us_done hu).elim
        · rw [us_read, us_read, us_write] at hu
          rcases hu with hu | hu | hu | hu
          · exact .inr (.inl hu)
          · exact .inr (.inl hu)
          · exact .inr (.inl hu)
          · exact (us_done hu).elim
  · rintro ⟨-, hu | hu | ⟨j, hj1, hj2, hu⟩⟩
    · rw [setIndex_eq h, us_read]
      exact .inl hu
    · rw [setIndex_eq h, us_read, us_bind]
      right; right
      rw [alone_moreSets hm]
      simp only
      unfold setIndexRest
      rw [us_read, if_neg (show ¬ setSets m (extendTables ts (item.length - 1)) .sets ≤ item.length - 1 from Nat.not_le.2 (length_extendTables _ _)),
        us_read]
      exact .inr (.inl hu)
    · exact us_of_wr ((wr_setIndex hm item).2 ⟨hne, .inl ⟨by omega, .inr ⟨j, hj1, hj2, hu⟩⟩⟩)

/-- What storing a collection writes. -/
theorem wr_collIndex {ts : VariantsIndex} (hm : m = setColls m ts) (item : Coll) : (collIndex item).Wr m l ↔
    item ≠ [] ∧ ((ts.length ≤ collCol item ∧ (l = .colls ∨ ∃ j, ts.length ≤ j ∧ j ≤ collCol item ∧ l = .collTable j)) ∨
      (sortAsc (sortAsc item) ∉ ts.getD (collCol item) [] ∧ l = .collTable (collCol item))) := by
  by_cases h : item.length = 0
  · unfold collIndex
    rw [if_pos h]
    exact ⟨fun h => (wr_done h).elim, fun h' => absurd (List.length_eq_zero_iff.1 h) h'.1⟩
  have h1 : m .colls = ts.length := by rw [hm]; rfl
  have hne : item ≠ [] := fun e => h (by rw [e]; rfl)
  rw [collIndex_eq h, wr_read, wr_bind, and_iff_right hne]
  generalize collCol item = col
  refine or_congr ?_ ?_
  · rw [h1]
    split
    · rename_i hc
      have hc' : ts.length ≤ col := hc
      rw [wr_read, wr_extendColls, h1]
      have e' : ((show Nat from ts.length) + (col + 1 - ts.length) : Nat) = col + 1 :=
        Nat.add_sub_cancel' (show ts.length ≤ col + 1 by omega)
      rw [e']
      constructor
      · rintro ⟨-, h | ⟨j, h1, h2, h⟩⟩
        · exact ⟨hc', .inl h⟩
        · exact ⟨hc', .inr ⟨j, h1, Nat.le_of_lt_succ h2, h⟩⟩
      · rintro ⟨-, h | ⟨j, h1, h2, h⟩⟩
        · exact ⟨by omega, .inl h⟩
        · exact ⟨by omega, .inr ⟨j, h1, Nat.lt_succ_of_le h2, h⟩⟩
    · rename_i hc
      exact ⟨fun h => (wr_done h).elim, fun h' => absurd h'.1 hc⟩
  · rw [alone_moreColls hm]
    simp only
    unfold collIndexRest
    have h2 : setColls m (extendTables ts col) (.collTable col) = ts.getD col [] := getD_extendTables ts _ _
    rw [wr_read, if_neg (show ¬ setColls m (extendTables ts col) .colls ≤ col from Nat.not_le.2 (length_extendTables _ _)),
      wr_read, h2]
    cases hf : VariantsTable.find (ts.getD col []) (sortAsc (sortAsc item)) with
    | some sub =>
      refine ⟨fun h => (wr_done h).elim, fun h' => absurd ?_ h'.1⟩
      unfold VariantsTable.find at hf
      cases hs : findSet (ts.getD col []) (sortAsc (sortAsc item)) with
      | none => rw [hs] at hf; cases hf
      | some i => exact List.mem_of_getElem? (findSet_some hs)
    | none =>
      simp only
      rw [wr_read, wr_read, wr_write]
      refine ⟨fun h => ⟨fun hmem => ?_, h.resolve_right wr_done⟩, fun h => .inl h.2⟩
      obtain ⟨i, hi⟩ := findSet_of_mem hmem
      unfold VariantsTable.find at hf
      rw [hi] at hf
      cases hf

/-- What storing a collection uses. -/
theorem us_collIndex {ts : VariantsIndex} (hm : m = setColls m ts) (item : Coll) : (collIndex item).Us m l ↔
    item ≠ [] ∧ (l = .colls ∨ l = .collTable (collCol item) ∨ ∃ j, ts.length ≤ j ∧ j ≤ collCol item ∧ l = .collTable j) := by
  by_cases h : item.length = 0
  · unfold collIndex
    rw [if_pos h]
    exact ⟨fun h => (us_done h).elim, fun h' => absurd (List.length_eq_zero_iff.1 h) h'.1⟩
  have h1 : m .colls = ts.length := by rw [hm]; rfl
  have hne : item ≠ [] := fun e => h (by rw [e]; rfl)
  constructor
  · intro hu
    refine ⟨hne, ?_⟩
    rw [collIndex_eq h, us_read, us_bind] at hu
    rcases hu with hu | hu | hu
    · exact .inl hu
    · rw [h1] at hu
      split at hu
      · rename_i hc
        rw [us_read, us_extendColls, wr_extendColls, h1] at hu
        rcases hu with hu | ⟨-, hu | ⟨j, hj1, hj2, hu⟩⟩
        · exact .inl hu
        · exact .inl hu
        · refine .inr (.inr ⟨j, hj1, ?_, hu⟩)
          have h3 : ts.length ≤ collCol item := hc
          exact Nat.le_of_lt_succ (Nat.lt_of_lt_of_eq hj2
            (show ts.length + (collCol item + 1 - ts.length) = collCol item + 1 by omega))
      · exact (us_done hu).elim
    · rw [alone_moreColls hm] at hu
      simp only at hu
      unfold collIndexRest at hu
      rw [us_read, if_neg (show ¬ setColls m (extendTables ts (collCol item)) .colls ≤ collCol item from Nat.not_le.2 (length_extendTables _ _)),
        us_read] at hu
      rcases hu with hu | hu | hu
      · exact .inl hu
      · exact .inr (.inl hu)
      · split at hu
        · exact (us_done hu).elim
        · rw [us_read, us_read, us_write] at hu
          rcases hu with hu | hu | hu | hu
          · exact .inr (.inl hu)
          · exact .inr (.inl hu)
          · exact .inr (.inl hu)
          · exact (us_done hu).elim
  · rintro ⟨-, hu | hu | ⟨j, hj1, hj2, hu⟩⟩
    · rw [collIndex_eq h, us_read]
      exact .inl hu
    · rw [collIndex_eq h, us_read, us_bind]
      right; right
      rw [alone_moreColls hm]
      simp only
      unfold collIndexRest
      rw [us_read, if_neg (show ¬ setColls m (extendTables ts (collCol item)) .colls ≤ collCol item from Nat.not_le.2 (length_extendTables _ _)),
        us_read]
      exact .inr (.inl hu)
    · exact us_of_wr ((wr_collIndex hm item).2 ⟨hne, .inl ⟨by omega, .inr ⟨j, hj1, hj2, hu⟩⟩⟩)

/-- The last part of `AddTagSet`. -/
def addRest (id : ID) (c : Coll) (ts : TagSetID) : TProg (Out Unit) :=
  .read (.variants id) fun v =>
    (if v = 0 then .read .count fun n => .write .count (n + 1) (.done ()) else .done () : TProg Unit).bind fun _ =>
    (collIndex (Coll.add c ts)).bind fun
      | .ok v => .write (.variants id) v (.done (.ok ()))
      | _ => .done .panic

theorem alone_count (ix : Index) (ts : TagSetIndex) (v : VariantID) :
    (if v = 0 then .read .count fun n => .write .count (n + 1) (.done ()) else .done () : TProg Unit).alone
        (setSets (memOf ix) ts) =
      (memOf { ix with tagSets := ts, wordsCount := if v = 0 then ix.wordsCount + 1 else ix.wordsCount }, ()) := by
  split
  · refine Prod.ext ?_ rfl
    funext l
    cases l <;> rfl
  · refine Prod.ext ?_ rfl
    funext l
    cases l <;> rfl

theorem wr_addRest (ix : Index) {id : ID} {item : Item} (hi : ix.items.get id = some item) (ts : TagSetIndex) (c : Coll)
    (tsID : TagSetID) : (addRest id c tsID).Wr (setSets (memOf ix) ts) l ↔
      (item.variants = 0 ∧ l = .count) ∨ (collIndex (Coll.add c tsID)).Wr (memOf ix) l ∨ l = .variants id := by
  have hv : setSets (memOf ix) ts (.variants id) = item.variants := by
    show ((ix.items.get id).map (·.variants)).getD 0 = _
    rw [hi]; rfl
  unfold addRest
  rw [wr_read, hv, wr_bind, alone_count]
  simp only
  rw [wr_bind, alone_collIndex (ts := ix.collectionIdx) (by funext l; cases l <;> rfl), wr_collIndex (ts := ix.collectionIdx)
    (by funext l; cases l <;> rfl), wr_collIndex (ts := ix.collectionIdx) (by funext l; cases l <;> rfl)]
  simp only
  rw [wr_write]
  refine or_congr ?_ (or_congr Iff.rfl ⟨fun h => h.resolve_right wr_done, .inl⟩)
  split
  · rename_i h
    rw [wr_read, wr_write]
    exact ⟨fun h' => ⟨h, h'.resolve_right wr_done⟩, fun h' => .inl h'.2⟩
  · rename_i h
    exact ⟨fun h' => (wr_done h').elim, fun h' => absurd h'.1 h⟩

theorem us_addRest (ix : Index) {id : ID} {item : Item} (hi : ix.items.get id = some item) (ts : TagSetIndex) (c : Coll)
    (tsID : TagSetID) : (addRest id c tsID).Us (setSets (memOf ix) ts) l ↔
      l = .variants id ∨ (item.variants = 0 ∧ l = .count) ∨ (collIndex (Coll.add c tsID)).Us (memOf ix) l := by
  have hv : setSets (memOf ix) ts (.variants id) = item.variants := by
    show ((ix.items.get id).map (·.variants)).getD 0 = _
    rw [hi]; rfl
  unfold addRest
  rw [us_read, hv, us_bind, alone_count]
  simp only
  rw [us_bind, alone_collIndex (ts := ix.collectionIdx) (by funext l; cases l <;> rfl), us_collIndex (ts := ix.collectionIdx)
    (by funext l; cases l <;> rfl), us_collIndex (ts := ix.collectionIdx) (by funext l; cases l <;> rfl)]
  simp only
  rw [us_write]
  have e : (if item.variants = 0 then .read .count fun n => .write .count (n + 1) (.done ()) else .done () : TProg Unit).Us
      (setSets (memOf ix) ts) l ↔ item.variants = 0 ∧ l = .count := by
    split
    · rename_i h
      rw [us_read, us_write]
      exact ⟨fun h' => ⟨h, h'.elim (fun h => h) fun h' => h'.resolve_right us_done⟩, fun h' => .inl h'.2⟩
    · rename_i h
      exact ⟨fun h' => (us_done h').elim, fun h' => absurd h'.1 h⟩
  rw [e]
  constructor
  · rintro (h | h | h | h | h)
    · exact .inl h
    · exact .inr (.inl h)
    · exact .inr (.inr h)
    · exact .inl h
    · exact (us_done h).elim
  · rintro (h | h | h)
    · exact .inl h
    · exact .inr (.inl h)
    · exact .inr (.inr (.inl h))

theorem addTagSet_eq (its : Items) (id : ID) (names : List Str) : addTagSet its id names =
    (findAll names).bind fun
    | .error n => .done (.err (.unknownTag n))
    | .ok set =>
      if (its.get id).isNone then .done .panic
      else .read (.variants id) fun v => (collGet v).bind fun
        | .ok c => (setIndex set).bind fun
          | .ok ts => addRest id c ts
          | _ => .done .panic
        | _ => .done .panic := rfl

theorem wr_addTagSet (ix : Index) (id : ID) (names : List Str) : (addTagSet ix.items id names).Wr (memOf ix) l ↔
    ∃ s item c, Tags ix id names s item c ∧ ((setIndex s).Wr (memOf ix) l ∨ (item.variants = 0 ∧ l = .count) ∨
      (collIndex (Coll.add c (ix.tagSets.index s).2)).Wr (memOf ix) l ∨ l = .variants id) := by
  rw [addTagSet_eq, wr_bind, alone_findAll, or_iff_right (wr_findAll _)]
  cases hf : Index.findAll (memOf ix .tags) names with
  | error n =>
    refine ⟨fun h => (wr_done h).elim, ?_⟩
    rintro ⟨s, item, c, ⟨h1, -⟩, -⟩
    rw [show Index.findAll ix.tags names = .error n from hf] at h1
    cases h1
  | ok set =>
    simp only
    cases hi : ix.items.get id with
    | none =>
      rw [if_pos (show (none : Option Item).isNone = true from rfl)]
      refine ⟨fun h => (wr_done h).elim, ?_⟩
      rintro ⟨s, item, c, ⟨-, h1, -⟩, -⟩
      rw [hi] at h1
      cases h1
    | some item =>
      have hv : memOf ix (.variants id) = item.variants := by
        show ((ix.items.get id).map (·.variants)).getD 0 = _
        rw [hi]; rfl
      rw [if_neg (by simp), wr_read, hv, wr_bind, or_iff_right (wr_collGet _), alone_collGet (setColls_self ix).symm]
      have main : ∀ c, ix.collectionIdx.get item.variants = .ok c → ∀ s i' c', Tags ix id names s i' c' → s = set ∧ i' = item ∧ c' = c := by
        rintro c hc s i' c' ⟨h1, h2, h3⟩
        rw [show Index.findAll ix.tags names = .ok set from hf] at h1
        rw [hi] at h2
        cases h1
        cases h2
        rw [hc] at h3
        cases h3
        exact ⟨rfl, rfl, rfl⟩
      cases hg : ix.collectionIdx.get item.variants with
      | ok c =>
        simp only
        rw [wr_bind, alone_setIndex (setSets_self ix).symm]
        simp only
        rw [wr_addRest ix hi]
        constructor
        · exact fun h => ⟨set, item, c, ⟨hf, hi, hg⟩, h⟩
        · rintro ⟨s, i', c', ht, h⟩
          obtain ⟨rfl, rfl, rfl⟩ := main c hg s i' c' ht
          exact h
      | _ =>
        refine ⟨fun h => (wr_done h).elim, ?_⟩
        rintro ⟨s, i', c', ⟨h1, h2, h3⟩, -⟩
        rw [hi] at h2
        cases h2
        rw [hg] at h3
        cases h3

theorem us_addTagSet (ix : Index) (id : ID) (names : List Str) : (addTagSet ix.items id names).Us (memOf ix) l ↔
    (names ≠ [] ∧ l = .tags) ∨
    (∃ s item, Index.findAll ix.tags names = .ok s ∧ ix.items.get id = some item ∧
      (l = .variants id ∨ (collGet item.variants).Us (memOf ix) l)) ∨
    ∃ s item c, Tags ix id names s item c ∧ ((setIndex s).Us (memOf ix) l ∨ (item.variants = 0 ∧ l = .count) ∨
      (collIndex (Coll.add c (ix.tagSets.index s).2)).Us (memOf ix) l) := by
  rw [addTagSet_eq, us_bind, alone_findAll, us_findAll]
  refine or_congr Iff.rfl ?_
  cases hf : Index.findAll (memOf ix .tags) names with
  | error n =>
    refine ⟨fun h => (us_done h).elim, ?_⟩
    rintro (⟨s, item, h1, -⟩ | ⟨s, item, c, ⟨h1, -⟩, -⟩) <;>
    · rw [show Index.findAll ix.tags names = .error n from hf] at h1
      cases h1
  | ok set =>
    simp only
    cases hi : ix.items.get id with
    | none =>
      rw [if_pos (show (none : Option Item).isNone = true from rfl)]
      refine ⟨fun h => (us_done h).elim, ?_⟩
      rintro (⟨s, item, -, h1, -⟩ | ⟨s, item, c, ⟨-, h1, -⟩, -⟩)
      · cases h1
      · rw [hi] at h1
        cases h1
    | some item =>
      have hv : memOf ix (.variants id) = item.variants := by
        show ((ix.items.get id).map (·.variants)).getD 0 = _
        rw [hi]; rfl
      rw [if_neg (by simp), us_read, hv, us_bind, alone_collGet (setColls_self ix).symm]
      have first : (l = .variants id ∨ (collGet item.variants).Us (memOf ix) l) ↔
          ∃ s i', Index.findAll ix.tags names = .ok s ∧ some item = some i' ∧
            (l = .variants id ∨ (collGet i'.variants).Us (memOf ix) l) := by
        constructor
        · exact fun h => ⟨set, item, hf, rfl, h⟩
        · rintro ⟨s, i', -, h2, h⟩
          cases h2
          exact h
      rw [← first, ← or_assoc]
      cases hg : ix.collectionIdx.get item.variants with
      | ok c =>
        simp only
        rw [us_bind, alone_setIndex (setSets_self ix).symm]
        simp only
        rw [us_addRest ix hi]
        constructor
        · rintro (h | h | h | h | h)
          · exact .inl h
          · exact .inr ⟨set, item, c, ⟨hf, hi, hg⟩, .inl h⟩
          · exact .inl (.inl h)
          · exact .inr ⟨set, item, c, ⟨hf, hi, hg⟩, .inr (.inl h)⟩
          · exact .inr ⟨set, item, c, ⟨hf, hi, hg⟩, .inr (.inr h)⟩
        · rintro (h | ⟨s, i', c', ⟨h1, h2, h3⟩, h⟩)
          · exact .inl h
          · rw [show Index.findAll ix.tags names = .ok set from hf] at h1
            rw [hi] at h2
            cases h1
            cases h2
            rw [hg] at h3
            cases h3
            rcases h with h | h | h
            · exact .inr (.inl h)
            · exact .inr (.inr (.inr (.inl h)))
            · exact .inr (.inr (.inr (.inr h)))
      | _ =>
        constructor
        · rintro (h | h)
          · exact .inl h
          · exact (us_done h).elim
        · rintro (h | ⟨s, i', c', ⟨h1, h2, h3⟩, -⟩)
          · exact .inl h
          · rw [hi] at h2
            cases h2
            rw [hg] at h3
            cases h3

theorem wr_setGet (id : TagSetID) : ¬ (setGet id).Wr m l := by
  unfold setGet
  rw [wr_read]
  split
  · exact wr_done
  · rw [wr_read]; exact wr_done

theorem us_setGet (id : TagSetID) : (setGet id).Us m l ↔ l = .sets ∨
    ((tagSetTableNumber id).toNat < (m .sets : Nat) ∧ l = .setTable (tagSetTableNumber id).toNat) := by
  unfold setGet
  rw [us_read]
  refine or_congr Iff.rfl ?_
  split
  · rename_i h
    exact ⟨fun h => (us_done h).elim, fun h' => absurd h'.1 (Nat.not_lt.2 h)⟩
  · rename_i h
    rw [us_read]
    exact ⟨fun h' => ⟨Nat.lt_of_not_le h, h'.resolve_right us_done⟩, fun h' => .inl h'.2⟩

theorem wr_tagsOf (ids : TagSet) : ¬ (tagsOf ids).Wr m l := by
  induction ids with
  | nil => exact wr_done
  | cons t rest ih =>
    unfold tagsOf
    rw [wr_read, wr_bind]
    rintro (h | h)
    · exact ih h
    · exact wr_done h

theorem us_tagsOf (ids : TagSet) : (tagsOf ids).Us m l ↔ ids ≠ [] ∧ l = .tags := by
  induction ids with
  | nil => exact ⟨fun h => (us_done h).elim, fun h => absurd rfl h.1⟩
  | cons t rest ih =>
    unfold tagsOf
    rw [us_read, us_bind]
    constructor
    · rintro (h | h | h)
      · exact ⟨by simp, h⟩
      · exact ⟨by simp, (ih.1 h).2⟩
      · exact (us_done h).elim
    · exact fun h => .inl h.2

theorem wr_readingsOf (c : Coll) : ∀ {m : Cells TLoc TVal}, ¬ (readingsOf c).Wr m l := by
  induction c with
  | nil => exact wr_done
  | cons id rest ih =>
    intro m
    unfold readingsOf
    rw [wr_bind]
    rintro (h | h)
    · exact wr_setGet _ h
    · split at h
      · exact wr_done h
      · rw [wr_bind, wr_bind] at h
        rcases h with h | h | h
        · exact wr_tagsOf _ h
        · exact ih h
        · exact wr_done h

/-- The readings are read one after the other until one is missing. -/
theorem us_readingsOf (ix : Index) (c : Coll) : (readingsOf c).Us (memOf ix) l ↔ ∃ pre ts post, c = pre ++ ts :: post ∧
    (∀ a ∈ pre, ∃ s, ix.tagSets.get a = some s) ∧ ((setGet ts).Us (memOf ix) l ∨
      ∃ s, ix.tagSets.get ts = some s ∧ s ≠ [] ∧ l = .tags) := by
  induction c with
  | nil =>
    refine ⟨fun h => (us_done h).elim, ?_⟩
    rintro ⟨pre, ts, post, h, -⟩
    simp at h
  | cons id rest ih =>
    unfold readingsOf
    rw [us_bind, alone_setGet]
    cases hs : ix.tagSets.get id with
    | none =>
      constructor
      · rintro (h | h)
        · exact ⟨[], id, rest, rfl, fun a ha => (by cases ha), .inl h⟩
        · exact (us_done h).elim
      · rintro ⟨pre, ts, post, he, hp, h⟩
        cases pre with
        | nil =>
          obtain ⟨rfl, rfl⟩ := List.cons.inj he
          rcases h with h | ⟨s, h, -⟩
          · exact .inl h
          · rw [hs] at h; cases h
        | cons a pre =>
          obtain ⟨rfl, -⟩ := List.cons.inj he
          obtain ⟨s, h⟩ := hp id List.mem_cons_self
          rw [hs] at h
          cases h
    | some s =>
      simp only
      rw [us_bind, alone_tagsOf, us_tagsOf, us_bind, ih]
      constructor
      · rintro (h | h | ⟨pre, ts, post, rfl, hp, h⟩ | h)
        · exact ⟨[], id, rest, rfl, fun a ha => (by cases ha), .inl h⟩
        · exact ⟨[], id, rest, rfl, fun a ha => (by cases ha), .inr ⟨s, hs, h⟩⟩
        · refine ⟨id :: pre, ts, post, rfl, fun a ha => ?_, h⟩
          rcases List.mem_cons.1 ha with rfl | ha
          · exact ⟨s, hs⟩
          · exact hp a ha
        · exact (us_done h).elim
      · rintro ⟨pre, ts, post, he, hp, h⟩
        cases pre with
        | nil =>
          obtain ⟨rfl, rfl⟩ := List.cons.inj he
          rcases h with h | ⟨s', h', h⟩
          · exact .inl h
          · rw [hs] at h'
            cases h'
            exact .inr (.inl h)
        | cons a pre =>
          obtain ⟨rfl, rfl⟩ := List.cons.inj he
          exact .inr (.inr (.inl ⟨pre, ts, post, rfl, fun a ha => hp a (List.mem_cons_of_mem _ ha), h⟩))

theorem wr_tagSets (ix : Index) (id : ID) : ¬ (tagSets ix.items id).Wr m l := by
  unfold tagSets
  split
  · exact wr_done
  · rw [wr_read, wr_bind]
    rintro (h | h)
    · exact wr_collGet _ h
    · split at h
      · rw [wr_bind] at h
        rcases h with h | h
        · exact wr_readingsOf _ h
        · exact wr_done h
      · exact wr_done h

theorem us_tagSets (ix : Index) (id : ID) {item : Item} (hi : ix.items.get id = some item) {c : Coll}
    (hc : ix.collectionIdx.get item.variants = .ok c) : (tagSets ix.items id).Us (memOf ix) l ↔
      l = .variants id ∨ (collGet item.variants).Us (memOf ix) l ∨ (readingsOf c).Us (memOf ix) l := by
  unfold tagSets
  have hv : memOf ix (.variants id) = item.variants := by
    show ((ix.items.get id).map (·.variants)).getD 0 = _
    rw [hi]; rfl
  rw [hi, if_neg (by simp), us_read, us_bind, hv, alone_collGet (setColls_self ix).symm, hc]
  simp only
  rw [us_bind]
  exact or_congr Iff.rfl (or_congr Iff.rfl ⟨fun h => h.resolve_right us_done, .inl⟩)

theorem us_tagSets_none (ix : Index) (id : ID) (hi : ix.items.get id = none) : ¬ (tagSets ix.items id).Us m l := by
  unfold tagSets
  rw [hi]
  exact us_done

theorem wr_childrenIDMap (p : ID) : (childrenIDMap p).Wr m l ↔ m .outer p = false ∧ l = .outer := by
  unfold childrenIDMap
  rw [wr_read, wr_bind, wr_read, wr_read]
  rw [or_iff_left wr_done]
  split
  · rename_i h
    exact ⟨fun h => (wr_done h).elim, fun h' => by rw [h] at h'; cases h'.1⟩
  · rename_i h
    rw [wr_read, wr_write]
    exact ⟨fun h' => ⟨by simpa using h, h'.resolve_right wr_done⟩, fun h' => .inl h'.2⟩

theorem us_childrenIDMap (p : ID) : (childrenIDMap p).Us m l ↔ l = .outer ∨ l = .kids p := by
  unfold childrenIDMap
  rw [us_read, us_bind, us_read, us_read]
  constructor
  · rintro (h | h | h | h | h)
    · exact .inl h
    · split at h
      · exact (us_done h).elim
      · rw [us_read, us_write] at h
        rcases h with h | h | h
        · exact .inl h
        · exact .inl h
        · exact (us_done h).elim
    · exact .inl h
    · exact .inr h
    · exact (us_done h).elim
  · rintro (h | h)
    · exact .inl h
    · exact .inr (.inr (.inr (.inl h)))

theorem us_tagSets_bad (ix : Index) (id : ID) {item : Item} (hi : ix.items.get id = some item)
    (hc : ∀ c, ix.collectionIdx.get item.variants ≠ .ok c) : (tagSets ix.items id).Us (memOf ix) l ↔
      l = .variants id ∨ (collGet item.variants).Us (memOf ix) l := by
  unfold tagSets
  have hv : memOf ix (.variants id) = item.variants := by
    show ((ix.items.get id).map (·.variants)).getD 0 = _
    rw [hi]; rfl
  rw [hi, if_neg (by simp), us_read, us_bind, hv, alone_collGet (setColls_self ix).symm]
  cases hg : ix.collectionIdx.get item.variants with
  | ok c => exact absurd hg (hc c)
  | _ => exact or_congr Iff.rfl (or_iff_left us_done)

theorem kids_ensure (ix : Index) (p : ID) : (ix.getChildrenIDMap p).1.getChildrenMap = ix.getChildrenMap := by
  funext a
  unfold Index.getChildrenIDMap Index.getChildrenMap Index.ensureChildren
  cases hp : ix.childrenMap p with
  | some im => rfl
  | none =>
    show Option.getD (if a = p then _ else _) _ = _
    by_cases h : a = p
    · rw [if_pos h, h, hp]; rfl
    · rw [if_neg h]

theorem snd_ensure (ix : Index) (p : ID) : (ix.getChildrenIDMap p).2 = ix.getChildrenMap p := by
  rw [← kids_ensure ix p]; rfl

theorem none_ensure (ix : Index) (p q : ID) : (ix.getChildrenIDMap p).1.childrenMap q = none ↔ q ≠ p ∧ ix.childrenMap q = none := by
  unfold Index.getChildrenIDMap Index.ensureChildren
  cases hp : ix.childrenMap p with
  | some im =>
    refine ⟨fun h => ⟨?_, h⟩, fun h => h.2⟩
    rintro rfl
    rw [hp] at h
    cases h
  | none =>
    show (if q = p then _ else _) = none ↔ _
    by_cases h : q = p
    · rw [if_pos h]; exact ⟨fun h => (by cases h), fun h' => absurd h h'.1⟩
    · rw [if_neg h]; exact ⟨fun h' => ⟨h, h'⟩, fun h' => h'.2⟩

theorem wr_fetch (rs : List Rune) : ∀ (ix : Index) (p : ID), (fetch ix p rs).Wr (memOf ix) l ↔
    l = .outer ∧ ∃ a ∈ visited ix.getChildrenMap p rs, ix.childrenMap a = none := by
  induction rs with
  | nil =>
    intro ix p
    refine ⟨fun h => (wr_done h).elim, ?_⟩
    rintro ⟨-, a, ha, -⟩
    cases ha
  | cons r rest ih =>
    intro ix p
    unfold fetch visited
    rw [wr_bind, alone_childrenIDMap, wr_childrenIDMap]
    simp only
    rw [snd_ensure]
    have h0 : memOf ix .outer p = false ↔ ix.childrenMap p = none := by
      show (ix.childrenMap p).isSome = false ↔ _
      cases ix.childrenMap p <;> simp
    rw [h0]
    cases hk : ix.getChildrenMap p r with
    | none =>
      simp only
      constructor
      · rintro (h | h)
        · exact ⟨h.2, p, List.mem_cons_self, h.1⟩
        · exact (wr_done h).elim
      · rintro ⟨h, a, ha, hn⟩
        cases List.mem_singleton.1 ha
        exact .inl ⟨hn, h⟩
    | some next =>
      simp only
      by_cases hr : rest = []
      · rw [if_pos hr, if_pos hr]
        constructor
        · rintro (h | h)
          · exact ⟨h.2, p, List.mem_cons_self, h.1⟩
          · exact (wr_done h).elim
        · rintro ⟨h, a, ha, hn⟩
          cases List.mem_singleton.1 ha
          exact .inl ⟨hn, h⟩
      · rw [if_neg hr, if_neg hr, ← fetch_map ix (ix.getChildrenIDMap p).1.childrenMap]
        have := ih (ix.getChildrenIDMap p).1 next
        rw [kids_ensure] at this
        rw [show ({ ix with childrenMap := (ix.getChildrenIDMap p).1.childrenMap } : Index) = (ix.getChildrenIDMap p).1 from rfl, this]
        constructor
        · rintro (h | ⟨h, a, ha, hn⟩)
          · exact ⟨h.2, p, List.mem_cons_self, h.1⟩
          · exact ⟨h, a, List.mem_cons_of_mem _ ha, ((none_ensure ix p a).1 hn).2⟩
        · rintro ⟨h, a, ha, hn⟩
          by_cases hap : a = p
          · subst hap
            exact .inl ⟨hn, h⟩
          · rcases List.mem_cons.1 ha with ha | ha
            · exact absurd ha hap
            · exact .inr ⟨h, a, ha, (none_ensure ix p a).2 ⟨hap, hn⟩⟩

theorem us_fetch (rs : List Rune) : ∀ (ix : Index) (p : ID), (fetch ix p rs).Us (memOf ix) l ↔
    (rs ≠ [] ∧ l = .outer) ∨ ∃ a ∈ visited ix.getChildrenMap p rs, l = .kids a := by
  induction rs with
  | nil =>
    intro ix p
    refine ⟨fun h => (us_done h).elim, ?_⟩
    rintro (h | ⟨a, ha, -⟩)
    · exact absurd rfl h.1
    · cases ha
  | cons r rest ih =>
    intro ix p
    unfold fetch visited
    rw [us_bind, alone_childrenIDMap, us_childrenIDMap]
    simp only
    rw [snd_ensure]
    cases hk : ix.getChildrenMap p r with
    | none =>
      simp only
      constructor
      · rintro ((h | h) | h)
        · exact .inl ⟨by simp, h⟩
        · exact .inr ⟨p, List.mem_cons_self, h⟩
        · exact (us_done h).elim
      · rintro (h | ⟨a, ha, h⟩)
        · exact .inl (.inl h.2)
        · cases List.mem_singleton.1 ha
          exact .inl (.inr h)
    | some next =>
      simp only
      by_cases hr : rest = []
      · rw [if_pos hr, if_pos hr]
        constructor
        · rintro ((h | h) | h)
          · exact .inl ⟨by simp, h⟩
          · exact .inr ⟨p, List.mem_cons_self, h⟩
          · exact (us_done h).elim
        · rintro (h | ⟨a, ha, h⟩)
          · exact .inl (.inl h.2)
          · cases List.mem_singleton.1 ha
            exact .inl (.inr h)
      · rw [if_neg hr, if_neg hr, ← fetch_map ix (ix.getChildrenIDMap p).1.childrenMap]
        have := ih (ix.getChildrenIDMap p).1 next
        rw [kids_ensure] at this
        rw [show ({ ix with childrenMap := (ix.getChildrenIDMap p).1.childrenMap } : Index) = (ix.getChildrenIDMap p).1 from rfl, this]
        constructor
        · rintro ((h | h) | h | ⟨a, ha, h⟩)
          · exact .inl ⟨by simp, h⟩
          · exact .inr ⟨p, List.mem_cons_self, h⟩
          · exact .inl ⟨by simp, h.2⟩
          · exact .inr ⟨a, List.mem_cons_of_mem _ ha, h⟩
        · rintro (h | ⟨a, ha, h⟩)
          · exact .inl (.inl h.2)
          · rcases List.mem_cons.1 ha with rfl | ha
            · exact .inl (.inr h)
            · exact .inr (.inr ⟨a, ha, h⟩)

theorem collCol_eq (c : Coll) : collCol c = column c := by
  unfold collCol column
  rw [length_sortAsc, UInt16.toNat_ofNat']

theorem after_ne (c : Coll) (ts : TagSetID) : Coll.add c ts ≠ [] := by
  unfold Coll.add
  split
  · rename_i h
    rintro rfl
    simp [Coll.has] at h
  · intro h
    have := congrArg List.length h
    rw [length_sortAsc] at this
    simp at this

theorem call_wr {ρ : Type} {p : TProg ρ} {f : ρ → TAns} : (p.bind fun a => .done (f a)).Wr m l ↔ p.Wr m l := by
  rw [wr_bind]; exact or_iff_left wr_done

theorem call_us {ρ : Type} {p : TProg ρ} {f : ρ → TAns} : (p.bind fun a => .done (f a)).Us m l ↔ p.Us m l := by
  rw [us_bind]; exact or_iff_left us_done

/-- The cells a call writes. -/
theorem wr_call (ix : Index) (c : TCall) : (call ix c).Wr (memOf ix) l ↔ Writes ix c l := by
  cases c with
  | tagID name parent =>
    unfold call
    simp only
    rw [call_wr, wr_tagID]
    constructor
    · rintro ⟨rfl, h⟩; exact .tag h
    · rintro ⟨h⟩; exact ⟨rfl, h⟩
  | addTagSet id names =>
    unfold call
    simp only
    rw [call_wr, wr_addTagSet]
    constructor
    · rintro ⟨s, item, c, ht, h | ⟨h0, rfl⟩ | h | rfl⟩
      · rw [wr_setIndex (setSets_self ix).symm] at h
        obtain ⟨hs, ⟨h1, rfl | ⟨j, h2, h3, rfl⟩⟩ | ⟨h1, rfl⟩⟩ := h
        · exact .sets ht h1
        · exact .setTables ht h2 h3
        · exact .set ht hs h1
      · exact .count ht h0
      · rw [wr_collIndex (setColls_self ix).symm, collCol_eq, sortAsc_idem] at h
        obtain ⟨-, ⟨h1, rfl | ⟨j, h2, h3, rfl⟩⟩ | ⟨h1, rfl⟩⟩ := h
        · exact .colls ht h1
        · exact .collTables ht h2 h3
        · exact .coll ht h1
      · exact .node ht
    · intro h
      cases h with
      | node ht => exact ⟨_, _, _, ht, .inr (.inr (.inr rfl))⟩
      | count ht h0 => exact ⟨_, _, _, ht, .inr (.inl ⟨h0, rfl⟩)⟩
      | @sets _ _ s _ _ ht h1 =>
        refine ⟨_, _, _, ht, .inl ((wr_setIndex (setSets_self ix).symm s).2 ⟨?_, .inl ⟨h1, .inl rfl⟩⟩)⟩
        rintro rfl
        simp at h1
      | @setTables _ _ s _ _ j ht h1 h2 =>
        refine ⟨_, _, _, ht, .inl ((wr_setIndex (setSets_self ix).symm s).2 ⟨?_, .inl ⟨by omega, .inr ⟨j, h1, h2, rfl⟩⟩⟩)⟩
        rintro rfl
        simp at h2
      | set ht h1 h2 =>
        exact ⟨_, _, _, ht, .inl ((wr_setIndex (setSets_self ix).symm _).2 ⟨h1, .inr ⟨h2, rfl⟩⟩)⟩
      | colls ht h1 =>
        refine ⟨_, _, _, ht, .inr (.inr (.inl ((wr_collIndex (setColls_self ix).symm _).2 ⟨after_ne _ _, .inl ⟨?_, .inl rfl⟩⟩)))⟩
        rw [collCol_eq]; exact h1
      | @collTables _ _ _ _ _ j ht h1 h2 =>
        refine ⟨_, _, _, ht, .inr (.inr (.inl ((wr_collIndex (setColls_self ix).symm _).2
          ⟨after_ne _ _, .inl ⟨?_, .inr ⟨j, h1, ?_, rfl⟩⟩⟩)))⟩
        · rw [collCol_eq]; exact Nat.le_trans h1 h2
        · rw [collCol_eq]; exact h2
      | coll ht h1 =>
        refine ⟨_, _, _, ht, .inr (.inr (.inl ((wr_collIndex (setColls_self ix).symm _).2 ⟨after_ne _ _, .inr ⟨?_, ?_⟩⟩)))⟩
        · rw [collCol_eq, sortAsc_idem]; exact h1
        · rw [collCol_eq]; rfl
  | tagSets id =>
    unfold call
    simp only
    rw [call_wr]
    exact ⟨fun h => (wr_tagSets ix id h).elim, fun h => by cases h⟩
  | wordsCount =>
    unfold call
    simp only
    rw [wr_read]
    exact ⟨fun h => (wr_done h).elim, fun h => by cases h⟩
  | fetchRunes rs =>
    unfold call
    simp only
    rw [call_wr, wr_fetch]
    constructor
    · rintro ⟨rfl, a, ha, hn⟩; exact .lookup ha hn
    · intro h
      cases h with
      | lookup h1 h2 => exact ⟨rfl, _, h1, h2⟩
  | childrenMap id =>
    unfold call childrenMap
    simp only
    rw [call_wr, wr_read, wr_read]
    exact ⟨fun h => (wr_done h).elim, fun h => by cases h⟩

theorem looksIn (ix : Index) (v : VariantID) : (collGet v).Us (memOf ix) l ↔ l = .colls ∨ ∃ k, LooksIn ix v k ∧ l = .collTable k := by
  rw [us_collGet]
  refine or_congr Iff.rfl ?_
  constructor
  · rintro ⟨h1, h2, h3, rfl⟩
    exact ⟨_, ⟨h1, by omega, h3⟩, rfl⟩
  · rintro ⟨k, ⟨h1, h2, h3⟩, rfl⟩
    refine ⟨h1, by omega, ?_, by rw [h2]; rfl⟩
    rw [h2]; exact h3

/-- The cells a call uses. -/
theorem us_call (ix : Index) (c : TCall) : (call ix c).Us (memOf ix) l ↔ Uses ix c l := by
  constructor
  · intro h
    cases c with
    | tagID name parent =>
      unfold call at h
      simp only at h
      rw [call_us, us_tagID] at h
      subst h
      exact .tag
    | addTagSet id names =>
      unfold call at h
      simp only at h
      rw [call_us, us_addTagSet] at h
      rcases h with ⟨h, rfl⟩ | ⟨s, item, h1, h2, rfl | h⟩ | ⟨s, item, c, ht, h | ⟨h0, rfl⟩ | h⟩
      · exact .names h
      · exact .node h1 h2
      · rcases (looksIn ix _).1 h with rfl | ⟨k, hk, rfl⟩
        · exact .colls h1 h2
        · exact .coll h1 h2 hk
      · rw [us_setIndex (setSets_self ix).symm] at h
        obtain ⟨hs, rfl | rfl | ⟨j, h1, h2, rfl⟩⟩ := h
        · exact .sets ht hs
        · exact .set ht hs
        · exact .writes (.setTables ht h1 h2)
      · exact .writes (.count ht h0)
      · rw [us_collIndex (setColls_self ix).symm, collCol_eq] at h
        obtain ⟨hs, rfl | rfl | ⟨j, h1, h2, rfl⟩⟩ := h
        · exact .colls ht.names ht.node
        · exact .newColl ht
        · exact .writes (.collTables ht h1 h2)
    | tagSets id =>
      unfold call at h
      simp only at h
      rw [call_us] at h
      cases hi : ix.items.get id with
      | none => exact (us_tagSets_none ix id hi h).elim
      | some item =>
        by_cases hc : ∃ c, ix.collectionIdx.get item.variants = .ok c
        · obtain ⟨c, hc⟩ := hc
          rw [us_tagSets ix id hi hc] at h
          rcases h with rfl | h | h
          · exact .nodeOf hi
          · rcases (looksIn ix _).1 h with rfl | ⟨k, hk, rfl⟩
            · exact .collsOf hi
            · exact .collOf hi hk
          · obtain ⟨pre, ts, post, rfl, hp, h | ⟨s, hs, hne, rfl⟩⟩ := (us_readingsOf ix c).1 h
            · rcases (us_setGet ts).1 h with rfl | ⟨hk, rfl⟩
              · exact .setsOf hi hc (by simp)
              · exact .setOf hi hc hp hk
            · exact .tagsOf hi hc hp hs hne
        · rw [us_tagSets_bad ix id hi fun c hc' => hc ⟨c, hc'⟩] at h
          rcases h with rfl | h
          · exact .nodeOf hi
          · rcases (looksIn ix _).1 h with rfl | ⟨k, hk, rfl⟩
            · exact .collsOf hi
            · exact .collOf hi hk
    | wordsCount =>
      unfold call at h
      simp only at h
      rw [us_read] at h
      cases h.resolve_right us_done
      exact .count
    | fetchRunes rs =>
      unfold call at h
      simp only at h
      rw [call_us, us_fetch] at h
      rcases h with ⟨h, rfl⟩ | ⟨a, ha, rfl⟩
      · exact .outer h
      · exact .kids ha
    | childrenMap id =>
      unfold call childrenMap at h
      simp only at h
      rw [call_us, us_read, us_read] at h
      rcases h with rfl | rfl | h
      · exact .outerOf
      · exact .kidsOf
      · exact (us_done h).elim
  · intro h
    cases h with
    | writes h => exact us_of_wr ((wr_call ix c).2 h)
    | tag => exact call_us.2 ((us_tagID _ _).2 rfl)
    | names h => exact call_us.2 ((us_addTagSet ix _ _).2 (.inl ⟨h, rfl⟩))
    | node h1 h2 => exact call_us.2 ((us_addTagSet ix _ _).2 (.inr (.inl ⟨_, _, h1, h2, .inl rfl⟩)))
    | colls h1 h2 =>
      exact call_us.2 ((us_addTagSet ix _ _).2 (.inr (.inl ⟨_, _, h1, h2, .inr ((looksIn ix _).2 (.inl rfl))⟩)))
    | coll h1 h2 h3 =>
      exact call_us.2 ((us_addTagSet ix _ _).2 (.inr (.inl ⟨_, _, h1, h2, .inr ((looksIn ix _).2 (.inr ⟨_, h3, rfl⟩))⟩)))
    | sets ht hs =>
      exact call_us.2 ((us_addTagSet ix _ _).2 (.inr (.inr ⟨_, _, _, ht, .inl
        ((us_setIndex (setSets_self ix).symm _).2 ⟨hs, .inl rfl⟩)⟩)))
    | set ht hs =>
      exact call_us.2 ((us_addTagSet ix _ _).2 (.inr (.inr ⟨_, _, _, ht, .inl
        ((us_setIndex (setSets_self ix).symm _).2 ⟨hs, .inr (.inl rfl)⟩)⟩)))
    | newColl ht =>
      exact call_us.2 ((us_addTagSet ix _ _).2 (.inr (.inr ⟨_, _, _, ht, .inr (.inr
        ((us_collIndex (setColls_self ix).symm _).2 ⟨after_ne _ _, .inr (.inl (by rw [collCol_eq]; rfl))⟩))⟩)))
    | @nodeOf id item hi =>
      by_cases hc : ∃ c, ix.collectionIdx.get item.variants = .ok c
      · obtain ⟨c, hc⟩ := hc
        exact call_us.2 ((us_tagSets ix id hi hc).2 (.inl rfl))
      · exact call_us.2 ((us_tagSets_bad ix id hi fun c hc' => hc ⟨c, hc'⟩).2 (.inl rfl))
    | @collsOf id item hi =>
      by_cases hc : ∃ c, ix.collectionIdx.get item.variants = .ok c
      · obtain ⟨c, hc⟩ := hc
        exact call_us.2 ((us_tagSets ix id hi hc).2 (.inr (.inl ((looksIn ix _).2 (.inl rfl)))))
      · exact call_us.2 ((us_tagSets_bad ix id hi fun c hc' => hc ⟨c, hc'⟩).2 (.inr ((looksIn ix _).2 (.inl rfl))))
    | @collOf id item k hi h3 =>
      by_cases hc : ∃ c, ix.collectionIdx.get item.variants = .ok c
      · obtain ⟨c, hc⟩ := hc
        exact call_us.2 ((us_tagSets ix id hi hc).2 (.inr (.inl ((looksIn ix _).2 (.inr ⟨_, h3, rfl⟩)))))
      · exact call_us.2 ((us_tagSets_bad ix id hi fun c hc' => hc ⟨c, hc'⟩).2 (.inr ((looksIn ix _).2 (.inr ⟨_, h3, rfl⟩))))
    | @setsOf id item c hi hc hne =>
      cases c with
      | nil => exact absurd rfl hne
      | cons ts post =>
        exact call_us.2 ((us_tagSets ix id hi hc).2 (.inr (.inr ((us_readingsOf ix _).2
          ⟨[], ts, post, rfl, fun a ha => (by cases ha), .inl ((us_setGet ts).2 (.inl rfl))⟩))))
    | setOf hi hc hp h =>
      exact call_us.2 ((us_tagSets ix _ hi hc).2 (.inr (.inr ((us_readingsOf ix _).2
        ⟨_, _, _, rfl, hp, .inl ((us_setGet _).2 (.inr ⟨h, rfl⟩))⟩))))
    | tagsOf hi hc hp h hne =>
      exact call_us.2 ((us_tagSets ix _ hi hc).2 (.inr (.inr ((us_readingsOf ix _).2
        ⟨_, _, _, rfl, hp, .inr ⟨_, h, hne, rfl⟩⟩))))
    | count => exact us_read.2 (.inl rfl)
    | outer h => exact call_us.2 ((us_fetch _ ix 0).2 (.inl ⟨h, rfl⟩))
    | kids h => exact call_us.2 ((us_fetch _ ix 0).2 (.inr ⟨_, h, rfl⟩))
    | outerOf => exact call_us.2 (us_read.2 (.inl rfl))
    | kidsOf => exact call_us.2 (us_read.2 (.inr (us_read.2 (.inl rfl))))

/-- What a program does when it runs alone is what the specification says it writes and uses. -/
theorem clash_call (ix : Index) (a b : TCall) : Clash ((call ix a).accesses (memOf ix)) ((call ix b).accesses (memOf ix)) ↔
    ∃ l, Writes ix a l ∧ Uses ix b l := by
  rw [clash_iff]
  exact exists_congr fun l => and_congr (wr_call ix a) (us_call ix b)

end TProg

/-! ## Several calls at the same time -/

/-- The nodes of two indexes are alike apart from their readings. -/
structure NodesAlike (ix ix' : Index) : Prop where
  next : ix'.items.nextID = ix.items.nextID
  items : ∀ i : Nat, (ix'.items.items[i]?).map (fun it => (it.parent, it.letter)) =
    (ix.items.items[i]?).map fun it => (it.parent, it.letter)

namespace NodesAlike

variable {ix ix' : Index}

theorem refl (ix : Index) : NodesAlike ix ix := ⟨rfl, fun _ => rfl⟩

theorem trans {a b c : Index} (h : NodesAlike a b) (h' : NodesAlike b c) : NodesAlike a c :=
  ⟨h'.next.trans h.next, fun i => (h'.items i).trans (h.items i)⟩

theorem getItem (h : NodesAlike ix ix') (id : ID) : (ix'.items.get id).map (fun it => (it.parent, it.letter)) =
    (ix.items.get id).map fun it => (it.parent, it.letter) := by
  unfold Items.get
  rw [h.next]
  split
  · rfl
  split
  · rfl
  · exact h.items _

theorem isNone (h : NodesAlike ix ix') (id : ID) : (ix'.items.get id).isNone = (ix.items.get id).isNone := by
  have := h.getItem id
  cases h1 : ix'.items.get id <;> cases h2 : ix.items.get id <;> rw [h1, h2] at this <;> first | rfl | cases this

theorem wordFuel (h : NodesAlike ix ix') (n : Nat) : ∀ id, Index.wordFuel n ix'.items id = Index.wordFuel n ix.items id := by
  induction n with
  | zero => intro id; rfl
  | succ n ih =>
    intro id
    unfold Index.wordFuel
    split
    · rfl
    · have := h.getItem id
      cases h1 : ix'.items.get id with
      | none =>
        cases h2 : ix.items.get id with
        | none => rfl
        | some it => rw [h1, h2] at this; cases this
      | some it' =>
        cases h2 : ix.items.get id with
        | none => rw [h1, h2] at this; cases this
        | some it =>
          rw [h1, h2] at this
          obtain ⟨e1, e2⟩ := Prod.mk.inj (Option.some.inj this)
          simp only
          rw [e1, e2, ih]

theorem word (h : NodesAlike ix ix') (id : ID) : ix'.word id = ix.word id := by
  unfold Index.word
  rw [h.next, h.wordFuel]

theorem get (h : NodesAlike ix ix') (id : ID) : ix'.get id = ix.get id := by
  unfold Index.get
  rw [h.next]

theorem fetch (h : NodesAlike ix ix') (rs : List Rune) : ∀ p, TProg.fetch ix' p rs = TProg.fetch ix p rs := by
  induction rs with
  | nil => intro p; rfl
  | cons r rest ih =>
    intro p
    unfold TProg.fetch
    rw [h.word]
    congr 1
    funext m
    cases m r with
    | none => rfl
    | some next => simp only; rw [h.get, ih]

/-- The programs use nothing else of the nodes. -/
theorem call (h : NodesAlike ix ix') (c : TCall) : TProg.call ix' c = TProg.call ix c := by
  cases c with
  | addTagSet id names =>
    unfold TProg.call TProg.addTagSet
    simp only
    rw [h.isNone]
  | tagSets id =>
    unfold TProg.call TProg.tagSets
    simp only
    rw [h.isNone]
  | fetchRunes rs =>
    unfold TProg.call
    simp only
    rw [h.fetch]
  | _ => rfl

theorem setVariants (its : Items) (ix : Index) (h : its = ix.items) (id : ID) (v : VariantID) (i : Nat) :
    ((Index.setVariants its id v).items[i]?).map (fun it => (it.parent, it.letter)) =
      (ix.items.items[i]?).map fun it => (it.parent, it.letter) := by
  subst h
  unfold Index.setVariants
  rw [List.getElem?_modify]
  by_cases hi : id.toNat = i
  · simp only [hi]
    cases ix.items.items[i]? <;> rfl
  · simp only [hi]
    cases ix.items.items[i]? <;> rfl

theorem fetchFromItem (rs : List Rune) : ∀ (ix : Index) (p : ID), (ix.fetchFromItem p rs).1.items = ix.items := by
  induction rs with
  | nil => intro ix p; rfl
  | cons r rest ih =>
    intro ix p
    unfold Index.fetchFromItem
    have hg : (ix.getChildrenIDMap p).1.items = ix.items := rfl
    generalize ix.getChildrenIDMap p = g at hg ⊢
    obtain ⟨ix', cm⟩ := g
    simp only at hg ⊢
    split
    · exact hg
    · split
      · exact hg
      · exact (ih _ _).trans hg

/-- A call changes nothing else of the nodes. -/
theorem does (ix : Index) (c : TCall) : NodesAlike ix (ix.does c).1 := by
  cases c with
  | addTagSet id names =>
    show NodesAlike ix (ix.addTagSet id names).1
    unfold Index.addTagSet
    split
    · exact refl ix
    · split
      · exact refl ix
      · split
        · exact ⟨rfl, setVariants _ ix rfl _ _⟩
        · exact refl ix
  | fetchRunes rs =>
    show NodesAlike ix (ix.fetchFromItem 0 rs).1
    refine ⟨by rw [fetchFromItem], fun i => by rw [fetchFromItem]⟩
  | tagID name parent => exact ⟨rfl, fun _ => rfl⟩
  | _ => exact refl ix

end NodesAlike

namespace Index

/-- One call of the list. -/
def doesAt (ix : Index) (calls : List TCall) (t : Nat) : Index :=
  match calls[t]? with
  | none => ix
  | some c => (ix.does c).1

theorem inOrder_cons (ix : Index) (calls : List TCall) (t : Nat) (ts : List Nat) :
    ix.inOrder calls (t :: ts) = (ix.doesAt calls t).inOrder calls ts := rfl

theorem doesAt_alike (ix : Index) (calls : List TCall) (t : Nat) : NodesAlike ix (ix.doesAt calls t) := by
  unfold doesAt
  split
  · exact .refl ix
  · exact .does ix _

theorem inOrder_alike (calls : List TCall) (ts : List Nat) : ∀ ix : Index, NodesAlike ix (ix.inOrder calls ts) := by
  induction ts with
  | nil => exact .refl
  | cons t ts ih => intro ix; exact (ix.doesAt_alike calls t).trans (ih _)

theorem goroutine_alike {ix ix' : Index} (h : NodesAlike ix ix') (calls : List TCall) (t : Nat) :
    goroutine ix' calls t = goroutine ix calls t := by
  unfold goroutine
  cases calls[t]? with
  | none => rfl
  | some c => simp only; rw [h.call]

theorem alone_goroutine (ix : Index) (calls : List TCall) (t : Nat) : (goroutine ix calls t).alone (memOf ix) =
    (memOf (ix.doesAt calls t), (calls[t]?).map fun c => (ix.does c).2) := by
  unfold goroutine doesAt
  cases calls[t]? with
  | none => rfl
  | some c => simp only; rw [Prog.alone_bind, TProg.alone_call]; rfl

theorem inTurn_goroutine (calls : List TCall) (ts : List Nat) : ∀ ix : Index,
    inTurn (goroutine ix calls) (memOf ix) ts = memOf (ix.inOrder calls ts) := by
  induction ts with
  | nil => intro ix; rfl
  | cons t ts ih =>
    intro ix
    rw [inOrder_cons, ← ih]
    show inTurn _ ((goroutine ix calls t).alone (memOf ix)).1 ts = _
    rw [alone_goroutine]
    simp only
    congr 1
    funext u
    exact (goroutine_alike (ix.doesAt_alike calls t) calls u).symm

theorem accesses_goroutine (ix : Index) (calls : List TCall) (t : Nat) : (goroutine ix calls t).accesses (memOf ix) =
    match calls[t]? with
    | none => []
    | some c => (TProg.call ix c).accesses (memOf ix) := by
  unfold goroutine
  cases calls[t]? with
  | none => rfl
  | some c => simp only; rw [Prog.accesses_bind]; exact List.append_nil _

theorem clash_goroutine (ix : Index) (calls : List TCall) (t u : Nat) :
    Clash ((goroutine ix calls t).accesses (memOf ix)) ((goroutine ix calls u).accesses (memOf ix)) ↔
      ∃ a b l, calls[t]? = some a ∧ calls[u]? = some b ∧ TCall.Writes ix a l ∧ TCall.Uses ix b l := by
  rw [accesses_goroutine, accesses_goroutine]
  constructor
  · intro h
    cases ht : calls[t]? with
    | none =>
      rw [ht] at h
      obtain ⟨_, _, h, _⟩ := h
      cases h
    | some a =>
      cases hu : calls[u]? with
      | none =>
        rw [hu] at h
        obtain ⟨_, _, _, h⟩ := h
        cases h
      | some b =>
        rw [ht, hu] at h
        obtain ⟨l, hl⟩ := (TProg.clash_call ix a b).1 h
        exact ⟨a, b, l, rfl, rfl, hl⟩
  · rintro ⟨a, b, l, ha, hb, hl⟩
    rw [ha, hb]
    exact (TProg.clash_call ix a b).2 ⟨l, hl⟩

/-- Two of the calls meet. -/
theorem exists_clash (ix : Index) (calls : List TCall) :
    (∃ t u, t ≠ u ∧ Clash ((goroutine ix calls t).accesses (memOf ix)) ((goroutine ix calls u).accesses (memOf ix))) ↔
      ∃ (t u : Nat) (a b : TCall), t ≠ u ∧ calls[t]? = some a ∧ calls[u]? = some b ∧ TCall.Meet ix a b := by
  constructor
  · rintro ⟨t, u, htu, h⟩
    obtain ⟨a, b, l, ha, hb, hl⟩ := (clash_goroutine ix calls t u).1 h
    exact ⟨t, u, a, b, htu, ha, hb, l, .inl hl⟩
  · rintro ⟨t, u, a, b, htu, ha, hb, l, hl | hl⟩
    · exact ⟨t, u, htu, (clash_goroutine ix calls t u).2 ⟨a, b, l, ha, hb, hl⟩⟩
    · exact ⟨u, t, Ne.symm htu, (clash_goroutine ix calls u t).2 ⟨b, a, l, hb, ha, hl⟩⟩

end Index

end Verif
