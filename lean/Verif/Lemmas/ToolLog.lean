import Verif.Spec.ToolLog
import Verif.Lemmas.Output
import Verif.Lemmas.IntLit

/-!
# Facts about the texts of the log of the interactive tool
-/

namespace Verif

/-- Pieces that can be told from what follows, when that is nothing or begins with the separator, can be told apart. -/
theorem joinWith_pieces {P : Str → Prop} {c : UInt8} {s : Str}
    (hP : ∀ a b u v, P a → P b → (u = [] ∨ u.head? = some c) → (v = [] ∨ v.head? = some c) → a ++ u = b ++ v → a = b ∧ u = v) :
    ∀ l m : List Str, (∀ a ∈ l, P a ∧ a ≠ []) → (∀ a ∈ m, P a ∧ a ≠ []) →
      joinWith (c :: s) l = joinWith (c :: s) m → l = m
  | [], [], _, _, _ => rfl
  | [], [b], _, hm, h => absurd (show [] = b from h).symm (hm b List.mem_cons_self).2
  | [], b :: d :: m, _, _, h => by unfold joinWith at h; simp at h
  | [a], [], hl, _, h => absurd (show a = [] from h) (hl a List.mem_cons_self).2
  | a :: d :: l, [], _, _, h => by unfold joinWith at h; simp at h
  | [a], [b], _, _, h => by have h : a = b := h; rw [h]
  | [a], b :: d :: m, hl, hm, h => by
    have h : a ++ [] = b ++ (c :: s ++ joinWith (c :: s) (d :: m)) := by rw [List.append_nil]; exact h
    obtain ⟨_, h2⟩ := hP a b _ _ (hl a List.mem_cons_self).1 (hm b List.mem_cons_self).1 (.inl rfl) (.inr rfl) h
    cases h2
  | a :: d :: l, [b], hl, hm, h => by
    have h : a ++ (c :: s ++ joinWith (c :: s) (d :: l)) = b ++ [] := by rw [List.append_nil]; exact h
    obtain ⟨_, h2⟩ := hP a b _ _ (hl a List.mem_cons_self).1 (hm b List.mem_cons_self).1 (.inr rfl) (.inl rfl) h
    cases h2
  | a :: d :: l, b :: e :: m, hl, hm, h => by
    have h : a ++ (c :: s ++ joinWith (c :: s) (d :: l)) = b ++ (c :: s ++ joinWith (c :: s) (e :: m)) := h
    obtain ⟨rfl, h2⟩ := hP a b _ _ (hl a List.mem_cons_self).1 (hm b List.mem_cons_self).1 (.inr rfl) (.inr rfl) h
    rw [joinWith_pieces hP (d :: l) (e :: m) (fun x hx => hl x (List.mem_cons_of_mem _ hx))
      (fun x hx => hm x (List.mem_cons_of_mem _ hx)) (List.append_cancel_left h2)]

theorem tagSetText_end (s : List UInt8) : ∃ c, tagSetText s = c ++ [0x29] ∧ (0x29 : UInt8) ∉ c := by
  refine ⟨str "TS" ++ str "(" ++ joinComma (s.map fun t => itoa t.toNat), by unfold tagSetText; rfl, ?_⟩
  have e1 : (0x29 : UInt8) ∉ str "TS" := by decide
  have e2 : (0x29 : UInt8) ∉ str "(" := by decide
  have e3 : (0x29 : UInt8) ∉ joinComma (s.map fun t => itoa t.toNat) := joinComma_no (by decide) _ (by
    intro a ha
    obtain ⟨t, -, rfl⟩ := List.mem_map.1 ha
    exact itoa_no (by decide))
  simp [e1, e2, e3]

/-- The sets of a table can be told from the line about it. -/
theorem tableSets_inj {s t : List TagSet}
    (h : joinWith (str ", ") (s.map tagSetText) = joinWith (str ", ") (t.map tagSetText)) : s = t := by
  have ok : ∀ s : List TagSet, ∀ a ∈ s.map tagSetText, (∃ c, a = c ++ [0x29] ∧ (0x29 : UInt8) ∉ c) ∧ a ≠ [] := by
    intro s a ha
    obtain ⟨x, -, rfl⟩ := List.mem_map.1 ha
    obtain ⟨c, e, hc⟩ := tagSetText_end x
    exact ⟨⟨c, e, hc⟩, by rw [e]; simp⟩
  have e : str ", " = [0x2c, 0x20] := by decide
  rw [e] at h
  have := joinWith_pieces (separable_terminated 0x29) _ _ (ok s) (ok t) h
  exact List.map_injective_iff.2 (fun _ _ => tagSetText_inj) this

/-- The sizes of the tables can be told from the listing. -/
theorem sizes_inj {a b : List Nat} {l m : List Str} (hl : l.length = a.length) (hm : m.length = b.length)
    (ha : ∀ i n, a[i]? = some n → l[i]? = some (pad2 i ++ (str "(" ++ (itoa n ++ str ")"))))
    (hb : ∀ i n, b[i]? = some n → m[i]? = some (pad2 i ++ (str "(" ++ (itoa n ++ str ")"))))
    (h : joinWith (str ", ") l = joinWith (str ", ") m) : a = b := by
  have ok : ∀ (a : List Nat) (l : List Str), l.length = a.length →
      (∀ i n, a[i]? = some n → l[i]? = some (pad2 i ++ (str "(" ++ (itoa n ++ str ")")))) →
      ∀ x ∈ l, (0x2c : UInt8) ∉ x ∧ x ≠ [] := by
    intro a l hl ha x hx
    obtain ⟨i, hi, rfl⟩ := List.mem_iff_getElem.1 hx
    have h1 := ha i _ (List.getElem?_eq_getElem (by omega))
    rw [List.getElem?_eq_getElem hi] at h1
    rw [Option.some.inj h1]
    have e1 : (0x2c : UInt8) ∉ str "(" := by decide
    have e2 : (0x2c : UInt8) ∉ str ")" := by decide
    have e3 : ∀ n, (0x2c : UInt8) ∉ pad2 n := fun n => pad2_no (by decide)
    have e4 : ∀ n, (0x2c : UInt8) ∉ itoa n := fun n => itoa_no (by decide)
    refine ⟨by simp [e1, e2, e3, e4], fun h0 => pad2_ne_nil i (List.append_eq_nil_iff.1 h0).1⟩
  have e : str ", " = [0x2c, 0x20] := by decide
  rw [e] at h
  have hlm := joinWith_pieces separable_noComma _ _ (ok a l hl ha) (ok b m hm hb) h
  subst hlm
  apply List.ext_getElem (by omega)
  intro i h1 h2
  have h3 := ha i _ (List.getElem?_eq_getElem h1)
  rw [hb i _ (List.getElem?_eq_getElem h2)] at h3
  have h4 := List.append_cancel_left (List.append_cancel_left (Option.some.inj h3))
  exact (itoa_inj (List.append_cancel_right h4)).symm

/-- The tags of a reading can be told from the line about it, whatever the duration. -/
theorem etaNames_split : ∀ (a b : List Str) (r r' : Str), (∀ x ∈ a, x.length = 4) → (∀ x ∈ b, x.length = 4) →
    joinComma a ++ (str ", eta " ++ r) = joinComma b ++ (str ", eta " ++ r') → a = b ∧ r = r' := by
  have e : str ", eta " = [0x2c, 0x20, 0x65, 0x74, 0x61, 0x20] := by decide
  rw [e]
  have four : ∀ (n : Str) (l : List Str) (r : Str), n.length = 4 → ∃ p q s t u,
      joinComma (n :: l) ++ ([0x2c, 0x20, 0x65, 0x74, 0x61, 0x20] ++ r) = p :: q :: s :: t :: 0x2c :: u ∧ n = [p, q, s, t] ∧
      ((l = [] ∧ u = [0x20, 0x65, 0x74, 0x61, 0x20] ++ r) ∨
        (l ≠ [] ∧ u = joinComma l ++ ([0x2c, 0x20, 0x65, 0x74, 0x61, 0x20] ++ r))) := by
    intro n l r hn
    match n, hn with
    | [p, q, s, t], _ =>
      cases l with
      | nil => exact ⟨p, q, s, t, _, rfl, rfl, .inl ⟨rfl, rfl⟩⟩
      | cons b l =>
        exact ⟨p, q, s, t, joinComma (b :: l) ++ ([0x2c, 0x20, 0x65, 0x74, 0x61, 0x20] ++ r), by simp [joinComma, str], rfl,
          .inr ⟨by simp, rfl⟩⟩
  have apart : ∀ (n : Str) (l : List Str) (r r' : Str), n.length = 4 →
      joinComma (n :: l) ++ ([0x2c, 0x20, 0x65, 0x74, 0x61, 0x20] ++ r) ≠ [0x2c, 0x20, 0x65, 0x74, 0x61, 0x20] ++ r' := by
    intro n l r r' hn h
    obtain ⟨p, q, s, t, u, h1, -, -⟩ := four n l r hn
    rw [h1] at h
    simp at h
  have apart' : ∀ (n : Str) (l : List Str) (r r' : Str), n.length = 4 →
      joinComma (n :: l) ++ ([0x2c, 0x20, 0x65, 0x74, 0x61, 0x20] ++ r) ≠ [0x20, 0x65, 0x74, 0x61, 0x20] ++ r' := by
    intro n l r r' hn h
    obtain ⟨p, q, s, t, u, h1, -, -⟩ := four n l r hn
    rw [h1] at h
    simp at h
  intro a
  induction a with
  | nil =>
    intro b r r' _ hb h
    cases b with
    | nil => exact ⟨rfl, List.append_cancel_left (List.append_cancel_left h)⟩
    | cons n l => exact absurd h.symm (apart n l r' r (hb n List.mem_cons_self))
  | cons n l ih =>
    intro b r r' ha hb h
    cases b with
    | nil => exact absurd h (apart n l r r' (ha n List.mem_cons_self))
    | cons n' l' =>
      obtain ⟨p, q, s, t, u, h1, h2, h3⟩ := four n l r (ha n List.mem_cons_self)
      obtain ⟨p', q', s', t', u', h1', h2', h3'⟩ := four n' l' r' (hb n' List.mem_cons_self)
      rw [h1, h1'] at h
      simp only [List.cons.injEq, true_and] at h
      obtain ⟨rfl, rfl, rfl, rfl, rfl⟩ := h
      rw [h2, h2']
      have ha' : ∀ x ∈ l, x.length = 4 := fun x hx => ha x (List.mem_cons_of_mem _ hx)
      have hb' : ∀ x ∈ l', x.length = 4 := fun x hx => hb x (List.mem_cons_of_mem _ hx)
      rcases h3 with ⟨h3, h4⟩ | ⟨h3, h4⟩ <;> rcases h3' with ⟨h5, h6⟩ | ⟨h5, h6⟩
      · rw [h3, h5]
        exact ⟨rfl, List.append_cancel_left (h4.symm.trans h6)⟩
      · exfalso
        cases l' with
        | nil => exact h5 rfl
        | cons y l' => exact apart' y l' r' r (hb' y List.mem_cons_self) (h6.symm.trans h4)
      · exfalso
        cases l with
        | nil => exact h3 rfl
        | cons y l => exact apart' y l r r' (ha' y List.mem_cons_self) (h4.symm.trans h6)
      · obtain ⟨rfl, rfl⟩ := ih l' r r' ha' hb' (h4.symm.trans h6)
        exact ⟨rfl, rfl⟩

/-- A number typed or shown has no closing bracket. -/
theorem atoi_noBracket {s : Str} {n : Int} (h : atoi s = some n) : (0x5d : UInt8) ∉ s := by
  have dig : ∀ t : Str, t.all isDigit = true → (0x5d : UInt8) ∉ t := by
    intro t ht hm
    have := List.all_eq_true.1 ht _ hm
    revert this
    decide
  have all : ∀ t : Str, ¬ (t = [] ∨ t.all isDigit = false) → t.all isDigit = true := by
    intro t ht
    cases h : t.all isDigit with
    | true => rfl
    | false => exact absurd (.inr h) ht
  unfold atoi at h
  split at h
  rename_i neg ds he
  split at h
  · cases h
  · rename_i h1
    have h1 := dig ds (all ds h1)
    split at he
    · obtain ⟨-, rfl⟩ := Prod.mk.inj he
      simp [h1]
    · obtain ⟨-, rfl⟩ := Prod.mk.inj he
      simp [h1]
    · obtain ⟨-, rfl⟩ := Prod.mk.inj he
      exact h1

end Verif
