import Verif.Model.Records
import Verif.Lemmas.Texts

/-!
# Loops over lists of pointers
-/

namespace Verif

theorem searchLoop_eq (w : Str) : ∀ (l : List (Option LemmaItem)) (acc : List LemmaItem),
    searchLoop w l acc = acc ++ (l.filterMap id).filter (fun x => x.base.form = w) := by
  intro l
  induction l with
  | nil => intro acc; simp [searchLoop]
  | cons a l ih =>
    intro acc
    cases a with
    | none => rw [searchLoop, ih]; rfl
    | some x =>
      rw [searchLoop]
      by_cases h : x.base.form = w
      · rw [if_pos h, ih]; simp [h]
      · rw [if_neg h, ih]; simp [h]

theorem filterMap_some_sublist {α : Type} (l : List (Option α)) : ((l.filterMap id).map some).Sublist l := by
  induction l with
  | nil => exact List.Sublist.refl _
  | cons a l ih =>
    cases a with
    | none => exact ih.cons _
    | some x => exact ih.cons_cons _

theorem count_filterMap_some {α : Type} [DecidableEq α] (l : List (Option α)) (x : α) :
    (l.filterMap id).count x = l.count (some x) := by
  induction l with
  | nil => rfl
  | cons a l ih =>
    cases a with
    | none => simpa [List.count_cons] using ih
    | some y =>
      have e : List.filterMap id (some y :: l) = y :: List.filterMap id l := rfl
      rw [e, List.count_cons, List.count_cons, ih]
      congr 1

theorem eachDeref_ok {α β : Type} (f : α → Out β) (g : α → β) : ∀ (l : List α), (∀ a ∈ l, f a = .ok (g a)) →
    eachDeref f (l.map some) = .ok (l.map g) := by
  intro l
  induction l with
  | nil => intro _; rfl
  | cons a l ih =>
    intro h
    rw [List.map_cons, eachDeref, h a List.mem_cons_self, Out.bind_ok,
      ih (fun b hb => h b (List.mem_cons_of_mem _ hb))]
    rfl

theorem eachDeref_panic {α β : Type} (f : α → Out β) : ∀ (l : List (Option α)), none ∈ l →
    (∀ a, some a ∈ l → (f a).isOk ∨ f a = .panic) → eachDeref f l = .panic := by
  intro l
  induction l with
  | nil => intro h; cases h
  | cons a l ih =>
    intro h hf
    cases a with
    | none => rfl
    | some x =>
      rw [eachDeref]
      have ht := ih (by simpa using h) (fun b hb => hf b (List.mem_cons_of_mem _ hb))
      rcases hf x List.mem_cons_self with h1 | h1
      · cases hx : f x with
        | ok b => rw [Out.bind_ok, ht, Out.bind_panic]
        | err e => rw [hx] at h1; cases h1
        | panic => rfl
        | diverge => rw [hx] at h1; cases h1
      · rw [h1]; rfl

end Verif
