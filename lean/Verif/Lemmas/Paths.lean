import Verif.Model.Paths
import Verif.Spec.Paths

/-!
# Paths and locations
-/

namespace Verif

theorem splitSlash_ne_nil : ∀ s : Str, splitSlash s ≠ []
  | [] => by simp [splitSlash]
  | b :: s => by
    rw [splitSlash]
    split
    · simp
    · split <;> simp

theorem splitSlash_noSlash : ∀ (s : Str), ∀ e ∈ splitSlash s, (0x2f : UInt8) ∉ e
  | [] => by simp [splitSlash]
  | b :: s => by
    have ih := splitSlash_noSlash s
    rw [splitSlash]
    split
    · intro e he
      rcases List.mem_cons.1 he with h | h
      · rw [h]; simp
      · exact ih e h
    · rename_i hb
      split
      · intro e he; rw [List.mem_singleton.1 he]; simpa using fun h => hb h.symm
      · rename_i x xs hx
        intro e he
        rcases List.mem_cons.1 he with h | h
        · rw [h]
          have := ih x (by rw [hx]; exact List.mem_cons_self)
          intro hm
          rcases List.mem_cons.1 hm with h | h
          · exact hb h.symm
          · exact this h
        · exact ih e (by rw [hx]; exact List.mem_cons_of_mem _ h)

theorem splitSlash_noSlash_eq : ∀ (s : Str), (0x2f : UInt8) ∉ s → splitSlash s = [s]
  | [], _ => rfl
  | b :: s, h => by
    have hb : b ≠ 0x2f := fun e => h (by rw [e]; exact List.mem_cons_self)
    rw [splitSlash, if_neg hb, splitSlash_noSlash_eq s (fun hm => h (List.mem_cons_of_mem _ hm))]

theorem splitSlash_slash (b : Str) : splitSlash (0x2f :: b) = [] :: splitSlash b := by
  rw [splitSlash]; simp

theorem splitSlash_append : ∀ (a b : Str), splitSlash (a ++ 0x2f :: b) = splitSlash a ++ splitSlash b
  | [], b => by rw [List.nil_append, splitSlash_slash]; rfl
  | c :: a, b => by
    rw [List.cons_append, splitSlash, splitSlash_append a b]
    by_cases hc : c = 0x2f
    · rw [if_pos hc, splitSlash, if_pos hc]; rfl
    · rw [if_neg hc, splitSlash, if_neg hc]
      cases h : splitSlash a with
      | nil => exact absurd h (splitSlash_ne_nil a)
      | cons x xs => rfl

theorem splitSlash_joinSlash : ∀ (l : List Str), l ≠ [] → (∀ e ∈ l, (0x2f : UInt8) ∉ e) →
    splitSlash (joinSlash l) = l
  | [], h, _ => absurd rfl h
  | [a], _, h => splitSlash_noSlash_eq a (h a List.mem_cons_self)
  | a :: b :: l, _, h => by
    rw [joinSlash, splitSlash_append, splitSlash_noSlash_eq a (h a List.mem_cons_self),
      splitSlash_joinSlash (b :: l) (by simp) (fun e he => h e (List.mem_cons_of_mem _ he))]
    rfl

theorem joinSlash_eq : ∀ l : List Str, joinSlash l = List.intercalate [0x2f] l
  | [] => rfl
  | [a] => by simp [joinSlash, List.intercalate]
  | a :: b :: l => by
    rw [joinSlash, joinSlash_eq (b :: l)]
    simp [List.intercalate, List.intersperse]

theorem joinSlash_splitSlash : ∀ s : Str, joinSlash (splitSlash s) = s
  | [] => rfl
  | b :: s => by
    have ih := joinSlash_splitSlash s
    rw [splitSlash]
    by_cases hb : b = 0x2f
    · rw [if_pos hb]
      cases h : splitSlash s with
      | nil => exact absurd h (splitSlash_ne_nil s)
      | cons x xs => rw [joinSlash, ← h, ih, hb]; rfl
    · rw [if_neg hb]
      cases h : splitSlash s with
      | nil => exact absurd h (splitSlash_ne_nil s)
      | cons x xs =>
        rw [h] at ih
        show joinSlash ((b :: x) :: xs) = b :: s
        cases xs with
        | nil => rw [← ih]; rfl
        | cons y ys => rw [← ih]; rfl

/-- The elements of a path are unique. -/
theorem elements_iff (p : Str) (l : List Str) : Elements p l ↔ l = splitSlash p := by
  constructor
  · rintro ⟨h1, h2, h3⟩
    rw [← h1, ← joinSlash_eq, splitSlash_joinSlash l h2 h3]
  · rintro rfl
    exact ⟨by rw [← joinSlash_eq, joinSlash_splitSlash], splitSlash_ne_nil p, splitSlash_noSlash p⟩

/-- The location a path leads to, computed. -/
def locate (cwd : List Str) (p : Str) : List Str :=
  (splitSlash p).foldl enter (if p.head? = some 0x2f then [] else cwd)

theorem leads_iff (cwd : List Str) (p : Str) (loc : List Str) : Leads cwd p loc ↔ loc = locate cwd p := by
  constructor
  · rintro ⟨l, h1, h2⟩
    rw [h2, (elements_iff p l).1 h1]; rfl
  · intro h
    exact ⟨_, (elements_iff p _).2 rfl, h⟩

/-- What the stack of `path.Clean` may hold. -/
def StackOK (rooted : Bool) (st : List Str) : Prop :=
  ∀ e ∈ st, e ≠ [] ∧ e ≠ str "." ∧ (0x2f : UInt8) ∉ e ∧ (rooted = true → e ≠ str "..")

theorem StackOK.step {rooted : Bool} {st : List Str} (h : StackOK rooted st) {c : Str} (hc : (0x2f : UInt8) ∉ c) :
    StackOK rooted (cleanStep rooted st c) := by
  unfold cleanStep
  split
  · exact h
  · rename_i h1
    rw [not_or] at h1
    split
    · rename_i h2
      cases st with
      | nil =>
        simp only
        split
        · exact h
        · rename_i hr
          intro e he
          rw [List.mem_singleton.1 he]
          exact ⟨h1.1, h1.2, hc, fun hr' => absurd hr' hr⟩
      | cons t r =>
        simp only
        split
        · rename_i ht
          have h' := h t List.mem_cons_self
          intro e he
          rcases List.mem_cons.1 he with he | he
          · rw [he]; exact ⟨h1.1, h1.2, hc, fun hr => absurd ht (h'.2.2.2 hr)⟩
          · exact h e he
        · exact fun e he => h e (List.mem_cons_of_mem _ he)
    · rename_i h2
      intro e he
      rcases List.mem_cons.1 he with he | he
      · rw [he]; exact ⟨h1.1, h1.2, hc, fun _ => h2⟩
      · exact h e he

theorem enter_step {rooted : Bool} {st : List Str} (h : StackOK rooted st) (c : Str) (base : List Str)
    (hb : rooted = true → base = []) :
    (cleanStep rooted st c).reverse.foldl enter base = enter (st.reverse.foldl enter base) c := by
  unfold cleanStep
  by_cases h1 : c = [] ∨ c = str "."
  · rw [if_pos h1, enter, if_pos h1]
  · rw [if_neg h1]
    by_cases h2 : c = str ".."
    · rw [if_pos h2]
      cases st with
      | nil =>
        simp only
        by_cases hr : rooted = true
        · rw [if_pos hr, hb hr, enter, if_neg h1, if_pos h2]; rfl
        · rw [if_neg hr]; rfl
      | cons t r =>
        simp only
        by_cases ht : t = str ".."
        · rw [if_pos ht, List.reverse_cons, List.foldl_append]; rfl
        · rw [if_neg ht, List.reverse_cons, List.foldl_append]
          have h' := h t List.mem_cons_self
          have e1 : List.foldl enter (r.reverse.foldl enter base) [t] = r.reverse.foldl enter base ++ [t] := by
            simp [enter, h'.1, h'.2.1, ht]
          rw [e1, enter, if_neg h1, if_pos h2, List.dropLast_concat]
    · rw [if_neg h2, List.reverse_cons, List.foldl_append]; rfl

theorem enter_fold {rooted : Bool} (base : List Str) (hb : rooted = true → base = []) :
    ∀ (l : List Str) (st : List Str), (∀ e ∈ l, (0x2f : UInt8) ∉ e) → StackOK rooted st →
    StackOK rooted (l.foldl (cleanStep rooted) st) ∧
    (l.foldl (cleanStep rooted) st).reverse.foldl enter base = l.foldl enter (st.reverse.foldl enter base)
  | [], st, _, h => ⟨h, rfl⟩
  | c :: l, st, hl, h => by
    have ih := enter_fold base hb l (cleanStep rooted st c) (fun e he => hl e (List.mem_cons_of_mem _ he))
      (h.step (hl c List.mem_cons_self))
    refine ⟨ih.1, ?_⟩
    rw [List.foldl_cons, ih.2, enter_step h c base hb]
    rfl

theorem fold_plain : ∀ (l base : List Str), (∀ e ∈ l, e ≠ [] ∧ e ≠ str "." ∧ e ≠ str "..") →
    l.foldl enter base = base ++ l
  | [], base, _ => by simp
  | e :: l, base, h => by
    have he := h e List.mem_cons_self
    rw [List.foldl_cons, fold_plain l _ (fun x hx => h x (List.mem_cons_of_mem _ hx))]
    simp [enter, he.1, he.2.1, he.2.2]

theorem joinSlash_head : ∀ (l : List Str), (∀ e ∈ l, e ≠ [] ∧ (0x2f : UInt8) ∉ e) →
    (joinSlash l).head? ≠ some 0x2f
  | [], _ => by simp [joinSlash]
  | a :: l, h => by
    obtain ⟨h1, h2⟩ := h a List.mem_cons_self
    cases a with
    | nil => exact absurd rfl h1
    | cons b a =>
      have hb : b ≠ 0x2f := fun e => h2 (by rw [e]; exact List.mem_cons_self)
      cases l <;> simpa [joinSlash] using hb

/-- The stack at the end of `path.Clean`. -/
theorem clean_stack (p : Str) :
    StackOK (isRooted p) ((splitSlash p).foldl (cleanStep (isRooted p)) []).reverse := by
  have := (enter_fold (rooted := isRooted p) [] (fun _ => rfl) (splitSlash p) [] (splitSlash_noSlash p)
    (fun e he => by cases he)).1
  exact fun e he => this e (List.mem_reverse.1 he)

/-- An absolute path, cleaned, is the path of the location it leads to. -/
theorem cleanPath_rooted (p : Str) (h : isRooted p = true) (cwd : List Str) :
    cleanPath p = 0x2f :: joinSlash (locate cwd p) ∧ ∀ e ∈ locate cwd p, PlainName e := by
  have hs := clean_stack p
  have hf := (enter_fold (rooted := isRooted p) [] (fun _ => rfl) (splitSlash p) [] (splitSlash_noSlash p)
    (fun e he => by cases he)).2
  rw [fold_plain _ [] (fun e he => ⟨(hs e he).1, (hs e he).2.1, (hs e he).2.2.2 h⟩), List.nil_append] at hf
  have hl : locate cwd p = ((splitSlash p).foldl (cleanStep (isRooted p)) []).reverse := by
    rw [hf, locate, if_pos (by simpa [isRooted] using h)]; rfl
  rw [hl]
  refine ⟨?_, fun e he => ⟨(hs e he).1, (hs e he).2.1, (hs e he).2.2.2 h, (hs e he).2.2.1⟩⟩
  rw [cleanPath, if_pos h]

/-- `path.Clean` keeps the location. -/
theorem locate_cleanPath (cwd : List Str) (p : Str) : locate cwd (cleanPath p) = locate cwd p := by
  have hs := clean_stack p
  by_cases h : isRooted p = true
  · obtain ⟨e, hp⟩ := cleanPath_rooted p h cwd
    rw [e]
    rw [locate, List.head?_cons, if_pos rfl, splitSlash_slash, List.foldl_cons]
    have : enter [] [] = [] := by simp [enter]
    rw [this]
    generalize hl : locate cwd p = l at *
    cases l with
    | nil => simp [joinSlash, splitSlash, enter]
    | cons a l =>
      rw [splitSlash_joinSlash _ (by simp) (fun e he => (hp e he).2.2.2),
        fold_plain _ _ (fun e he => ⟨(hp e he).1, (hp e he).2.1, (hp e he).2.2.1⟩), List.nil_append]
  · have hf := (enter_fold (rooted := isRooted p) cwd (fun hr => absurd hr h) (splitSlash p) []
      (splitSlash_noSlash p) (fun e he => by cases he)).2
    have hnr : ¬ p.head? = some 0x2f := by simpa [isRooted] using h
    rw [cleanPath, if_neg h]
    have hR : locate cwd p = ((splitSlash p).foldl (cleanStep (isRooted p)) []).reverse.foldl enter cwd := by
      rw [hf, locate, if_neg hnr]; rfl
    rw [hR]
    generalize ((splitSlash p).foldl (cleanStep (isRooted p)) []).reverse = st at *
    by_cases h0 : st = []
    · simp only [h0, if_true]
      rfl
    · simp only [h0, if_false]
      rw [locate, if_neg (joinSlash_head st (fun e he => ⟨(hs e he).1, (hs e he).2.2.1⟩)),
        splitSlash_joinSlash st h0 (fun e he => (hs e he).2.2.1)]

theorem cleanPath_ne_nil (p : Str) : cleanPath p ≠ [] := by
  rw [cleanPath]
  split
  · simp
  · split
    · decide
    · rename_i h1 h2
      intro h
      have hs := clean_stack p
      generalize ((splitSlash p).foldl (cleanStep (isRooted p)) []).reverse = st at *
      cases st with
      | nil => exact h2 rfl
      | cons a l =>
        have := (hs a List.mem_cons_self).1
        cases a with
        | nil => exact this rfl
        | cons b a => cases l <;> simp [joinSlash] at h

/-- `path.Join` leads where its second element leads from its first. -/
theorem locate_pathJoin (cwd : List Str) (a b : Str) (ha : a ≠ []) :
    locate cwd (pathJoin a b) = (splitSlash b).foldl enter (locate cwd a) := by
  rw [pathJoin, if_neg ha]
  by_cases h0 : b = []
  · rw [if_pos h0, locate_cleanPath, h0]; simp [splitSlash, enter]
  · rw [if_neg h0, locate_cleanPath, locate, splitSlash_append, List.foldl_append]
    have : (a ++ 0x2f :: b).head? = a.head? := by
      cases a with
      | nil => exact absurd rfl ha
      | cons c a => rfl
    rw [this]; rfl

theorem locate_join_name (cwd : List Str) (a b : Str) (ha : a ≠ []) (hb : PlainName b) :
    locate cwd (pathJoin a b) = locate cwd a ++ [b] := by
  rw [locate_pathJoin cwd a b ha, splitSlash_noSlash_eq b hb.2.2.2]
  simp [enter, hb.1, hb.2.1, hb.2.2.1]

theorem LoaderFile.plain (f : LoaderFile) : PlainName f.name := by
  cases f <;> (unfold PlainName; decide)

theorem loaderDataPath_ne_nil (d : Str) : loaderDataPath d ≠ [] := cleanPath_ne_nil _

theorem locate_slashPath (cwd loc : List Str) (h : ∀ e ∈ loc, PlainName e) : locate cwd (slashPath loc) = loc := by
  rw [slashPath, ← joinSlash_eq, locate, List.head?_cons, if_pos rfl, splitSlash_slash, List.foldl_cons]
  have : enter [] [] = [] := by simp [enter]
  rw [this]
  cases loc with
  | nil => simp [joinSlash, splitSlash, enter]
  | cons a l =>
    rw [splitSlash_joinSlash _ (by simp) (fun e he => (h e he).2.2.2),
      fold_plain _ _ (fun e he => ⟨(h e he).1, (h e he).2.1, (h e he).2.2.1⟩), List.nil_append]

/-- `filepath.Abs` yields the path of the location. -/
theorem absPath_eq (cwd : List Str) (hc : ∀ e ∈ cwd, PlainName e) (p : Str) :
    absPath (slashPath cwd) p = slashPath (locate cwd p) ∧ ∀ e ∈ locate cwd p, PlainName e := by
  rw [absPath, slashPath, ← joinSlash_eq, slashPath, ← joinSlash_eq]
  by_cases h : isRooted p = true
  · rw [if_pos h]; exact cleanPath_rooted p h cwd
  · rw [if_neg h]
    have hnr : ¬ p.head? = some 0x2f := by simpa [isRooted] using h
    have hl : locate cwd (pathJoin (0x2f :: joinSlash cwd) p) = locate cwd p := by
      rw [locate_pathJoin _ _ _ (by simp)]
      have := locate_slashPath cwd cwd hc
      rw [slashPath, ← joinSlash_eq] at this
      rw [this, locate, if_neg hnr]
    have hr : ∃ q, pathJoin (0x2f :: joinSlash cwd) p = cleanPath q ∧ isRooted q = true := by
      rw [pathJoin, if_neg (by simp)]
      split
      · exact ⟨_, rfl, rfl⟩
      · exact ⟨_, rfl, rfl⟩
    obtain ⟨q, hq, hqr⟩ := hr
    rw [hq, locate_cleanPath] at hl
    have := cleanPath_rooted q hqr cwd
    rw [hl] at this
    rw [hq]; exact this

theorem takeWhile_append_stop {α : Type} (q : α → Bool) (a : α) (h : q a = false) :
    ∀ (s t : List α), (∀ x ∈ s, q x = true) → (s ++ a :: t).takeWhile q = s
  | [], t, _ => by simp [h]
  | x :: s, t, hs => by
    rw [List.cons_append, List.takeWhile_cons, if_pos (hs x List.mem_cons_self),
      takeWhile_append_stop q a h s t (fun y hy => hs y (List.mem_cons_of_mem _ hy))]

theorem takeWhile_all {α : Type} (q : α → Bool) : ∀ (s : List α), (∀ x ∈ s, q x = true) → s.takeWhile q = s
  | [], _ => rfl
  | x :: s, h => by
    rw [List.takeWhile_cons, if_pos (h x List.mem_cons_self),
      takeWhile_all q s (fun y hy => h y (List.mem_cons_of_mem _ hy))]

theorem splitFile_eq (d name : Str) (h : (0x2f : UInt8) ∉ name) :
    splitFile (d ++ 0x2f :: name) = (d ++ [0x2f], name) := by
  have e : ((d ++ 0x2f :: name).reverse.takeWhile (· ≠ 0x2f)).reverse = name := by
    have : (d ++ 0x2f :: name).reverse = name.reverse ++ 0x2f :: d.reverse := by simp
    rw [this, takeWhile_append_stop _ _ (by decide) _ _ (fun x hx => by
      have : x ≠ 0x2f := fun e => h (by rw [← e]; exact List.mem_reverse.1 hx)
      simpa using this), List.reverse_reverse]
  rw [splitFile]
  rw [e]
  congr 1
  have : d ++ 0x2f :: name = (d ++ [0x2f]) ++ name := by simp
  rw [this, List.length_append (as := d ++ [0x2f]), Nat.add_sub_cancel, List.take_left]

/-- The extension of a name is empty, or what follows its last dot, with the dot. -/
theorem extOf_spec (name : Str) : (extOf name = [] ∧ (0x2e : UInt8) ∉ name) ∨
    ∃ s t, name = s ++ 0x2e :: t ∧ (0x2e : UInt8) ∉ t ∧ extOf name = 0x2e :: t := by
  by_cases h : (0x2e : UInt8) ∈ name
  · right
    obtain ⟨u, v, huv, hu⟩ := List.eq_append_cons_of_mem (List.mem_reverse.2 h)
    have hn : name = v.reverse ++ 0x2e :: u.reverse := by
      rw [← List.reverse_reverse name, huv]; simp
    refine ⟨v.reverse, u.reverse, hn, fun hm => hu (List.mem_reverse.1 hm), ?_⟩
    rw [extOf]
    rw [huv, takeWhile_append_stop _ _ (by decide) u v (fun x hx => by
      have : x ≠ 0x2e := fun e => hu (by rw [← e]; exact hx)
      simpa using this), if_neg]
    rw [hn]; simp; omega
  · left
    refine ⟨?_, h⟩
    rw [extOf]
    have : name.reverse.takeWhile (· ≠ 0x2e) = name.reverse := by
      have := takeWhile_all (fun x : UInt8 => decide (x ≠ 0x2e)) name.reverse (fun x hx => by
        have : x ≠ 0x2e := fun e => h (by rw [← e]; exact List.mem_reverse.1 hx)
        simpa using this)
      exact this
    rw [this, if_pos List.length_reverse]

theorem take_ext (name : Str) : name.take (name.length - (extOf name).length) ++ extOf name = name := by
  rcases extOf_spec name with ⟨h, _⟩ | ⟨s, t, h1, _, h2⟩
  · rw [h]; simp
  · rw [h2]
    conv_lhs => rw [h1]
    rw [List.length_append, Nat.add_sub_cancel, List.take_left, h1]

end Verif
