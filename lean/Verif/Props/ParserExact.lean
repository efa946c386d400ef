import Verif.Props.Import

/-!
# C42 — exactly when the parser dereferences nil
-/

namespace Verif

open PState

/-- One of the open elements is at the place `p` for the parser, which joins the names of the open elements with dots. -/
def Inside (st p : List Str) : Prop := ∃ k, pathOf (st.take k) = pathOf p

/-- The place of a grammeme, a lemma, a form of a lemma. -/
def grammemePlace : List Str := [str "dictionary", str "grammemes", str "grammeme"]
def lemmaPlace : List Str := [str "dictionary", str "lemmata", str "lemma"]
def formPlace : List Str := lemmaPlace ++ [str "f"]

/-- A token that belongs to a grammeme, lemma or form by its dotted path although no such element is open: with the
open elements `st`, the beginning of the base form of a lemma, of one of its tags or of a tag of a form, text in the
name of a grammeme, or the end of a form. -/
def Orphan (st : List Str) : XTok → Prop
  | .start n as =>
    (pathOf (st ++ [n]) = pathOf (lemmaPlace ++ [str "l"]) ∧ ¬ Inside st lemmaPlace) ∨
    (pathOf (st ++ [n]) = pathOf (lemmaPlace ++ [str "l", str "g"]) ∧ (attrOf (str "v") as).isSome = true ∧
      ¬ Inside st lemmaPlace) ∨
    (pathOf (st ++ [n]) = pathOf (formPlace ++ [str "g"]) ∧ (attrOf (str "v") as).isSome = true ∧ ¬ Inside st formPlace)
  | .chars _ => pathOf st = pathOf (grammemePlace ++ [str "name"]) ∧ ¬ Inside st grammemePlace
  | .stop _ => pathOf st = pathOf formPlace ∧ ¬ Inside st lemmaPlace
  | .other => False

theorem lookup_pair {α β : Type} [BEq α] [LawfulBEq α] {l : List (α × β)} {a : α} {b : β} (h : l.lookup a = some b) :
    (a, b) ∈ l := by
  induction l with
  | nil => cases h
  | cons x l ih =>
    obtain ⟨a', b'⟩ := x
    rw [List.lookup_cons] at h
    by_cases e : a = a'
    · subst e
      rw [show (a == a) = true from beq_self_eq_true a] at h
      obtain rfl := Option.some.inj h
      exact List.mem_cons_self ..
    · rw [show (a == a') = false from beq_eq_false_iff_ne.2 e] at h
      exact List.mem_cons_of_mem _ (ih h)

theorem handler_only {p : Str} {hd : Handler} (h : handlerOf p = some hd) :
    (p = pathOf grammemePlace ↔ hd = .grammeme) ∧ (p = pathOf lemmaPlace ↔ hd = .lem) ∧
    (p = pathOf formPlace ↔ hd = .f) ∧ (p = pathOf (lemmaPlace ++ [str "l"]) ↔ hd = .l) ∧
    (p = pathOf (lemmaPlace ++ [str "l", str "g"]) ↔ hd = .lg) ∧ (p = pathOf (formPlace ++ [str "g"]) ↔ hd = .fg) ∧
    (p = pathOf (grammemePlace ++ [str "name"]) ↔ hd = .grammemeName) := by
  have hm : (p, hd) ∈ handlers := lookup_pair h
  have : ∀ x ∈ handlers,
    (x.1 = pathOf grammemePlace ↔ x.2 = .grammeme) ∧ (x.1 = pathOf lemmaPlace ↔ x.2 = .lem) ∧
    (x.1 = pathOf formPlace ↔ x.2 = .f) ∧ (x.1 = pathOf (lemmaPlace ++ [str "l"]) ↔ x.2 = .l) ∧
    (x.1 = pathOf (lemmaPlace ++ [str "l", str "g"]) ↔ x.2 = .lg) ∧ (x.1 = pathOf (formPlace ++ [str "g"]) ↔ x.2 = .fg) ∧
    (x.1 = pathOf (grammemePlace ++ [str "name"]) ↔ x.2 = .grammemeName) := by decide
  exact this _ hm

theorem Inside.snoc {st p : List Str} {n : Str} :
    Inside (st ++ [n]) p ↔ Inside st p ∨ pathOf (st ++ [n]) = pathOf p := by
  constructor
  · rintro ⟨k, hk⟩
    by_cases h : k ≤ st.length
    · rw [List.take_append_of_le_length h] at hk
      exact .inl ⟨k, hk⟩
    · rw [List.take_of_length_le (by rw [List.length_append, List.length_singleton]; omega)] at hk
      exact .inr hk
  · rintro (⟨k, hk⟩ | h)
    · by_cases h : k ≤ st.length
      · exact ⟨k, by rw [List.take_append_of_le_length h]; exact hk⟩
      · rw [List.take_of_length_le (by omega)] at hk
        exact ⟨st.length, by rw [List.take_append_of_le_length (Nat.le_refl _), List.take_length]; exact hk⟩
    · exact ⟨(st ++ [n]).length, by rw [List.take_length]; exact h⟩

theorem pathOf_take_length (st : List Str) (k : Nat) : (pathOf (st.take k)).length ≤ (pathOf st).length := by
  conv_rhs => rw [← List.take_append_drop k st]
  unfold pathOf
  rw [List.flatMap_append, List.length_append]
  omega

theorem not_inside {st p : List Str} {n : Str} (h : pathOf (st ++ [n]) = pathOf p) : ¬ Inside st p := by
  rintro ⟨k, hk⟩
  have := pathOf_take_length st k
  rw [hk, ← h, pathOf_snoc, List.length_append, List.length_cons] at this
  omega

/-- The state fits the open elements, whatever their names. -/
structure DInv (st : List Str) (s : PState) : Prop where
  path : s.path = pathOf st
  grammeme : s.grammeme.isSome = true ↔ Inside st grammemePlace
  lem : s.lem.isSome = true ↔ Inside st lemmaPlace
  form : s.form.isSome = true ↔ Inside st formPlace
  forms : ∀ l, s.lem = some l → ∀ x ∈ l.f, Option.isSome x = true

/-- The outcome of a token. -/
def Exactly (b : Prop) (o : Option PErr) : Prop := (o = some .nilDeref ↔ b) ∧ o ≠ some .slice

theorem DInv.start {fo : Str → Bool} {st : List Str} {s : PState} (h : DInv st s) (n : Str) (as : List XAttr) :
    Exactly (Orphan st (.start n as)) (s.startElement fo n as).2 ∧
      ((s.startElement fo n as).2 = none → DInv (st ++ [n]) (s.startElement fo n as).1) := by
  have hpath : s.path ++ 0x2e :: n = pathOf (st ++ [n]) := by rw [h.path, pathOf_snoc]
  unfold startElement
  simp only [hpath]
  unfold Orphan
  simp only [← getAttr_eq]
  cases hh : handlerOf (pathOf (st ++ [n])) with
  | none =>
    have h1 : pathOf (st ++ [n]) ≠ pathOf (lemmaPlace ++ [str "l"]) := by intro e; rw [e] at hh; revert hh; decide
    have h2 : pathOf (st ++ [n]) ≠ pathOf (lemmaPlace ++ [str "l", str "g"]) := by
      intro e; rw [e] at hh; revert hh; decide
    have h3 : pathOf (st ++ [n]) ≠ pathOf (formPlace ++ [str "g"]) := by intro e; rw [e] at hh; revert hh; decide
    exact ⟨⟨by simp [h1, h2, h3], by simp⟩, fun h => by cases h⟩
  | some hd =>
    obtain ⟨eG, eL, eF, eLl, eLg, eFg, eN⟩ := handler_only hh
    simp only [eLl, eLg, eFg, ← h.lem, ← h.form]
    have hg : ∀ {x : Option Tag}, (x.isSome = true ↔ s.grammeme.isSome = true ∨ hd = .grammeme) →
        (x.isSome = true ↔ Inside (st ++ [n]) grammemePlace) := by
      intro x hx
      rw [Inside.snoc, ← h.grammeme, eG]; exact hx
    have hl : ∀ {x : Option LemmaRec}, (x.isSome = true ↔ s.lem.isSome = true ∨ hd = .lem) →
        (x.isSome = true ↔ Inside (st ++ [n]) lemmaPlace) := by
      intro x hx
      rw [Inside.snoc, ← h.lem, eL]; exact hx
    have hf : ∀ {x : Option WForm}, (x.isSome = true ↔ s.form.isSome = true ∨ hd = .f) →
        (x.isSome = true ↔ Inside (st ++ [n]) formPlace) := by
      intro x hx
      rw [Inside.snoc, ← h.form, eF]; exact hx
    cases hd with
    | mute => exact ⟨⟨by simp [onStart], by simp [onStart]⟩, fun _ => ⟨rfl, hg (by simp [onStart]), hl (by simp [onStart]), hf (by simp [onStart]), h.forms⟩⟩
    | dictionary =>
      simp only [onStart]
      refine ⟨⟨by split <;> simp, by split <;> simp⟩,
        fun _ => ⟨rfl, hg (by simp), hl (by simp), hf (by simp), h.forms⟩⟩
    | grammeme =>
      simp only [onStart]
      cases getAttr (str "parent") as with
      | none => exact ⟨⟨by simp, by simp⟩, fun h => by cases h⟩
      | some p =>
        exact ⟨⟨by simp, by simp⟩, fun _ => ⟨rfl, hg (by simp), hl (by simp), hf (by simp), h.forms⟩⟩
    | grammemeName =>
      exact ⟨⟨by simp [onStart], by simp [onStart]⟩, fun _ => ⟨rfl, hg (by simp [onStart]), hl (by simp [onStart]), hf (by simp [onStart]), h.forms⟩⟩
    | lem =>
      simp only [onStart]
      refine ⟨⟨by split <;> simp, by split <;> simp⟩,
        fun _ => ⟨rfl, hg (by simp), hl (by simp), hf (by simp), ?_⟩⟩
      intro l hl x hx
      obtain rfl := Option.some.inj hl
      cases hx
    | l =>
      cases hs : s.lem with
      | none =>
        simp only [onStart]
        exact ⟨⟨by simp, by simp⟩, fun h => by cases h⟩
      | some l =>
        simp only [onStart]
        refine ⟨⟨by split <;> simp, by split <;> simp⟩, fun _ => ⟨rfl, hg (by simp), ?_, hf (by simp), ?_⟩⟩
        · exact hl (by simp [hs])
        · rw [← hs]; exact h.forms
    | lg =>
      simp only [onStart]
      cases getAttr (str "v") as with
      | none => exact ⟨⟨by simp, by simp⟩, fun h => by cases h⟩
      | some v =>
        cases hs : s.lem with
        | none => exact ⟨⟨by simp, by simp⟩, fun h => by cases h⟩
        | some l =>
          refine ⟨⟨by simp, by simp⟩, fun _ => ⟨rfl, hg (by simp), hl (by simp [hs]), hf (by simp), ?_⟩⟩
          intro l' hl' x hx
          obtain rfl := Option.some.inj hl'
          exact h.forms l hs x hx
    | f =>
      simp only [onStart]
      cases getAttr (str "t") as with
      | none => exact ⟨⟨by simp, by simp⟩, fun h => by cases h⟩
      | some p =>
        exact ⟨⟨by simp, by simp⟩, fun _ => ⟨rfl, hg (by simp), hl (by simp), hf (by simp), h.forms⟩⟩
    | fg =>
      simp only [onStart]
      cases getAttr (str "v") as with
      | none => exact ⟨⟨by simp, by simp⟩, fun h => by cases h⟩
      | some v =>
        cases hs : s.form with
        | none => exact ⟨⟨by simp, by simp⟩, fun h => by cases h⟩
        | some l =>
          exact ⟨⟨by simp, by simp⟩, fun _ => ⟨rfl, hg (by simp), hl (by simp), hf (by simp [hs]), h.forms⟩⟩

theorem DInv.chars {st : List Str} {s : PState} (h : DInv st s) (d : Str) :
    Exactly (Orphan st (.chars d)) (s.charData d).2 ∧ ((s.charData d).2 = none → DInv st (s.charData d).1) := by
  unfold charData
  rw [h.path]
  unfold Orphan
  cases hh : handlerOf (pathOf st) with
  | none =>
    have h1 : pathOf st ≠ pathOf (grammemePlace ++ [str "name"]) := by intro e; rw [e] at hh; revert hh; decide
    exact ⟨⟨by simp [h1], by simp⟩, fun h => by cases h⟩
  | some hd =>
    obtain ⟨-, -, -, -, -, -, eN⟩ := handler_only hh
    rw [eN, ← h.grammeme]
    cases hd with
    | grammemeName =>
      cases hs : s.grammeme with
      | none => exact ⟨⟨by simp, by simp⟩, fun h => by cases h⟩
      | some g =>
        refine ⟨⟨by simp, by simp⟩, fun _ => ⟨rfl, ?_, h.lem, h.form, h.forms⟩⟩
        have := h.grammeme
        rw [hs] at this
        exact this
    | _ => exact ⟨⟨by simp, by simp⟩, fun _ => h⟩

theorem DInv.stop {st : List Str} {s : PState} {n : Str} (h : DInv (st ++ [n]) s) :
    Exactly (Orphan (st ++ [n]) (.stop n)) (s.endElement n).2 ∧
      ((s.endElement n).2 = none → DInv st (s.endElement n).1) := by
  have hlen : ¬ s.path.length < n.length + 1 := by
    rw [h.path, pathOf_snoc]
    simp only [List.length_append, List.length_cons]
    omega
  have htake : s.path.take (s.path.length - n.length - 1) = pathOf st := by
    rw [h.path, pathOf_snoc]
    exact take_path ..
  unfold endElement
  simp only [hlen, if_false, htake]
  unfold Orphan
  cases hh : handlerOf (pathOf (st ++ [n])) with
  | none =>
    rw [h.path, hh]
    have h1 : pathOf (st ++ [n]) ≠ pathOf formPlace := by intro e; rw [e] at hh; revert hh; decide
    exact ⟨⟨by simp [h1], by simp⟩, fun h => by cases h⟩
  | some hd =>
    rw [h.path, hh]
    obtain ⟨eG, eL, eF, -, -, -, -⟩ := handler_only hh
    have hg := h.grammeme
    have hl := h.lem
    have hf := h.form
    rw [Inside.snoc, eG] at hg
    rw [Inside.snoc, eL] at hl
    rw [Inside.snoc, eF] at hf
    rw [eF, ← h.lem]
    have nG : hd = .grammeme → ¬ Inside st grammemePlace := fun e => not_inside (eG.2 e)
    have nL : hd = .lem → ¬ Inside st lemmaPlace := fun e => not_inside (eL.2 e)
    have nF : hd = .f → ¬ Inside st formPlace := fun e => not_inside (eF.2 e)
    cases hd with
    | grammeme =>
      obtain ⟨g, hs⟩ := Option.isSome_iff_exists.1 (hg.2 (.inr rfl))
      simp only [onEnd, hs]
      exact ⟨⟨by simp, by simp⟩, fun _ => ⟨rfl, by simpa using nG rfl, by simpa using hl, by simpa using hf, h.forms⟩⟩
    | f =>
      obtain ⟨w, hw⟩ := Option.isSome_iff_exists.1 (hf.2 (.inr rfl))
      cases hs : s.lem with
      | none =>
        simp only [onEnd, hs]
        exact ⟨⟨by simp, by simp⟩, fun h => by cases h⟩
      | some l =>
        simp only [onEnd, hs, hw]
        rw [hs] at hl
        refine ⟨⟨by simp, by simp⟩, fun _ => ⟨rfl, by simpa using hg, by simpa using hl, by simpa using nF rfl, ?_⟩⟩
        intro l' hl' x hx
        obtain rfl := Option.some.inj hl'
        rcases List.mem_append.1 hx with hx | hx
        · exact h.forms l hs x hx
        · rw [List.mem_singleton] at hx; subst hx; rfl
    | lem =>
      obtain ⟨l, hs⟩ := Option.isSome_iff_exists.1 (hl.2 (.inr rfl))
      have hsafe := addForms_safe l.lg l.f s.ix (h.forms l hs)
      simp only [onEnd, hs]
      cases ha : addForms l.lg s.ix l.f with
      | mk ix o =>
        rw [ha] at hsafe
        cases o with
        | some e => exact ⟨⟨by simpa using hsafe.1, hsafe.2⟩, fun h => by cases h⟩
        | none =>
          refine ⟨⟨by simp only; split <;> simp, by simp only; split <;> simp⟩,
            fun _ => ⟨rfl, by simpa using hg, by simpa using nL rfl, by simpa using hf, ?_⟩⟩
          intro l' hl'; cases hl'
    | _ => exact ⟨⟨by simp [onEnd], by simp [onEnd]⟩, fun _ => ⟨rfl, by simpa [onEnd] using hg, by simpa [onEnd] using hl, by simpa [onEnd] using hf, h.forms⟩⟩

/-- One token. -/
theorem DInv.token {fo : Str → Bool} {st st' : List Str} {s : PState} (h : DInv st s) {t : XTok}
    (hn : openAfter st [t] = some st') :
    Exactly (Orphan st t) (s.token fo t).2 ∧ ((s.token fo t).2 = none → DInv st' (s.token fo t).1) := by
  cases t with
  | start n as => obtain rfl := Option.some.inj hn; exact h.start n as
  | chars d => obtain rfl := Option.some.inj hn; exact h.chars d
  | other => obtain rfl := Option.some.inj hn; exact ⟨⟨by simp [PState.token, Orphan], by simp [PState.token]⟩, fun _ => h⟩
  | stop n =>
    rw [openAfter] at hn
    by_cases hl : st.getLast? = some n
    · rw [if_pos hl] at hn
      obtain rfl := Option.some.inj hn
      have e : st = st.dropLast ++ [n] := by
        rw [← List.dropLast_append_getLast? n hl]; simp
      rw [e] at h
      have := h.stop
      rw [← e] at this
      exact this
    · rw [if_neg hl] at hn
      cases hn

theorem openAfter_cons {st st' : List Str} {t : XTok} {ts : List XTok} (h : openAfter st (t :: ts) = some st') :
    ∃ st1, openAfter st [t] = some st1 ∧ openAfter st1 ts = some st' := by
  cases t with
  | start n as => exact ⟨_, rfl, h⟩
  | chars d => exact ⟨_, rfl, h⟩
  | other => exact ⟨_, rfl, h⟩
  | stop n =>
    rw [openAfter] at h
    by_cases hl : st.getLast? = some n
    · rw [if_pos hl] at h
      exact ⟨_, by rw [openAfter, if_pos hl]; rfl, h⟩
    · rw [if_neg hl] at h
      cases h

theorem DInv.run {fo : Str → Bool} (ts : List XTok) {st st' : List Str} {s : PState} (h : DInv st s)
    (hn : openAfter st ts = some st') :
    Exactly (∃ pre t post sto, ts = pre ++ t :: post ∧ openAfter st pre = some sto ∧ (PState.run fo s pre).2 = none ∧
        Orphan sto t) (PState.run fo s ts).2 ∧
    ((PState.run fo s ts).2 = none → DInv st' (PState.run fo s ts).1) := by
  induction ts generalizing st s with
  | nil =>
    obtain rfl := Option.some.inj hn
    refine ⟨⟨?_, by simp [PState.run]⟩, fun _ => h⟩
    simp only [PState.run, reduceCtorEq, false_iff]
    rintro ⟨pre, t, post, sto, e, -⟩
    simp at e
  | cons t ts ih =>
    obtain ⟨st1, h1, h2⟩ := openAfter_cons hn
    obtain ⟨⟨a1, a2⟩, a3⟩ := h.token (fo := fo) h1
    rw [PState.run]
    cases hr : s.token fo t with
    | mk s1 o =>
      rw [hr] at a1 a2 a3
      cases o with
      | some e =>
        refine ⟨⟨?_, a2⟩, fun h => by cases h⟩
        simp only at a1 ⊢
        constructor
        · intro he
          exact ⟨[], t, ts, st, rfl, rfl, rfl, a1.1 he⟩
        · rintro ⟨pre, t', post, sto, e1, e2, e3, e4⟩
          cases pre with
          | nil =>
            obtain ⟨rfl, rfl⟩ := List.cons.inj e1
            obtain rfl := Option.some.inj e2
            exact a1.2 e4
          | cons x pre =>
            obtain ⟨rfl, rfl⟩ := List.cons.inj e1
            rw [PState.run, hr] at e3
            cases e3
      | none =>
        obtain ⟨⟨b1, b2⟩, b3⟩ := ih (a3 rfl) h2
        refine ⟨⟨?_, b2⟩, b3⟩
        simp only
        rw [b1]
        constructor
        · rintro ⟨pre, t', post, sto, rfl, e2, e3, e4⟩
          refine ⟨t :: pre, t', post, sto, rfl, ?_, ?_, e4⟩
          · cases t with
            | start n as => obtain rfl := Option.some.inj h1; exact e2
            | chars d => obtain rfl := Option.some.inj h1; exact e2
            | other => obtain rfl := Option.some.inj h1; exact e2
            | stop n =>
              rw [openAfter] at h1 ⊢
              by_cases hl : st.getLast? = some n
              · rw [if_pos hl] at h1 ⊢
                obtain rfl := Option.some.inj h1
                exact e2
              · rw [if_neg hl] at h1
                cases h1
          · rw [PState.run, hr]; exact e3
        · rintro ⟨pre, t', post, sto, e1, e2, e3, e4⟩
          cases pre with
          | nil =>
            obtain ⟨rfl, rfl⟩ := List.cons.inj e1
            obtain rfl := Option.some.inj e2
            have := a1.2 e4
            cases this
          | cons x pre =>
            obtain ⟨rfl, rfl⟩ := List.cons.inj e1
            obtain ⟨st2, c1, c2⟩ := openAfter_cons e2
            rw [h1] at c1
            obtain rfl := Option.some.inj c1
            rw [PState.run, hr] at e3
            exact ⟨pre, t', post, sto, rfl, c2, e3, e4⟩

theorem DInv.init (ix : Index) (max : Int) : DInv [] (PState.init ix max) := by
  have : ∀ p : List Str, p ≠ [] → ¬ Inside [] p := by
    rintro p hp ⟨k, hk⟩
    rw [List.take_nil] at hk
    cases p with
    | nil => exact hp rfl
    | cons n p => cases hk
  refine ⟨rfl, ?_, ?_, ?_, fun l hl => by cases hl⟩
  · exact ⟨fun h => (by cases h), fun h => absurd h (this _ (by decide))⟩
  · exact ⟨fun h => (by cases h), fun h => absurd h (this _ (by decide))⟩
  · exact ⟨fun h => (by cases h), fun h => absurd h (this _ (by decide))⟩

/-- C42, exactly, for any element names: a well-nested stream of tokens makes the parser dereference a missing grammeme,
lemma, form or list element if and only if, after a part it accepted, there comes a token that by its dotted path belongs
to a grammeme, lemma or form although none is open. It never cuts more from its path than is there. -/
theorem C42_exact (fo : Str → Bool) (ix : Index) (max : Int) (ts : List XTok) (st : List Str)
    (hn : openAfter [] ts = some st) :
    ((PState.run fo (PState.init ix max) ts).2 = some .nilDeref ↔
      ∃ pre t post sto, ts = pre ++ t :: post ∧ openAfter [] pre = some sto ∧
        (PState.run fo (PState.init ix max) pre).2 = none ∧ Orphan sto t) ∧
    (PState.run fo (PState.init ix max) ts).2 ≠ some .slice :=
  (DInv.run (fo := fo) ts (DInv.init ix max) hn).1

/-- In a stream with dotted names that do no harm, nothing is an orphan: a dotted name in place of two nested elements. -/
example : let ts : List XTok := [.start (str "dictionary.grammemes") [], .start (str "grammeme") [⟨str "parent", []⟩],
      .start (str "name") [], .chars (str "NOUN"), .stop (str "name"), .stop (str "grammeme"),
      .stop (str "dictionary.grammemes")]
    openAfter [] ts = some [] ∧ (PState.run (fun _ => true) (PState.init Index.new 0) ts).2 = none := by decide

/-- ... and the token at which the witness of `not_C42` fails is one. -/
example : Orphan [str "dictionary", str "lemmata", str "lemma.f"] (.stop (str "lemma.f")) := by
  refine ⟨by decide, ?_⟩
  rintro ⟨k, hk⟩
  have : ∀ k ≤ 3, pathOf ([str "dictionary", str "lemmata", str "lemma.f"].take k) ≠ pathOf lemmaPlace := by decide
  by_cases h : k ≤ 3
  · exact this k h hk
  · rw [List.take_of_length_le (by simp only [List.length_cons, List.length_nil]; omega)] at hk
    revert hk
    decide

end Verif
