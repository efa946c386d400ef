import Verif.Lemmas.Parser

/-! # The parser on well-nested token streams -/

namespace Verif

open PState

/-- The path string of open elements. -/
def pathOf (st : List Str) : Str := st.flatMap fun n => 0x2e :: n

def DotFree (st : List Str) : Prop := ∀ n ∈ st, (0x2e : UInt8) ∉ n

theorem pathOf_snoc (st : List Str) (n : Str) : pathOf (st ++ [n]) = pathOf st ++ 0x2e :: n := by
  unfold pathOf
  rw [List.flatMap_append]
  simp

theorem dotted_cases {n n' r r' : Str} (hn : (0x2e : UInt8) ∉ n) (hn' : (0x2e : UInt8) ∉ n')
    (hr : r = [] ∨ ∃ t, r = 0x2e :: t) (hr' : r' = [] ∨ ∃ t, r' = 0x2e :: t) (h : n ++ r = n' ++ r') : n = n' ∧ r = r' := by
  induction n generalizing n' with
  | nil =>
    cases n' with
    | nil => exact ⟨rfl, h⟩
    | cons b n' =>
      rcases hr with rfl | ⟨t, rfl⟩
      · simp at h
      · simp only [List.nil_append, List.cons_append, List.cons.injEq] at h
        rw [← h.1] at hn'
        exact absurd (List.mem_cons_self ..) hn'
  | cons a n ih =>
    cases n' with
    | nil =>
      rcases hr' with rfl | ⟨t, rfl⟩
      · simp at h
      · simp only [List.nil_append, List.cons_append, List.cons.injEq] at h
        rw [h.1] at hn
        exact absurd (List.mem_cons_self ..) hn
    | cons b n' =>
      simp only [List.cons_append, List.cons.injEq] at h
      obtain ⟨rfl, h⟩ := h
      obtain ⟨rfl, h2⟩ := ih (fun hm => hn (List.mem_cons_of_mem _ hm)) (fun hm => hn' (List.mem_cons_of_mem _ hm)) h
      exact ⟨rfl, h2⟩

theorem pathOf_shape (st : List Str) : pathOf st = [] ∨ ∃ t, pathOf st = 0x2e :: t := by
  cases st with
  | nil => exact .inl rfl
  | cons n st => exact .inr ⟨n ++ pathOf st, rfl⟩

theorem pathOf_inj {st st' : List Str} (h : DotFree st) (h' : DotFree st') (he : pathOf st = pathOf st') : st = st' := by
  induction st generalizing st' with
  | nil =>
    cases st' with
    | nil => rfl
    | cons n st' => cases he
  | cons n st ih =>
    cases st' with
    | nil => cases he
    | cons n' st' =>
      have he : 0x2e :: (n ++ pathOf st) = 0x2e :: (n' ++ pathOf st') := he
      injection he with _ he
      obtain ⟨rfl, he2⟩ := dotted_cases (h n (List.mem_cons_self ..)) (h' n' (List.mem_cons_self ..)) (pathOf_shape st)
        (pathOf_shape st') he
      rw [ih (fun m hm => h m (List.mem_cons_of_mem _ hm)) (fun m hm => h' m (List.mem_cons_of_mem _ hm)) he2]

/-- The paths with a handler, the empty one included. -/
def knownPaths : List (List Str) := [] :: formatPaths

theorem handlers_paths : handlers.map (·.1) = knownPaths.map pathOf := by decide

theorem known_dotFree : ∀ st ∈ knownPaths, DotFree st := by unfold DotFree; decide

theorem lookup_mem {α β : Type} [BEq α] [LawfulBEq α] {l : List (α × β)} {a : α} {b : β} (h : l.lookup a = some b) :
    a ∈ l.map (·.1) := by
  induction l with
  | nil => cases h
  | cons x l ih =>
    obtain ⟨a', b'⟩ := x
    rw [List.lookup_cons] at h
    rw [List.map_cons, List.mem_cons]
    by_cases e : a = a'
    · exact .inl e
    · right
      apply ih
      rw [show (a == a') = false from beq_eq_false_iff_ne.2 e] at h
      exact h

theorem known_of_handler {st : List Str} (hd : DotFree st) {h : Handler} (hh : handlerOf (pathOf st) = some h) :
    st ∈ knownPaths := by
  have := lookup_mem (show handlers.lookup (pathOf st) = some h from hh)
  rw [handlers_paths, List.mem_map] at this
  obtain ⟨st', h1, h2⟩ := this
  rw [← pathOf_inj (known_dotFree st' h1) hd h2]
  exact h1

theorem handler_of_known {st : List Str} (h : st ∈ knownPaths) : ∃ hd, handlerOf (pathOf st) = some hd := by
  have : ∀ st ∈ knownPaths, (handlerOf (pathOf st)).isSome = true := by decide
  exact Option.isSome_iff_exists.1 (this st h)

def stG : List Str := [str "dictionary", str "grammemes", str "grammeme"]
def stL : List Str := [str "dictionary", str "lemmata", str "lemma"]
def stF : List Str := [str "dictionary", str "lemmata", str "lemma", str "f"]

/-- What each handler says about the open elements. -/
def Handler.at (st : List Str) : Handler → Bool
  | .grammeme => st = stG
  | .lem => st = stL
  | .f => st = stF
  | .grammemeName => stG.isPrefixOf st
  | .l => stL.isPrefixOf st
  | .lg => stL.isPrefixOf st
  | .fg => stF.isPrefixOf st
  | _ => true

theorem handler_at {st : List Str} (h : st ∈ knownPaths) {hd : Handler} (hh : handlerOf (pathOf st) = some hd) :
    hd.at st = true := by
  have : ∀ st ∈ knownPaths, (handlerOf (pathOf st)).all (fun hd => hd.at st) = true := by decide
  have := this st h
  rw [hh] at this
  exact this

theorem handler_stG : handlerOf (pathOf stG) = some .grammeme := by decide
theorem handler_stL : handlerOf (pathOf stL) = some .lem := by decide
theorem handler_stF : handlerOf (pathOf stF) = some .f := by decide

/-- The state fits the open elements. -/
structure PInv (st : List Str) (s : PState) : Prop where
  path : s.path = pathOf st
  known : st ∈ knownPaths
  grammeme : stG <+: st → s.grammeme.isSome = true
  lem : stL <+: st → s.lem.isSome = true
  form : stF <+: st → s.form.isSome = true
  forms : ∀ l, s.lem = some l → ∀ x ∈ l.f, Option.isSome x = true

theorem prefix_snoc {α : Type} {x st : List α} {n : α} (h : x <+: st ++ [n]) : x <+: st ∨ x = st ++ [n] := by
  rcases List.prefix_concat_iff.1 h with h | h
  · exact .inr h
  · exact .inl h

/-- Not an error of the kind a nil pointer gives. -/
def Safe (o : Option PErr) : Prop := o ≠ some .nilDeref ∧ o ≠ some .slice

theorem Safe.none : Safe none := ⟨by simp, by simp⟩

theorem addForms_safe (lg : List Str) (fs : List (Option WForm)) (ix : Index) (h : ∀ x ∈ fs, Option.isSome x = true) :
    Safe (addForms lg ix fs).2 := by
  induction fs generalizing ix with
  | nil => exact Safe.none
  | cons f fs ih =>
    cases f with
    | none => exact absurd (h none (List.mem_cons_self ..)) (by simp)
    | some w =>
      simp only [addForms]
      cases ix.addString w.form with
      | mk ix1 o1 => cases o1 with
        | ok id =>
          simp only
          cases ix1.addTagSet id (lg ++ w.g) with
          | mk ix2 o2 => cases o2 with
            | ok u => exact ih ix2 fun x hx => h x (List.mem_cons_of_mem _ hx)
            | _ => exact ⟨by simp, by simp⟩
        | _ => exact ⟨by simp, by simp⟩

theorem PInv.start {fo : Str → Bool} {st : List Str} {s : PState} (h : PInv st s) {n : Str} (hn : (0x2e : UInt8) ∉ n)
    (as : List XAttr) :
    Safe (s.startElement fo n as).2 ∧
      ((s.startElement fo n as).2 = none → PInv (st ++ [n]) (s.startElement fo n as).1) := by
  have hdf : DotFree (st ++ [n]) := by
    intro m hm
    rcases List.mem_append.1 hm with hm | hm
    · exact known_dotFree st h.known m hm
    · rw [List.mem_singleton] at hm; subst hm; exact hn
  have hpath : s.path ++ 0x2e :: n = pathOf (st ++ [n]) := by rw [h.path, pathOf_snoc]
  unfold startElement
  simp only [hpath]
  cases hh : handlerOf (pathOf (st ++ [n])) with
  | none => exact ⟨⟨by simp, by simp⟩, fun h => by cases h⟩
  | some hd =>
    have hk := known_of_handler hdf hh
    have hat := handler_at hk hh
    -- an element that is not the one opened now was open before
    have hG : hd ≠ .grammeme → stG <+: st ++ [n] → s.grammeme.isSome = true := by
      intro hne hp
      rcases prefix_snoc hp with hp | hp
      · exact h.grammeme hp
      · rw [← hp, handler_stG] at hh; exact absurd (Option.some.inj hh).symm hne
    have hL : hd ≠ .lem → stL <+: st ++ [n] → s.lem.isSome = true := by
      intro hne hp
      rcases prefix_snoc hp with hp | hp
      · exact h.lem hp
      · rw [← hp, handler_stL] at hh; exact absurd (Option.some.inj hh).symm hne
    have hF : hd ≠ .f → stF <+: st ++ [n] → s.form.isSome = true := by
      intro hne hp
      rcases prefix_snoc hp with hp | hp
      · exact h.form hp
      · rw [← hp, handler_stF] at hh; exact absurd (Option.some.inj hh).symm hne
    simp only
    cases hd with
    | mute => exact ⟨Safe.none, fun _ => ⟨rfl, hk, hG (by decide), hL (by decide), hF (by decide), h.forms⟩⟩
    | dictionary =>
      simp only [onStart]
      refine ⟨?_, fun _ => ⟨rfl, hk, hG (by decide), hL (by decide), hF (by decide), h.forms⟩⟩
      split <;> exact ⟨by simp, by simp⟩
    | grammeme =>
      simp only [onStart]
      cases getAttr (str "parent") as with
      | none => exact ⟨⟨by simp, by simp⟩, fun h => by cases h⟩
      | some p => exact ⟨Safe.none, fun _ => ⟨rfl, hk, fun _ => rfl, hL (by decide), hF (by decide), h.forms⟩⟩
    | grammemeName => exact ⟨Safe.none, fun _ => ⟨rfl, hk, hG (by decide), hL (by decide), hF (by decide), h.forms⟩⟩
    | lem =>
      simp only [onStart]
      refine ⟨?_, fun _ => ⟨rfl, hk, hG (by decide), fun _ => rfl, hF (by decide), ?_⟩⟩
      · split <;> exact ⟨by simp, by simp⟩
      · intro l hl x hx
        obtain rfl := Option.some.inj hl
        cases hx
    | l =>
      have hl := hL (by decide) (List.isPrefixOf_iff_prefix.1 hat)
      obtain ⟨l, hl⟩ := Option.isSome_iff_exists.1 hl
      simp only [onStart, hl]
      refine ⟨?_, fun _ => ⟨rfl, hk, hG (by decide), fun _ => rfl, hF (by decide), ?_⟩⟩
      · split <;> exact ⟨by simp, by simp⟩
      · rw [← hl]; exact h.forms
    | lg =>
      have hl := hL (by decide) (List.isPrefixOf_iff_prefix.1 hat)
      obtain ⟨l, hl⟩ := Option.isSome_iff_exists.1 hl
      simp only [onStart, hl]
      cases getAttr (str "v") as with
      | none => exact ⟨⟨by simp, by simp⟩, fun h => by cases h⟩
      | some p =>
        refine ⟨Safe.none, fun _ => ⟨rfl, hk, hG (by decide), fun _ => rfl, hF (by decide), ?_⟩⟩
        intro l' hl' x hx
        obtain rfl := Option.some.inj hl'
        exact h.forms l hl x hx
    | f =>
      simp only [onStart]
      cases getAttr (str "t") as with
      | none => exact ⟨⟨by simp, by simp⟩, fun h => by cases h⟩
      | some p => exact ⟨Safe.none, fun _ => ⟨rfl, hk, hG (by decide), hL (by decide), fun _ => rfl, h.forms⟩⟩
    | fg =>
      have hf := hF (by decide) (List.isPrefixOf_iff_prefix.1 hat)
      obtain ⟨w, hf⟩ := Option.isSome_iff_exists.1 hf
      simp only [onStart, hf]
      cases getAttr (str "v") as with
      | none => exact ⟨⟨by simp, by simp⟩, fun h => by cases h⟩
      | some p => exact ⟨Safe.none, fun _ => ⟨rfl, hk, hG (by decide), hL (by decide), fun _ => rfl, h.forms⟩⟩

theorem PInv.chars {st : List Str} {s : PState} (h : PInv st s) (d : Str) :
    (s.charData d).2 = none ∧ PInv st (s.charData d).1 := by
  obtain ⟨hd, hh⟩ := handler_of_known h.known
  have hat := handler_at h.known hh
  unfold charData
  rw [h.path, hh]
  cases hd with
  | grammemeName =>
    have hg := h.grammeme (List.isPrefixOf_iff_prefix.1 hat)
    obtain ⟨g, hg⟩ := Option.isSome_iff_exists.1 hg
    simp only [hg]
    exact ⟨trivial, rfl, h.known, fun _ => rfl, h.lem, h.form, h.forms⟩
  | _ => exact ⟨rfl, h⟩

theorem PInv.stop {st : List Str} {s : PState} {n : Str} (h : PInv (st ++ [n]) s) :
    Safe (s.endElement n).2 ∧ ((s.endElement n).2 = none → PInv st (s.endElement n).1) := by
  have hpar : st ∈ knownPaths := by
    have : ∀ x ∈ knownPaths, x.dropLast ∈ knownPaths := by decide
    have := this _ h.known
    rwa [List.dropLast_concat] at this
  obtain ⟨hd, hh⟩ := handler_of_known h.known
  have hat := handler_at h.known hh
  have hlen : ¬ s.path.length < n.length + 1 := by
    rw [h.path, pathOf_snoc]
    simp only [List.length_append, List.length_cons]
    omega
  have htake : s.path.take (s.path.length - n.length - 1) = pathOf st := by
    rw [h.path, pathOf_snoc]
    exact take_path ..
  have up : ∀ {x : List Str}, x <+: st → x <+: st ++ [n] := fun hx => hx.trans (List.prefix_append ..)
  have self : ∀ {x : List Str}, st ++ [n] = x → ¬ x <+: st := by
    rintro x rfl hx
    have := hx.length_le
    simp only [List.length_append, List.length_singleton] at this
    omega
  unfold endElement
  rw [show handlerOf s.path = some hd by rw [h.path]; exact hh]
  simp only
  rw [if_neg hlen]
  simp only [htake]
  have keep : ∀ hd, s.onEnd hd = (s, none) →
      Safe (s.onEnd hd).2 ∧ ((s.onEnd hd).2 = none → PInv st { (s.onEnd hd).1 with path := pathOf st }) := by
    intro hd e
    rw [e]
    exact ⟨Safe.none, fun _ => ⟨rfl, hpar, fun hx => h.grammeme (up hx), fun hx => h.lem (up hx),
      fun hx => h.form (up hx), h.forms⟩⟩
  cases hd with
  | grammeme =>
    have e : st ++ [n] = stG := of_decide_eq_true hat
    obtain ⟨g, hg⟩ := Option.isSome_iff_exists.1 (h.grammeme (by rw [e]; exact List.prefix_rfl))
    simp only [onEnd, hg]
    exact ⟨Safe.none, fun _ => ⟨rfl, hpar, fun hx => absurd hx (self e), fun hx => h.lem (up hx),
      fun hx => h.form (up hx), h.forms⟩⟩
  | f =>
    have e : st ++ [n] = stF := of_decide_eq_true hat
    obtain ⟨l, hl⟩ := Option.isSome_iff_exists.1 (h.lem (by rw [e]; decide))
    obtain ⟨w, hw⟩ := Option.isSome_iff_exists.1 (h.form (by rw [e]; exact List.prefix_rfl))
    simp only [onEnd, hl, hw]
    refine ⟨Safe.none, fun _ => ⟨rfl, hpar, fun hx => h.grammeme (up hx), fun _ => rfl,
      fun hx => absurd hx (self e), ?_⟩⟩
    intro l' hl' x hx
    obtain rfl := Option.some.inj hl'
    rcases List.mem_append.1 hx with hx | hx
    · exact h.forms l hl x hx
    · rw [List.mem_singleton] at hx; subst hx; rfl
  | lem =>
    have e : st ++ [n] = stL := of_decide_eq_true hat
    obtain ⟨l, hl⟩ := Option.isSome_iff_exists.1 (h.lem (by rw [e]; exact List.prefix_rfl))
    have hs := addForms_safe l.lg l.f s.ix (h.forms l hl)
    simp only [onEnd, hl]
    cases hf : addForms l.lg s.ix l.f with
    | mk ix o =>
      rw [hf] at hs
      cases o with
      | some e => exact ⟨hs, fun h => by cases h⟩
      | none =>
        refine ⟨?_, fun _ => ⟨rfl, hpar, fun hx => h.grammeme (up hx), fun hx => absurd hx (self e),
          fun hx => h.form (up hx), ?_⟩⟩
        · simp only; split <;> exact ⟨by simp, by simp⟩
        · intro l' hl'; cases hl'
  | _ => exact keep _ rfl

/-- Reading a well-nested stream without dots: no nil pointer, and while there is no error the path is that of the
open elements. -/
theorem PInv.run {fo : Str → Bool} (ts : List XTok) {st st' : List Str} {s : PState} (h : PInv st s)
    (hn : openAfter st ts = some st') (hd : NoDots ts) :
    Safe (PState.run fo s ts).2 ∧ ((PState.run fo s ts).2 = none → PInv st' (PState.run fo s ts).1) := by
  induction ts generalizing st s with
  | nil =>
    obtain rfl := Option.some.inj hn
    exact ⟨Safe.none, fun _ => h⟩
  | cons t ts ih =>
    have hd' : NoDots ts := fun n as hm => hd n as (List.mem_cons_of_mem _ hm)
    have go : ∀ st1, Safe (s.token fo t).2 ∧ ((s.token fo t).2 = none → PInv st1 (s.token fo t).1) →
        openAfter st1 ts = some st' →
        Safe (PState.run fo s (t :: ts)).2 ∧
          ((PState.run fo s (t :: ts)).2 = none → PInv st' (PState.run fo s (t :: ts)).1) := by
      intro st1 h1 h2
      rw [PState.run]
      cases hr : s.token fo t with
      | mk s1 o =>
        rw [hr] at h1
        cases o with
        | none => exact ih (h1.2 rfl) h2 hd'
        | some e => exact ⟨h1.1, fun h => by cases h⟩
    cases t with
    | start n as => exact go (st ++ [n]) (h.start (hd n as (List.mem_cons_self ..)) as) hn
    | chars d => exact go st ⟨by rw [show (s.token fo (.chars d)).2 = none from (h.chars d).1]; exact Safe.none,
        fun _ => (h.chars d).2⟩ hn
    | other => exact go st ⟨Safe.none, fun _ => h⟩ hn
    | stop n =>
      rw [openAfter] at hn
      by_cases hl : st.getLast? = some n
      · rw [if_pos hl] at hn
        have e : st = st.dropLast ++ [n] := by
          rw [← List.dropLast_append_getLast? n hl]; simp
        rw [e] at h
        exact go st.dropLast h.stop hn
      · rw [if_neg hl] at hn
        cases hn

theorem PInv.init (ix : Index) (max : Int) : PInv [] (PState.init ix max) :=
  ⟨rfl, by decide, fun h => absurd h (by decide), fun h => absurd h (by decide), fun h => absurd h (by decide),
    fun l hl => by cases hl⟩

/-! ### Limits -/

theorem execCounted_nolimit {max : Int} (hm : max ≤ 0) (es : List Entry) (ix : Index) (c : Nat) :
    (execCounted max ix c es).1 = (execEntries ix es).1 ∧ (execCounted max ix c es).2.2 = (execEntries ix es).2 := by
  induction es generalizing ix c with
  | nil => exact ⟨rfl, rfl⟩
  | cons e es ih =>
    cases e with
    | grammeme n p => exact ih ..
    | lem fs =>
      rw [execCounted, execEntries, Entry.exec]
      cases addFormsSpec ix fs with
      | mk ix' o => cases o with
        | some e => exact ⟨rfl, rfl⟩
        | none =>
          simp only
          rw [if_neg (by omega)]
          exact ih ..

theorem execCounted_limit {m : Nat} (es : List Entry) (ix : Index) (c k : Nat) (hk : m = c + k + 1) :
    (execCounted m ix c es).1 = (execEntries ix (upToLemma (k + 1) es)).1 ∧
    (execCounted m ix c es).2.2 = match (execEntries ix (upToLemma (k + 1) es)).2 with
      | some e => some e
      | none => if k + 1 ≤ lemmaCount es then some .controlledStop else none := by
  induction es generalizing ix c k with
  | nil =>
    refine ⟨rfl, (if_neg (show ¬ k + 1 ≤ lemmaCount [] from ?_)).symm⟩
    rw [lemmaCount]
    omega
  | cons e es ih =>
    cases e with
    | grammeme n p =>
      rw [execCounted]
      have : upToLemma (k + 1) (.grammeme n p :: es) = .grammeme n p :: upToLemma (k + 1) es := by
        cases k <;> rfl
      rw [this, execEntries, Entry.exec]
      exact ih _ _ _ hk
    | lem fs =>
      rw [execCounted, lemmaCount]
      cases k with
      | zero =>
        rw [upToLemma, execEntries, Entry.exec]
        cases addFormsSpec ix fs with
        | mk ix' o => cases o with
          | some e => exact ⟨rfl, rfl⟩
          | none =>
            simp only
            rw [if_pos (by omega)]
            refine ⟨rfl, ?_⟩
            simp only [execEntries]
            rw [if_pos (by omega)]
      | succ k =>
        rw [upToLemma, execEntries, Entry.exec]
        cases addFormsSpec ix fs with
        | mk ix' o => cases o with
          | some e => exact ⟨rfl, rfl⟩
          | none =>
            simp only
            rw [if_neg (by omega)]
            obtain ⟨h1, h2⟩ := ih ix' (c + 1) k (by omega)
            refine ⟨h1, h2.trans ?_⟩
            cases (execEntries ix' (upToLemma (k + 1) es)).2 with
            | some e => rfl
            | none =>
              simp only
              by_cases hc : k + 1 ≤ lemmaCount es
              · rw [if_pos hc, if_pos (by omega)]
              · rw [if_neg hc, if_neg (by omega)]

/-- The outcome of the parser, from the simulation. -/
theorem Sim.outcome {fo : Str → Bool} {s : PState} {ts : List XTok} {es : List Entry} (h : Sim fo s ts es) :
    (PState.run fo s ts).1.ix = (execCounted s.maxLemmas s.ix s.parsedLemmas es).1 ∧
    (PState.run fo s ts).2 = (execCounted s.maxLemmas s.ix s.parsedLemmas es).2.2 := by
  unfold Sim at h
  cases he : execCounted s.maxLemmas s.ix s.parsedLemmas es with
  | mk ix r => cases r with
    | mk c o =>
      rw [he] at h
      cases o with
      | none =>
        unfold Does at h
        simp only at h
        rw [h]
        exact ⟨rfl, rfl⟩
      | some e =>
        obtain ⟨s', h1, h2, _⟩ := h
        rw [h1]
        exact ⟨h2, rfl⟩

/-! ### Attributes -/

/-- The path at which each handler that reads attributes runs. -/
def Handler.path : Handler → Option (List Str)
  | .dictionary => some [str "dictionary"]
  | .grammeme => some [str "dictionary", str "grammemes", str "grammeme"]
  | .lem => some [str "dictionary", str "lemmata", str "lemma"]
  | .l => some [str "dictionary", str "lemmata", str "lemma", str "l"]
  | .f => some [str "dictionary", str "lemmata", str "lemma", str "f"]
  | .lg => some [str "dictionary", str "lemmata", str "lemma", str "l", str "g"]
  | .fg => some [str "dictionary", str "lemmata", str "lemma", str "f", str "g"]
  | _ => none

theorem handler_path {st : List Str} (h : st ∈ knownPaths) {hd : Handler} (hh : handlerOf (pathOf st) = some hd) :
    (∀ p, hd.path = some p → st = p) ∧
    (hd.path = none → st ∉ [.dictionary, .grammeme, .lem, .l, .f, .lg, .fg].filterMap Handler.path) := by
  have : ∀ st ∈ knownPaths, (handlerOf (pathOf st)).all (fun hd => match hd.path with
      | some p => st = p
      | none => st ∉ [Handler.dictionary, .grammeme, .lem, .l, .f, .lg, .fg].filterMap Handler.path) = true := by decide
  have := this st h
  rw [hh] at this
  simp only [Option.all_some] at this
  constructor
  · intro p hp
    rw [hp] at this
    exact of_decide_eq_true this
  · intro hp
    rw [hp] at this
    exact of_decide_eq_true this

/-- With the handler's path known and no nil pointer, a start element fails exactly for bad attributes. -/
theorem onStart_attrs {fo : Str → Bool} {st : List Str} (h : st ∈ knownPaths) {hd : Handler}
    (hh : handlerOf (pathOf st) = some hd) (s : PState) (as : List XAttr)
    (hs : Safe (s.onStart fo as hd).2) :
    ((s.onStart fo as hd).1.ix = s.ix) ∧
    (AttrsOK fo st as → (s.onStart fo as hd).2 = none) ∧ (¬ AttrsOK fo st as → (s.onStart fo as hd).2 = some .attr) := by
  obtain ⟨hp, hnp⟩ := handler_path h hh
  have triv : hd.path = none → AttrsOK fo st as := by
    intro e
    have := hnp e
    simp only [List.filterMap_cons, Handler.path, List.filterMap_nil, List.mem_cons, List.not_mem_nil, not_or,
      or_false] at this
    obtain ⟨a1, a2, a3, a4, a5, a6, a7⟩ := this
    unfold AttrsOK
    rw [if_neg a1, if_neg a2, if_neg a3, if_neg (by rintro (h | h); exact a4 h; exact a5 h),
      if_neg (by rintro (h | h); exact a6 h; exact a7 h)]
    trivial
  cases hd with
  | mute => exact ⟨rfl, fun _ => rfl, fun hn => absurd (triv rfl) hn⟩
  | grammemeName => exact ⟨rfl, fun _ => rfl, fun hn => absurd (triv rfl) hn⟩
  | dictionary =>
    obtain rfl := hp _ rfl
    simp only [onStart]
    unfold AttrsOK
    rw [if_pos rfl]
    refine ⟨trivial, ?_, ?_⟩
    · intro ha
      have hd : dictionaryOK fo as = true := by
        unfold dictionaryOK
        rw [List.all_eq_true]
        intro a hm
        by_cases h1 : a.name = str "version"
        · rw [if_pos h1]; exact ha.1 a hm h1
        · rw [if_neg h1]
          by_cases h2 : a.name = str "revision"
          · rw [if_pos h2]; exact (atoiOK_iff _).2 (ha.2 a hm h2)
          · rw [if_neg h2]
      rw [hd]; rfl
    · intro hn
      have hd : dictionaryOK fo as = false := by
        by_contra hd
        rw [Bool.not_eq_false] at hd
        unfold dictionaryOK at hd
        rw [List.all_eq_true] at hd
        refine hn ⟨fun a ha h1 => ?_, fun a ha h2 => ?_⟩
        · have := hd a ha
          rwa [if_pos h1] at this
        · have := hd a ha
          rw [if_neg (by rw [h2]; decide), if_pos h2] at this
          exact (atoiOK_iff _).1 this
      rw [hd]; rfl
  | grammeme =>
    obtain rfl := hp _ rfl
    simp only [onStart, getAttr_eq]
    unfold AttrsOK
    rw [if_neg (by decide), if_pos rfl]
    cases attrOf (str "parent") as with
    | none => exact ⟨rfl, fun ⟨v, hv⟩ => (by cases hv), fun _ => rfl⟩
    | some p => exact ⟨rfl, fun _ => rfl, fun hn => absurd ⟨p, rfl⟩ hn⟩
  | lem =>
    obtain rfl := hp _ rfl
    simp only [onStart]
    unfold AttrsOK
    rw [if_neg (by decide), if_neg (by decide), if_pos rfl]
    have key : ∀ n, (∃ v, attrOf n as = some v ∧ Int64Text v) ↔ intAttrOK n as = true := by
      intro n
      unfold intAttrOK
      rw [getAttr_eq]
      cases attrOf n as with
      | none => simp
      | some v => simp [atoiOK_iff]
    rw [key, key]
    refine ⟨trivial, fun ha => if_pos ha, fun ha => if_neg ha⟩
  | l =>
    obtain rfl := hp _ rfl
    cases hl : s.lem with
    | none => simp only [onStart, hl] at hs; exact absurd rfl hs.1
    | some l =>
      simp only [onStart, hl, getAttr_eq]
      unfold AttrsOK
      rw [if_neg (by decide), if_neg (by decide), if_neg (by decide), if_pos (by decide)]
      cases attrOf (str "t") as with
      | none => exact ⟨trivial, fun ⟨v, hv⟩ => (by cases hv), fun _ => rfl⟩
      | some p => exact ⟨trivial, fun _ => rfl, fun hn => absurd ⟨p, rfl⟩ hn⟩
  | f =>
    obtain rfl := hp _ rfl
    simp only [onStart, getAttr_eq]
    unfold AttrsOK
    rw [if_neg (by decide), if_neg (by decide), if_neg (by decide), if_pos (by decide)]
    cases attrOf (str "t") as with
    | none => exact ⟨rfl, fun ⟨v, hv⟩ => (by cases hv), fun _ => rfl⟩
    | some p => exact ⟨rfl, fun _ => rfl, fun hn => absurd ⟨p, rfl⟩ hn⟩
  | lg =>
    obtain rfl := hp _ rfl
    unfold AttrsOK
    rw [if_neg (by decide), if_neg (by decide), if_neg (by decide), if_neg (by decide), if_pos (by decide)]
    simp only [onStart, getAttr_eq] at hs ⊢
    cases ha : attrOf (str "v") as with
    | none => exact ⟨rfl, fun ⟨v, hv⟩ => (by cases hv), fun _ => rfl⟩
    | some p =>
      rw [ha] at hs
      cases hl : s.lem with
      | none => rw [hl] at hs; exact absurd rfl hs.1
      | some l => exact ⟨rfl, fun _ => rfl, fun hn => absurd ⟨p, rfl⟩ hn⟩
  | fg =>
    obtain rfl := hp _ rfl
    unfold AttrsOK
    rw [if_neg (by decide), if_neg (by decide), if_neg (by decide), if_neg (by decide), if_pos (by decide)]
    simp only [onStart, getAttr_eq] at hs ⊢
    cases ha : attrOf (str "v") as with
    | none => exact ⟨rfl, fun ⟨v, hv⟩ => (by cases hv), fun _ => rfl⟩
    | some p =>
      rw [ha] at hs
      cases hl : s.form with
      | none => rw [hl] at hs; exact absurd rfl hs.1
      | some l => exact ⟨rfl, fun _ => rfl, fun hn => absurd ⟨p, rfl⟩ hn⟩

end Verif
