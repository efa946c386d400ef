import Verif.Spec.Document

/-! # The parser on a document -/

namespace Verif

open PState

theorem getAttr_eq (n : Str) (as : List XAttr) : getAttr n as = attrOf n as := by
  induction as with
  | nil => rfl
  | cons a as ih =>
    unfold getAttr at ih ⊢
    unfold attrOf
    rw [List.find?_cons]
    by_cases h : a.name = n
    · simp [h]
    · simp only [h, decide_false, if_false]; exact ih

theorem digits_from (s : Str) : ∀ a : Nat, s.foldl (fun acc c => acc.bind fun n =>
      if 0x30 ≤ c.toNat ∧ c.toNat ≤ 0x39 then some (n * 10 + (c.toNat - 0x30)) else none) (some a) =
    if ∀ c ∈ s, 0x30 ≤ c.toNat ∧ c.toNat ≤ 0x39 then some (a * 10 ^ s.length + decimal s) else none := by
  have hn : ∀ t : Str, t.foldl (fun (acc : Option Nat) c => acc.bind fun n =>
      if 0x30 ≤ c.toNat ∧ c.toNat ≤ 0x39 then some (n * 10 + (c.toNat - 0x30)) else none) none = none := by
    intro t
    induction t with
    | nil => rfl
    | cons c cs ih => exact ih
  induction s with
  | nil => intro a; simp [decimal]
  | cons c cs ih =>
    intro a
    rw [List.foldl_cons, Option.bind_some]
    by_cases hc : 0x30 ≤ c.toNat ∧ c.toNat ≤ 0x39
    · rw [if_pos hc, ih]
      by_cases h : ∀ c ∈ cs, 0x30 ≤ c.toNat ∧ c.toNat ≤ 0x39
      · have h' : ∀ x ∈ c :: cs, 0x30 ≤ x.toNat ∧ x.toNat ≤ 0x39 := List.forall_mem_cons.2 ⟨hc, h⟩
        rw [if_pos h, if_pos h', decimal, List.length_cons, Nat.pow_succ, Nat.add_mul, Nat.mul_assoc,
          Nat.mul_comm 10 (10 ^ cs.length)]
        congr 1
        omega
      · rw [if_neg h, if_neg fun h' => h fun x hx => h' x (List.mem_cons_of_mem _ hx)]
    · rw [if_neg hc, hn, if_neg fun h' => hc (h' c List.mem_cons_self)]

theorem digits_eq (s : Str) :
    digits s = if ∀ c ∈ s, 0x30 ≤ c.toNat ∧ c.toNat ≤ 0x39 then some (decimal s) else none := by
  unfold digits
  rw [digits_from, Nat.zero_mul, Nat.zero_add]

theorem atoi_digits (s : Str) (p : Nat → Prop) [DecidablePred p] :
    (decide (s ≠ []) && match digits s with | none => false | some n => decide (p n)) = true ↔ IsDigits s ∧ p (decimal s) := by
  rw [digits_eq]
  unfold IsDigits
  by_cases h : ∀ c ∈ s, 0x30 ≤ c.toNat ∧ c.toNat ≤ 0x39
  · rw [if_pos h]
    simp only [Bool.and_eq_true, decide_eq_true_eq]
    exact ⟨fun a => ⟨⟨a.1, h⟩, a.2⟩, fun a => ⟨a.1.1, a.2⟩⟩
  · rw [if_neg h]; simp only [Bool.and_false]
    exact ⟨fun h => (nomatch h), fun h' => absurd h'.1.2 h⟩

/-- `strconv.Atoi` as modelled accepts the decimal integers of 64 bits. -/
theorem atoiOK_iff (s : Str) : atoiOK s = true ↔ Int64Text s := by
  have key : atoiOK s = true ↔
      IsDigits (if s.head? = some 0x2d ∨ s.head? = some 0x2b then s.tail else s) ∧
        (if s.head? = some 0x2d then decimal (if s.head? = some 0x2d ∨ s.head? = some 0x2b then s.tail else s) ≤ 2 ^ 63
         else decimal (if s.head? = some 0x2d ∨ s.head? = some 0x2b then s.tail else s) < 2 ^ 63) := by
    generalize hd : (if s.head? = some 0x2d ∨ s.head? = some 0x2b then s.tail else s) = ds
    have := atoi_digits ds fun n => if s.head? = some 0x2d then n ≤ 2 ^ 63 else n < 2 ^ 63
    rw [← this]
    unfold atoiOK
    simp only [hd]
    cases digits ds with
    | none => rfl
    | some n => by_cases h : s.head? = some 0x2d <;> simp [h]
  rw [key]
  match s with
  | [] => simp [Int64Text, IsDigits]
  | c :: cs =>
    by_cases h1 : c = 0x2d
    · subst h1; simp [Int64Text]
    · by_cases h2 : c = 0x2b
      · subst h2; simp [Int64Text]
      · have e : Int64Text (c :: cs) = (IsDigits (c :: cs) ∧ decimal (c :: cs) < 2 ^ 63) := by
          unfold Int64Text
          split
          · next h => exact absurd (List.cons.inj h).1 h1
          · next h => exact absurd (List.cons.inj h).1 h2
          · rfl
        rw [e]
        simp [h1, h2]

theorem PState.run_append (fo : Str → Bool) (s : PState) (a b : List XTok) :
    run fo s (a ++ b) = match run fo s a with
      | (s', none) => run fo s' b
      | (s', some e) => (s', some e) := by
  induction a generalizing s with
  | nil => rfl
  | cons t ts ih =>
    rw [List.cons_append, run, run]
    cases h : s.token fo t with
    | mk s' o => cases o with
      | none => exact ih s'
      | some e => rfl

/-- The tokens are processed without error and lead from `s` to `s'`. -/
def Does (fo : Str → Bool) (s : PState) (ts : List XTok) (s' : PState) : Prop := run fo s ts = (s', none)

theorem Does.nil {fo : Str → Bool} {s : PState} : Does fo s [] s := rfl

theorem Does.append {fo : Str → Bool} {s s' s'' : PState} {a b : List XTok} (h : Does fo s a s') (h' : Does fo s' b s'') :
    Does fo s (a ++ b) s'' := by
  unfold Does at *
  rw [run_append, h]
  exact h'

theorem take_path (p n : Str) : (p ++ 0x2e :: n).take ((p ++ 0x2e :: n).length - n.length - 1) = p := by
  have : (p ++ 0x2e :: n).length - n.length - 1 = p.length := by simp only [List.length_append, List.length_cons]; omega
  rw [this]
  exact List.take_left

/-- A whole element. -/
theorem Does.elem {fo : Str → Bool} {s s1 s2 s3 : PState} {n : Str} {as : List XAttr} {hd : Handler} {ts : List XTok}
    (h : handlerOf (s.path ++ 0x2e :: n) = some hd)
    (h1 : PState.onStart fo { s with path := s.path ++ 0x2e :: n } as hd = (s1, none))
    (h2 : Does fo s1 ts s2) (h3 : s2.path = s.path ++ 0x2e :: n) (h4 : s2.onEnd hd = (s3, none)) :
    Does fo s (.start n as :: (ts ++ [.stop n])) { s3 with path := s.path } := by
  unfold Does
  rw [run]
  simp only [token, startElement, h, h1]
  rw [run_append, h2]
  simp only [run, token, endElement, h3, h, h4]
  rw [if_neg (by simp only [List.length_append, List.length_cons]; omega), take_path]

/-- The last step of an element fails. -/
theorem fails_elem {fo : Str → Bool} {s s1 s2 s3 : PState} {n : Str} {as : List XAttr} {hd : Handler} {ts : List XTok}
    {e : PErr} (h : handlerOf (s.path ++ 0x2e :: n) = some hd)
    (h1 : PState.onStart fo { s with path := s.path ++ 0x2e :: n } as hd = (s1, none))
    (h2 : Does fo s1 ts s2) (h3 : s2.path = s.path ++ 0x2e :: n) (h4 : s2.onEnd hd = (s3, some e)) :
    run fo s (.start n as :: (ts ++ [.stop n])) = ({ s3 with path := s.path }, some e) := by
  rw [run]
  simp only [token, startElement, h, h1]
  rw [run_append, h2]
  simp only [run, token, endElement, h3, h, h4]
  rw [if_neg (by simp only [List.length_append, List.length_cons]; omega), take_path]

/-- The names that may follow a path. -/
def nextNames (path : List Str) : List Str := (formatPaths.filter fun p => p.dropLast = path).filterMap List.getLast?

theorem mem_nextNames {path : List Str} {n : Str} (h : path ++ [n] ∈ formatPaths) : n ∈ nextNames path := by
  unfold nextNames
  rw [List.mem_filterMap]
  refine ⟨path ++ [n], ?_, by simp⟩
  rw [List.mem_filter]
  exact ⟨h, by simp⟩

/-- Text and comments where nothing is done with text. -/
theorem does_text {fo : Str → Bool} {s : PState} {hd : Handler} (h : handlerOf s.path = some hd)
    (hn : hd ≠ .grammemeName) (d : Str) : Does fo s [.chars d] s := by
  unfold Does
  simp only [run, token, charData, h]

theorem does_other {fo : Str → Bool} {s : PState} : Does fo s [.other] s := rfl

/-- Children that are only text and comments. -/
theorem does_leaf {fo : Str → Bool} {s : PState} {path : List Str} {hd : Handler} (h : handlerOf s.path = some hd)
    (hn : hd ≠ .grammemeName) (hp : nextNames path = []) (ks : List Xml) (hv : Xml.ValidAll fo path ks) :
    Does fo s (Xml.tokensAll ks) s := by
  induction ks with
  | nil => exact Does.nil
  | cons k ks ih =>
    rw [Xml.ValidAll] at hv
    rw [Xml.tokensAll]
    refine Does.append ?_ (ih hv.2)
    cases k with
    | text d => exact does_text h hn d
    | other => exact does_other
    | elem n as ks' =>
      have := mem_nextNames hv.1.1
      rw [hp] at this
      cases this

/-- Elements that do nothing. -/
theorem does_muted {fo : Str → Bool} {s : PState} {n : Str} {as : List XAttr} {ts : List XTok}
    (h : handlerOf (s.path ++ 0x2e :: n) = some .mute)
    (h2 : Does fo { s with path := s.path ++ 0x2e :: n } ts { s with path := s.path ++ 0x2e :: n }) :
    Does fo s (.start n as :: (ts ++ [.stop n])) s :=
  Does.elem (s := s) h (s1 := { s with path := s.path ++ 0x2e :: n }) rfl h2 rfl
    (s3 := { s with path := s.path ++ 0x2e :: n }) rfl

/-- Children of an element whose children do nothing. -/
theorem does_muted_kids {fo : Str → Bool} {s : PState} {path : List Str} {hd : Handler} (h : handlerOf s.path = some hd)
    (hn : hd ≠ .grammemeName)
    (hk : ∀ n as ks, Xml.Valid fo path (.elem n as ks) → Does fo s (Xml.tokens (.elem n as ks)) s)
    (ks : List Xml) (hv : Xml.ValidAll fo path ks) : Does fo s (Xml.tokensAll ks) s := by
  induction ks with
  | nil => exact Does.nil
  | cons k ks ih =>
    rw [Xml.ValidAll] at hv
    rw [Xml.tokensAll]
    refine Does.append ?_ (ih hv.2)
    cases k with
    | text d => exact does_text h hn d
    | other => exact does_other
    | elem n as ks' => exact hk n as ks' hv.1

/-! ### Paths -/

def d_ : Str := str "dictionary"
def pD : Str := str ".dictionary"
def pGs : Str := str ".dictionary.grammemes"
def pG : Str := str ".dictionary.grammemes.grammeme"
def pGn : Str := str ".dictionary.grammemes.grammeme.name"
def pLs : Str := str ".dictionary.lemmata"
def pL : Str := str ".dictionary.lemmata.lemma"
def pLl : Str := str ".dictionary.lemmata.lemma.l"
def pLf : Str := str ".dictionary.lemmata.lemma.f"

/-! ### The `g` elements of a form -/

theorem does_fKids {fo : Str → Bool} (ks : List Xml) (s : PState) (w : WForm) (hp : s.path = pLf) (hf : s.form = some w)
    (hv : Xml.ValidAll fo [str "dictionary", str "lemmata", str "lemma", str "f"] ks) :
    Does fo s (Xml.tokensAll ks) { s with form := some { w with g := w.g ++ tagsOf ks } } := by
  induction ks generalizing s w with
  | nil =>
    have : s = { s with form := some { w with g := w.g ++ tagsOf [] } } := by
      rw [show w.g ++ tagsOf [] = w.g from List.append_nil _, ← hf]
    rw [← this]
    exact Does.nil
  | cons k ks ih =>
    rw [Xml.ValidAll] at hv
    rw [Xml.tokensAll]
    have hh : handlerOf s.path = some .f := by rw [hp]; decide
    cases k with
    | text d => exact Does.append (does_text hh (by decide) d) (ih s w hp hf hv.2)
    | other => exact Does.append does_other (ih s w hp hf hv.2)
    | elem n as ks' =>
      obtain ⟨⟨hn, ha, hk⟩, hv⟩ := hv
      have hn' := mem_nextNames hn
      rw [show nextNames [str "dictionary", str "lemmata", str "lemma", str "f"] = [str "g"] by decide,
        List.mem_singleton] at hn'
      subst hn'
      unfold AttrsOK at ha
      rw [if_neg (by decide), if_neg (by decide), if_neg (by decide), if_neg (by decide), if_pos (by decide)] at ha
      obtain ⟨v, hv'⟩ := ha
      have hg : handlerOf (s.path ++ 0x2e :: str "g") = some .fg := by rw [hp]; decide
      have e : tagsOf (.elem (str "g") as ks' :: ks) = v :: tagsOf ks := by
        unfold tagsOf
        rw [childrenNamed, if_pos rfl, List.map_cons, hv']
        rfl
      have := Does.elem (s := s) (as := as) (ts := Xml.tokensAll ks') hg
        (s1 := { s with path := s.path ++ 0x2e :: str "g", form := some { w with g := w.g ++ [v] } })
        (by simp only [onStart, getAttr_eq, hv', hf])
        (does_leaf (hd := .fg) (path := [str "dictionary", str "lemmata", str "lemma", str "f", str "g"]) hg (by decide)
          (by decide) ks' hk)
        rfl (s3 := { s with path := s.path ++ 0x2e :: str "g", form := some { w with g := w.g ++ [v] } }) rfl
      refine Does.append this ?_
      have := ih { s with form := some { w with g := w.g ++ [v] } } { w with g := w.g ++ [v] } hp rfl hv
      rw [e, show w.g ++ v :: tagsOf ks = w.g ++ [v] ++ tagsOf ks from List.append_cons ..]
      exact this

/-! ### The `g` elements of a lemma -/

theorem does_lKids {fo : Str → Bool} (ks : List Xml) (s : PState) (l : LemmaRec) (hp : s.path = pLl) (hf : s.lem = some l)
    (hv : Xml.ValidAll fo [str "dictionary", str "lemmata", str "lemma", str "l"] ks) :
    Does fo s (Xml.tokensAll ks) { s with lem := some { l with lg := l.lg ++ tagsOf ks } } := by
  induction ks generalizing s l with
  | nil =>
    have : s = { s with lem := some { l with lg := l.lg ++ tagsOf [] } } := by
      rw [show l.lg ++ tagsOf [] = l.lg from List.append_nil _, ← hf]
    rw [← this]
    exact Does.nil
  | cons k ks ih =>
    rw [Xml.ValidAll] at hv
    rw [Xml.tokensAll]
    have hh : handlerOf s.path = some .l := by rw [hp]; decide
    cases k with
    | text d => exact Does.append (does_text hh (by decide) d) (ih s l hp hf hv.2)
    | other => exact Does.append does_other (ih s l hp hf hv.2)
    | elem n as ks' =>
      obtain ⟨⟨hn, ha, hk⟩, hv⟩ := hv
      have hn' := mem_nextNames hn
      rw [show nextNames [str "dictionary", str "lemmata", str "lemma", str "l"] = [str "g"] by decide,
        List.mem_singleton] at hn'
      subst hn'
      unfold AttrsOK at ha
      rw [if_neg (by decide), if_neg (by decide), if_neg (by decide), if_neg (by decide), if_pos (by decide)] at ha
      obtain ⟨v, hv'⟩ := ha
      have hg : handlerOf (s.path ++ 0x2e :: str "g") = some .lg := by rw [hp]; decide
      have e : tagsOf (.elem (str "g") as ks' :: ks) = v :: tagsOf ks := by
        unfold tagsOf
        rw [childrenNamed, if_pos rfl, List.map_cons, hv']
        rfl
      have := Does.elem (s := s) (as := as) (ts := Xml.tokensAll ks') hg
        (s1 := { s with path := s.path ++ 0x2e :: str "g", lem := some { l with lg := l.lg ++ [v] } })
        (by simp only [onStart, getAttr_eq, hv', hf])
        (does_leaf (hd := .lg) (path := [str "dictionary", str "lemmata", str "lemma", str "l", str "g"]) hg (by decide)
          (by decide) ks' hk)
        rfl (s3 := { s with path := s.path ++ 0x2e :: str "g", lem := some { l with lg := l.lg ++ [v] } }) rfl
      refine Does.append this ?_
      have := ih { s with lem := some { l with lg := l.lg ++ [v] } } { l with lg := l.lg ++ [v] } hp rfl hv
      rw [e, show l.lg ++ v :: tagsOf ks = l.lg ++ [v] ++ tagsOf ks from List.append_cons ..]
      exact this

/-! ### The `l` and `f` elements of a lemma -/

/-- The tags of the `l` children. -/
def lemmaTags (ks : List Xml) : List Str := (childrenNamed (str "l") ks).flatMap fun l => tagsOf l.2

/-- The forms as the parser collects them. -/
def formsOf (ks : List Xml) : List (Option WForm) :=
  (childrenNamed (str "f") ks).map fun f => some { form := (attrOf (str "t") f.1).getD [], g := tagsOf f.2 }

theorem does_lemmaKids {fo : Str → Bool} (ks : List Xml) (s : PState) (l : LemmaRec) (hp : s.path = pL)
    (hl : s.lem = some l) (hf : s.form = none)
    (hv : Xml.ValidAll fo [str "dictionary", str "lemmata", str "lemma"] ks) :
    Does fo s (Xml.tokensAll ks) { s with lem := some { lg := l.lg ++ lemmaTags ks, f := l.f ++ formsOf ks } } := by
  induction ks generalizing s l with
  | nil =>
    have : s = { s with lem := some { lg := l.lg ++ lemmaTags [], f := l.f ++ formsOf [] } } := by
      rw [show l.lg ++ lemmaTags [] = l.lg from List.append_nil _, show l.f ++ formsOf [] = l.f from List.append_nil _]
      show s = { s with lem := some l }
      rw [← hl]
    rw [← this]
    exact Does.nil
  | cons k ks ih =>
    rw [Xml.ValidAll] at hv
    rw [Xml.tokensAll]
    have hh : handlerOf s.path = some .lem := by rw [hp]; decide
    cases k with
    | text d => exact Does.append (does_text hh (by decide) d) (ih s l hp hl hf hv.2)
    | other => exact Does.append does_other (ih s l hp hl hf hv.2)
    | elem n as ks' =>
      obtain ⟨⟨hn, ha, hk⟩, hv⟩ := hv
      have hn' := mem_nextNames hn
      rw [show nextNames [str "dictionary", str "lemmata", str "lemma"] = [str "l", str "f"] by decide] at hn'
      rcases List.mem_cons.1 hn' with rfl | hn'
      · unfold AttrsOK at ha
        rw [if_neg (by decide), if_neg (by decide), if_neg (by decide), if_pos (by decide)] at ha
        obtain ⟨v, hv'⟩ := ha
        have hg : handlerOf (s.path ++ 0x2e :: str "l") = some .l := by rw [hp]; decide
        have e1 : lemmaTags (.elem (str "l") as ks' :: ks) = tagsOf ks' ++ lemmaTags ks := by
          unfold lemmaTags
          rw [childrenNamed, if_pos rfl, List.flatMap_cons]
        have e2 : formsOf (.elem (str "l") as ks' :: ks) = formsOf ks := by
          unfold formsOf
          rw [childrenNamed, if_neg (by decide)]
        have := Does.elem (s := s) (as := as) (ts := Xml.tokensAll ks') hg
          (s1 := { s with path := s.path ++ 0x2e :: str "l" })
          (by simp only [onStart, getAttr_eq, hv', hl]; rfl)
          (does_lKids ks' _ l (by show s.path ++ _ = _; rw [hp]; decide) hl hk)
          rfl (s3 := { s with path := s.path ++ 0x2e :: str "l", lem := some { l with lg := l.lg ++ tagsOf ks' } }) rfl
        refine Does.append this ?_
        have := ih { s with lem := some { l with lg := l.lg ++ tagsOf ks' } } { l with lg := l.lg ++ tagsOf ks' } hp rfl hf hv
        rw [e1, e2, ← List.append_assoc]
        exact this
      · rw [List.mem_singleton] at hn'
        subst hn'
        unfold AttrsOK at ha
        rw [if_neg (by decide), if_neg (by decide), if_neg (by decide), if_pos (by decide)] at ha
        obtain ⟨v, hv'⟩ := ha
        have hg : handlerOf (s.path ++ 0x2e :: str "f") = some .f := by rw [hp]; decide
        have e1 : lemmaTags (.elem (str "f") as ks' :: ks) = lemmaTags ks := by
          unfold lemmaTags
          rw [childrenNamed, if_neg (by decide)]
        have e2 : formsOf (.elem (str "f") as ks' :: ks) = some { form := v, g := tagsOf ks' } :: formsOf ks := by
          unfold formsOf
          rw [childrenNamed, if_pos rfl, List.map_cons, hv']
          rfl
        have hkids := does_fKids (fo := fo) ks' { s with path := s.path ++ 0x2e :: str "f", form := some { form := v, g := [] } }
          { form := v, g := [] } (by show s.path ++ _ = _; rw [hp]; decide) rfl hk
        have := Does.elem (s := s) (as := as) (ts := Xml.tokensAll ks') hg
          (by simp only [onStart, getAttr_eq, hv']; rfl) hkids rfl
          (s3 := { s with path := s.path ++ 0x2e :: str "f",
                          lem := some { l with f := l.f ++ [some { form := v, g := tagsOf ks' }] }, form := none })
          (by simp only [onEnd, hl, List.nil_append])
        refine Does.append this ?_
        have := ih { s with lem := some { l with f := l.f ++ [some { form := v, g := tagsOf ks' }] }, form := none }
          { l with f := l.f ++ [some { form := v, g := tagsOf ks' }] } hp rfl rfl hv
        rw [e1, e2, show l.f ++ some { form := v, g := tagsOf ks' } :: formsOf ks =
          l.f ++ [some { form := v, g := tagsOf ks' }] ++ formsOf ks from List.append_cons ..]
        obtain ⟨_, _, _, _, _, _, _⟩ := s
        simp only at hf
        subst hf
        exact this

/-! ### Entries with the counter -/

/-- Process entries, counting lemmas, with the limit. -/
def execCounted (max : Int) : Index → Nat → List Entry → Index × Nat × Option PErr
  | ix, c, [] => (ix, c, none)
  | ix, c, .grammeme n p :: es => execCounted max (ix.tagID n p).1 c es
  | ix, c, .lem fs :: es =>
    match addFormsSpec ix fs with
    | (ix, some e) => (ix, c, some e)
    | (ix, none) =>
      if 0 < max ∧ max ≤ c + 1 then (ix, c + 1, some .controlledStop) else execCounted max ix (c + 1) es

/-- The tokens do what the entries say. -/
def Sim (fo : Str → Bool) (s : PState) (ts : List XTok) (es : List Entry) : Prop :=
  match execCounted s.maxLemmas s.ix s.parsedLemmas es with
  | (ix, c, none) => Does fo s ts { s with ix := ix, parsedLemmas := c }
  | (ix, c, some e) => ∃ s', run fo s ts = (s', some e) ∧ s'.ix = ix ∧ s'.parsedLemmas = c

theorem execCounted_append (max : Int) (es es' : List Entry) (ix : Index) (c : Nat) :
    execCounted max ix c (es ++ es') = match execCounted max ix c es with
      | (ix, c, none) => execCounted max ix c es'
      | r => r := by
  induction es generalizing ix c with
  | nil => rfl
  | cons e es ih =>
    cases e with
    | grammeme n p => rw [List.cons_append, execCounted, execCounted]; exact ih ..
    | lem fs =>
      rw [List.cons_append, execCounted, execCounted]
      cases h : addFormsSpec ix fs with
      | mk ix' o => cases o with
        | some e => rfl
        | none =>
          simp only
          split
          · rfl
          · exact ih ..

theorem Sim.nil {fo : Str → Bool} {s : PState} {ts : List XTok} (h : Does fo s ts s) : Sim fo s ts [] := h

theorem Sim.append {fo : Str → Bool} {s : PState} {ts ts' : List XTok} {es es' : List Entry} (h : Sim fo s ts es)
    (h' : ∀ ix c, Sim fo { s with ix := ix, parsedLemmas := c } ts' es') : Sim fo s (ts ++ ts') (es ++ es') := by
  unfold Sim at h ⊢
  rw [execCounted_append]
  cases he : execCounted s.maxLemmas s.ix s.parsedLemmas es with
  | mk ix r => cases r with
    | mk c o => cases o with
      | some e =>
        rw [he] at h
        obtain ⟨s', h1, h2⟩ := h
        exact ⟨s', by rw [run_append, h1], h2⟩
      | none =>
        rw [he] at h
        have h2 := h' ix c
        unfold Sim at h2
        simp only at h h2 ⊢
        cases he2 : execCounted s.maxLemmas ix c es' with
        | mk ix2 r2 => cases r2 with
          | mk c2 o2 => cases o2 with
            | some e =>
              rw [he2] at h2
              obtain ⟨s', h3, h4⟩ := h2
              refine ⟨s', ?_, h4⟩
              rw [run_append, h]
              exact h3
            | none =>
              rw [he2] at h2
              exact Does.append h h2

/-! ### Lemmas -/

theorem addForms_eq (lg : List Str) (fs : List (List XAttr × List Xml)) (ix : Index) :
    addForms lg ix (fs.map fun f => some { form := (attrOf (str "t") f.1).getD [], g := tagsOf f.2 }) =
      addFormsSpec ix (fs.map fun f => ((attrOf (str "t") f.1).getD [], lg ++ tagsOf f.2)) := by
  induction fs generalizing ix with
  | nil => rfl
  | cons f fs ih =>
    simp only [List.map_cons, addForms, addFormsSpec]
    cases ix.addString ((attrOf (str "t") f.1).getD []) with
    | mk ix1 o1 => cases o1 with
      | ok id =>
        simp only
        cases ix1.addTagSet id (lg ++ tagsOf f.2) with
        | mk ix2 o2 => cases o2 with
          | ok u => exact ih _
          | _ => rfl
      | _ => rfl

/-- Nothing is open. -/
structure Clean (s : PState) : Prop where
  grammeme : s.grammeme = none
  lem : s.lem = none
  form : s.form = none

theorem sim_lemma {fo : Str → Bool} {s : PState} {as : List XAttr} {ks : List Xml} (hp : s.path = pLs) (hc : Clean s)
    (hv : Xml.Valid fo [str "dictionary", str "lemmata"] (.elem (str "lemma") as ks)) :
    Sim fo s (Xml.tokens (.elem (str "lemma") as ks)) [lemmaEntry ks] := by
  obtain ⟨_, ha, hk⟩ := hv
  unfold AttrsOK at ha
  rw [if_neg (by decide), if_neg (by decide), if_pos (by decide)] at ha
  obtain ⟨⟨v1, h1, h1'⟩, v2, h2, h2'⟩ := ha
  have hh : handlerOf (s.path ++ 0x2e :: str "lemma") = some .lem := by rw [hp]; decide
  have hstart : PState.onStart fo { s with path := s.path ++ 0x2e :: str "lemma" } as .lem =
      ({ s with path := s.path ++ 0x2e :: str "lemma", lem := some newLemma }, none) := by
    have e1 : intAttrOK (str "id") as = true := by unfold intAttrOK; rw [getAttr_eq, h1]; exact (atoiOK_iff _).2 h1'
    have e2 : intAttrOK (str "rev") as = true := by unfold intAttrOK; rw [getAttr_eq, h2]; exact (atoiOK_iff _).2 h2'
    simp only [onStart, e1, e2, and_self, if_true]
  have hkids := does_lemmaKids (fo := fo) ks { s with path := s.path ++ 0x2e :: str "lemma", lem := some newLemma } newLemma
    (by show s.path ++ _ = _; rw [hp]; decide) rfl hc.form hk
  have hforms : addForms (newLemma.lg ++ lemmaTags ks) s.ix (newLemma.f ++ formsOf ks) =
      addFormsSpec s.ix ((childrenNamed (str "f") ks).map fun f =>
        ((attrOf (str "t") f.1).getD [], lemmaTags ks ++ tagsOf f.2)) := addForms_eq (lemmaTags ks) _ s.ix
  unfold Sim lemmaEntry
  rw [execCounted]
  cases hf : addFormsSpec s.ix ((childrenNamed (str "f") ks).map fun f =>
        ((attrOf (str "t") f.1).getD [], lemmaTags ks ++ tagsOf f.2)) with
  | mk ix o =>
    rw [hf] at hforms
    have hf' : addFormsSpec s.ix ((childrenNamed (str "f") ks).map fun f =>
        ((attrOf (str "t") f.1).getD [], ((childrenNamed (str "l") ks).flatMap fun l => tagsOf l.2) ++ tagsOf f.2)) =
        (ix, o) := hf
    rw [hf']
    cases o with
    | some e =>
      refine ⟨_, fails_elem (s := s) (as := as) hh hstart hkids rfl
        (s3 := { s with path := s.path ++ 0x2e :: str "lemma", ix := ix,
                        lem := some { lg := newLemma.lg ++ lemmaTags ks, f := newLemma.f ++ formsOf ks } }) ?_, rfl, rfl⟩
      simp only [onEnd, hforms]
    | none =>
      simp only
      by_cases hm : 0 < s.maxLemmas ∧ s.maxLemmas ≤ s.parsedLemmas + 1
      · rw [if_pos hm]
        refine ⟨_, fails_elem (s := s) (as := as) hh hstart hkids rfl
          (s3 := { s with path := s.path ++ 0x2e :: str "lemma", ix := ix, lem := none,
                          parsedLemmas := s.parsedLemmas + 1 }) ?_, rfl, rfl⟩
        simp only [onEnd, hforms]
        rw [if_pos hm]
      · rw [if_neg hm]
        have := Does.elem (s := s) (as := as) hh hstart hkids rfl
          (s3 := { s with path := s.path ++ 0x2e :: str "lemma", ix := ix, lem := none,
                          parsedLemmas := s.parsedLemmas + 1 })
          (by simp only [onEnd, hforms]; rw [if_neg hm])
        have hl := hc.lem
        obtain ⟨_, _, _, _, _, _, _⟩ := s
        simp only at hl
        subst hl
        exact this

theorem sim_lemmataKids {fo : Str → Bool} (ks : List Xml) (s : PState) (hp : s.path = pLs) (hc : Clean s)
    (hv : Xml.ValidAll fo [str "dictionary", str "lemmata"] ks) :
    Sim fo s (Xml.tokensAll ks) ((childrenNamed (str "lemma") ks).map fun l => lemmaEntry l.2) := by
  induction ks generalizing s with
  | nil => exact Sim.nil Does.nil
  | cons k ks ih =>
    rw [Xml.ValidAll] at hv
    rw [Xml.tokensAll]
    have hh : handlerOf s.path = some .mute := by rw [hp]; decide
    have hrest : ∀ ix c, Sim fo { s with ix := ix, parsedLemmas := c } (Xml.tokensAll ks)
        ((childrenNamed (str "lemma") ks).map fun l => lemmaEntry l.2) :=
      fun ix c => ih _ hp ⟨hc.grammeme, hc.lem, hc.form⟩ hv.2
    cases k with
    | text d => exact Sim.append (es := []) (Sim.nil (does_text hh (by decide) d)) hrest
    | other => exact Sim.append (es := []) (Sim.nil does_other) hrest
    | elem n as ks' =>
      have hn' := mem_nextNames hv.1.1
      rw [show nextNames [str "dictionary", str "lemmata"] = [str "lemma"] by decide, List.mem_singleton] at hn'
      subst hn'
      rw [childrenNamed, if_pos rfl, List.map_cons]
      exact Sim.append (es := [lemmaEntry ks']) (sim_lemma hp hc hv.1) hrest

/-! ### Grammemes -/

theorem does_nameKids {fo : Str → Bool} (ks : List Xml) (s : PState) (g : Tag) (hp : s.path = pGn)
    (hg : s.grammeme = some g)
    (hv : Xml.ValidAll fo [str "dictionary", str "grammemes", str "grammeme", str "name"] ks) :
    Does fo s (Xml.tokensAll ks) { s with grammeme := some { g with name := (textsOf ks).getLast?.getD g.name } } := by
  induction ks generalizing s g with
  | nil =>
    have : s = { s with grammeme := some { g with name := (textsOf []).getLast?.getD g.name } } := by
      show s = { s with grammeme := some g }
      rw [← hg]
    rw [← this]
    exact Does.nil
  | cons k ks ih =>
    rw [Xml.ValidAll] at hv
    rw [Xml.tokensAll]
    have hh : handlerOf s.path = some .grammemeName := by rw [hp]; decide
    cases k with
    | text d =>
      have h1 : Does fo s [.chars d] { s with grammeme := some { g with name := d } } := by
        unfold Does
        simp only [run, token, charData, hh, hg]
      have h2 := ih { s with grammeme := some { g with name := d } } { g with name := d } hp rfl hv.2
      have e : (textsOf (.text d :: ks)).getLast?.getD g.name = (textsOf ks).getLast?.getD d := by
        rw [textsOf, List.getLast?_cons]
        rfl
      rw [e]
      exact Does.append h1 h2
    | other => exact Does.append does_other (ih s g hp hg hv.2)
    | elem n as ks' =>
      have hn' := mem_nextNames hv.1.1
      rw [show nextNames [str "dictionary", str "grammemes", str "grammeme", str "name"] = [] by decide] at hn'
      cases hn'

/-- All the texts of the `name` children. -/
def nameTexts (ks : List Xml) : List Str := (childrenNamed (str "name") ks).flatMap fun n => textsOf n.2

theorem does_grammemeKids {fo : Str → Bool} (ks : List Xml) (s : PState) (g : Tag) (hp : s.path = pG)
    (hg : s.grammeme = some g)
    (hv : Xml.ValidAll fo [str "dictionary", str "grammemes", str "grammeme"] ks) :
    Does fo s (Xml.tokensAll ks) { s with grammeme := some { g with name := (nameTexts ks).getLast?.getD g.name } } := by
  induction ks generalizing s g with
  | nil =>
    have : s = { s with grammeme := some { g with name := (nameTexts []).getLast?.getD g.name } } := by
      show s = { s with grammeme := some g }
      rw [← hg]
    rw [← this]
    exact Does.nil
  | cons k ks ih =>
    rw [Xml.ValidAll] at hv
    rw [Xml.tokensAll]
    have hh : handlerOf s.path = some .grammeme := by rw [hp]; decide
    cases k with
    | text d => exact Does.append (does_text hh (by decide) d) (ih s g hp hg hv.2)
    | other => exact Does.append does_other (ih s g hp hg hv.2)
    | elem n as ks' =>
      obtain ⟨⟨hn, ha, hk⟩, hv⟩ := hv
      have hn' := mem_nextNames hn
      rw [show nextNames [str "dictionary", str "grammemes", str "grammeme"] =
        [str "name", str "alias", str "description"] by decide] at hn'
      rcases List.mem_cons.1 hn' with rfl | hn'
      · have hg' : handlerOf (s.path ++ 0x2e :: str "name") = some .grammemeName := by rw [hp]; decide
        have := Does.elem (s := s) (as := as) (ts := Xml.tokensAll ks') hg'
          (s1 := { s with path := s.path ++ 0x2e :: str "name" }) rfl
          (does_nameKids ks' _ g (by show s.path ++ _ = _; rw [hp]; decide) hg hk) rfl
          (s3 := { s with path := s.path ++ 0x2e :: str "name",
                          grammeme := some { g with name := (textsOf ks').getLast?.getD g.name } }) rfl
        refine Does.append this ?_
        have := ih { s with grammeme := some { g with name := (textsOf ks').getLast?.getD g.name } }
          { g with name := (textsOf ks').getLast?.getD g.name } hp rfl hv
        have e : (nameTexts (.elem (str "name") as ks' :: ks)).getLast?.getD g.name =
            (nameTexts ks).getLast?.getD ((textsOf ks').getLast?.getD g.name) := by
          unfold nameTexts
          rw [childrenNamed, if_pos rfl, List.flatMap_cons, List.getLast?_append]
          cases h : ((childrenNamed (str "name") ks).flatMap fun n => textsOf n.2).getLast? <;> simp
        rw [e]
        exact this
      · have hm : handlerOf (s.path ++ 0x2e :: n) = some .mute ∧ n ≠ str "name" ∧
            nextNames ([str "dictionary", str "grammemes", str "grammeme"] ++ [n]) = [] := by
          rw [hp]
          rcases List.mem_cons.1 hn' with rfl | hn'
          · decide
          · rw [List.mem_singleton] at hn'
            subst hn'
            decide
        have := does_muted (fo := fo) (s := s) (as := as) hm.1
          (does_leaf (hd := .mute) (s := { s with path := s.path ++ 0x2e :: n }) hm.1 (by decide) hm.2.2 ks' hk)
        refine Does.append this ?_
        have e : nameTexts (.elem n as ks' :: ks) = nameTexts ks := by
          unfold nameTexts
          rw [childrenNamed, if_neg hm.2.1]
        rw [e]
        exact ih s g hp hg hv

theorem sim_grammeme {fo : Str → Bool} {s : PState} {as : List XAttr} {ks : List Xml} (hp : s.path = pGs) (hc : Clean s)
    (hv : Xml.Valid fo [str "dictionary", str "grammemes"] (.elem (str "grammeme") as ks)) :
    Sim fo s (Xml.tokens (.elem (str "grammeme") as ks)) [grammemeEntry as ks] := by
  obtain ⟨_, ha, hk⟩ := hv
  unfold AttrsOK at ha
  rw [if_neg (by decide), if_pos (by decide)] at ha
  obtain ⟨v, hv⟩ := ha
  have hh : handlerOf (s.path ++ 0x2e :: str "grammeme") = some .grammeme := by rw [hp]; decide
  have := Does.elem (s := s) (as := as) (ts := Xml.tokensAll ks) hh
    (s1 := { s with path := s.path ++ 0x2e :: str "grammeme", grammeme := some { parent := v, name := [] } })
    (by simp only [onStart, getAttr_eq, hv])
    (does_grammemeKids ks _ { parent := v, name := [] } (by show s.path ++ _ = _; rw [hp]; decide) rfl hk) rfl
    (s3 := { s with path := s.path ++ 0x2e :: str "grammeme",
                    ix := (s.ix.tagID ((nameTexts ks).getLast?.getD []) v).1, grammeme := none })
    (by simp only [onEnd])
  unfold Sim grammemeEntry
  rw [execCounted, execCounted, hv]
  have hg := hc.grammeme
  obtain ⟨_, _, _, _, _, _, _⟩ := s
  simp only at hg
  subst hg
  exact this

theorem sim_grammemesKids {fo : Str → Bool} (ks : List Xml) (s : PState) (hp : s.path = pGs) (hc : Clean s)
    (hv : Xml.ValidAll fo [str "dictionary", str "grammemes"] ks) :
    Sim fo s (Xml.tokensAll ks) ((childrenNamed (str "grammeme") ks).map fun g => grammemeEntry g.1 g.2) := by
  induction ks generalizing s with
  | nil => exact Sim.nil Does.nil
  | cons k ks ih =>
    rw [Xml.ValidAll] at hv
    rw [Xml.tokensAll]
    have hh : handlerOf s.path = some .mute := by rw [hp]; decide
    have hrest : ∀ ix c, Sim fo { s with ix := ix, parsedLemmas := c } (Xml.tokensAll ks)
        ((childrenNamed (str "grammeme") ks).map fun g => grammemeEntry g.1 g.2) :=
      fun ix c => ih _ hp ⟨hc.grammeme, hc.lem, hc.form⟩ hv.2
    cases k with
    | text d => exact Sim.append (es := []) (Sim.nil (does_text hh (by decide) d)) hrest
    | other => exact Sim.append (es := []) (Sim.nil does_other) hrest
    | elem n as ks' =>
      have hn' := mem_nextNames hv.1.1
      rw [show nextNames [str "dictionary", str "grammemes"] = [str "grammeme"] by decide, List.mem_singleton] at hn'
      subst hn'
      rw [childrenNamed, if_pos rfl, List.map_cons]
      exact Sim.append (es := [grammemeEntry as ks']) (sim_grammeme hp hc hv.1) hrest

/-! ### Sections -/

/-- An element whose handler is mute, around children that do what the entries say. -/
theorem Sim.muted {fo : Str → Bool} {s : PState} {n : Str} {as : List XAttr} {ts : List XTok} {es : List Entry}
    {hd : Handler} (h : handlerOf (s.path ++ 0x2e :: n) = some hd)
    (h1 : PState.onStart fo { s with path := s.path ++ 0x2e :: n } as hd = ({ s with path := s.path ++ 0x2e :: n }, none))
    (h4 : ∀ s' : PState, s'.onEnd hd = (s', none))
    (h2 : Sim fo { s with path := s.path ++ 0x2e :: n } ts es) : Sim fo s (.start n as :: (ts ++ [.stop n])) es := by
  unfold Sim at h2 ⊢
  simp only at h2
  cases he : execCounted s.maxLemmas s.ix s.parsedLemmas es with
  | mk ix r => cases r with
    | mk c o =>
      rw [he] at h2
      cases o with
      | none => exact Does.elem (s := s) (as := as) h h1 h2 rfl (h4 _)
      | some e =>
        obtain ⟨s', h3, h5⟩ := h2
        refine ⟨s', ?_, h5⟩
        rw [run]
        simp only [token, startElement, h, h1]
        rw [run_append, h3]

theorem does_restr {fo : Str → Bool} {s : PState} (hp : s.path = str ".dictionary.restrictions") (n : Str)
    (as : List XAttr) (ks : List Xml) (hv : Xml.Valid fo [str "dictionary", str "restrictions"] (.elem n as ks)) :
    Does fo s (Xml.tokens (.elem n as ks)) s := by
  obtain ⟨hn, _, hk⟩ := hv
  have hn' := mem_nextNames hn
  rw [show nextNames [str "dictionary", str "restrictions"] = [str "restr"] by decide, List.mem_singleton] at hn'
  subst hn'
  have hh : handlerOf (s.path ++ 0x2e :: str "restr") = some .mute := by rw [hp]; decide
  refine does_muted hh ?_
  refine does_muted_kids (s := { s with path := s.path ++ 0x2e :: str "restr" }) hh (by decide) ?_ ks hk
  intro n' as' ks' hv'
  obtain ⟨hn, _, hk⟩ := hv'
  have hn' := mem_nextNames hn
  rw [show nextNames ([str "dictionary", str "restrictions"] ++ [str "restr"]) = [str "left", str "right"] by decide] at hn'
  have hm : handlerOf (s.path ++ 0x2e :: str "restr" ++ 0x2e :: n') = some .mute ∧
      nextNames ([str "dictionary", str "restrictions"] ++ [str "restr"] ++ [n']) = [] := by
    rw [hp]
    rcases List.mem_cons.1 hn' with rfl | hn'
    · decide
    · rw [List.mem_singleton] at hn'
      subst hn'
      decide
  exact does_muted (s := { s with path := s.path ++ 0x2e :: str "restr" }) hm.1
    (does_leaf (s := { s with path := s.path ++ 0x2e :: str "restr" ++ 0x2e :: n' }) hm.1 (by decide) hm.2 ks' hk)

theorem does_linkType {fo : Str → Bool} {s : PState} (hp : s.path = str ".dictionary.link_types") (n : Str)
    (as : List XAttr) (ks : List Xml) (hv : Xml.Valid fo [str "dictionary", str "link_types"] (.elem n as ks)) :
    Does fo s (Xml.tokens (.elem n as ks)) s := by
  obtain ⟨hn, _, hk⟩ := hv
  have hn' := mem_nextNames hn
  rw [show nextNames [str "dictionary", str "link_types"] = [str "type"] by decide, List.mem_singleton] at hn'
  subst hn'
  have hh : handlerOf (s.path ++ 0x2e :: str "type") = some .mute := by rw [hp]; decide
  exact does_muted hh (does_leaf (s := { s with path := s.path ++ 0x2e :: str "type" }) hh (by decide) (by decide) ks hk)

theorem does_link {fo : Str → Bool} {s : PState} (hp : s.path = str ".dictionary.links") (n : Str)
    (as : List XAttr) (ks : List Xml) (hv : Xml.Valid fo [str "dictionary", str "links"] (.elem n as ks)) :
    Does fo s (Xml.tokens (.elem n as ks)) s := by
  obtain ⟨hn, _, hk⟩ := hv
  have hn' := mem_nextNames hn
  rw [show nextNames [str "dictionary", str "links"] = [str "link"] by decide, List.mem_singleton] at hn'
  subst hn'
  have hh : handlerOf (s.path ++ 0x2e :: str "link") = some .mute := by rw [hp]; decide
  exact does_muted hh (does_leaf (s := { s with path := s.path ++ 0x2e :: str "link" }) hh (by decide) (by decide) ks hk)

theorem sim_section {fo : Str → Bool} {s : PState} {n : Str} {as : List XAttr} {ks : List Xml} (hp : s.path = pD)
    (hc : Clean s) (hv : Xml.Valid fo [str "dictionary"] (.elem n as ks)) :
    Sim fo s (Xml.tokens (.elem n as ks)) (sectionEntries n ks) := by
  obtain ⟨hn, _, hk⟩ := hv
  have hn' := mem_nextNames hn
  rw [show nextNames [str "dictionary"] =
    [str "grammemes", str "restrictions", str "lemmata", str "link_types", str "links"] by decide] at hn'
  have hc' : ∀ p, Clean { s with path := p } := fun p => ⟨hc.grammeme, hc.lem, hc.form⟩
  simp only [List.mem_cons, List.not_mem_nil, or_false] at hn'
  rcases hn' with rfl | rfl | rfl | rfl | rfl
  · refine Sim.muted (hd := .mute) (by rw [hp]; decide) rfl (fun _ => rfl) ?_
    exact sim_grammemesKids ks _ (by show s.path ++ _ = _; rw [hp]; decide) (hc' _) hk
  · refine Sim.muted (hd := .mute) (by rw [hp]; decide) rfl (fun _ => rfl) (Sim.nil ?_)
    exact does_muted_kids (hd := .mute) (path := [str "dictionary"] ++ [str "restrictions"])
      (by show handlerOf (s.path ++ _) = _; rw [hp]; decide) (by decide)
      (does_restr (by show s.path ++ _ = _; rw [hp]; decide)) ks hk
  · refine Sim.muted (hd := .mute) (by rw [hp]; decide) rfl (fun _ => rfl) ?_
    exact sim_lemmataKids ks _ (by show s.path ++ _ = _; rw [hp]; decide) (hc' _) hk
  · refine Sim.muted (hd := .mute) (by rw [hp]; decide) rfl (fun _ => rfl) (Sim.nil ?_)
    exact does_muted_kids (hd := .mute) (path := [str "dictionary"] ++ [str "link_types"])
      (by show handlerOf (s.path ++ _) = _; rw [hp]; decide) (by decide)
      (does_linkType (by show s.path ++ _ = _; rw [hp]; decide)) ks hk
  · refine Sim.muted (hd := .mute) (by rw [hp]; decide) rfl (fun _ => rfl) (Sim.nil ?_)
    exact does_muted_kids (hd := .mute) (path := [str "dictionary"] ++ [str "links"])
      (by show handlerOf (s.path ++ _) = _; rw [hp]; decide) (by decide)
      (does_link (by show s.path ++ _ = _; rw [hp]; decide)) ks hk

theorem sim_dictionaryKids {fo : Str → Bool} (ks : List Xml) (s : PState) (hp : s.path = pD) (hc : Clean s)
    (hv : Xml.ValidAll fo [str "dictionary"] ks) : Sim fo s (Xml.tokensAll ks) (ks.flatMap childEntries) := by
  induction ks generalizing s with
  | nil => exact Sim.nil Does.nil
  | cons k ks ih =>
    rw [Xml.ValidAll] at hv
    rw [Xml.tokensAll, List.flatMap_cons]
    have hh : handlerOf s.path = some .dictionary := by rw [hp]; decide
    have hrest : ∀ ix c, Sim fo { s with ix := ix, parsedLemmas := c } (Xml.tokensAll ks) (ks.flatMap childEntries) :=
      fun ix c => ih _ hp ⟨hc.grammeme, hc.lem, hc.form⟩ hv.2
    cases k with
    | text d => exact Sim.append (es := []) (Sim.nil (does_text hh (by decide) d)) hrest
    | other => exact Sim.append (es := []) (Sim.nil does_other) hrest
    | elem n as ks' => exact Sim.append (sim_section hp hc hv.1) hrest

theorem sim_doc {fo : Str → Bool} (doc : List Xml) (s : PState) (hp : s.path = []) (hc : Clean s)
    (hv : Xml.ValidAll fo [] doc) : Sim fo s (Xml.tokensAll doc) (entriesOf doc) := by
  induction doc generalizing s with
  | nil => exact Sim.nil Does.nil
  | cons k ks ih =>
    rw [Xml.ValidAll] at hv
    rw [Xml.tokensAll]
    have hh : handlerOf s.path = some .mute := by rw [hp]; decide
    have hrest : ∀ ix c, Sim fo { s with ix := ix, parsedLemmas := c } (Xml.tokensAll ks) (entriesOf ks) :=
      fun ix c => ih _ hp ⟨hc.grammeme, hc.lem, hc.form⟩ hv.2
    cases k with
    | text d => exact Sim.append (es := []) (Sim.nil (does_text hh (by decide) d)) hrest
    | other => exact Sim.append (es := []) (Sim.nil does_other) hrest
    | elem n as ks' =>
      obtain ⟨⟨hn, ha, hk⟩, hv⟩ := hv
      have hn' := mem_nextNames hn
      rw [show nextNames [] = [str "dictionary"] by decide, List.mem_singleton] at hn'
      subst hn'
      have e : entriesOf (.elem (str "dictionary") as ks' :: ks) = ks'.flatMap childEntries ++ entriesOf ks := by
        unfold entriesOf
        rw [childrenNamed, if_pos rfl, List.flatMap_cons]
      rw [e]
      refine Sim.append ?_ hrest
      unfold AttrsOK at ha
      rw [if_pos (by decide)] at ha
      have hd : dictionaryOK fo as = true := by
        unfold dictionaryOK
        rw [List.all_eq_true]
        intro a hm
        by_cases h1 : a.name = str "version"
        · rw [if_pos h1]; exact ha.1 a hm h1
        · rw [if_neg h1]
          by_cases h2 : a.name = str "revision"
          · rw [if_pos h2]; exact (atoiOK_iff _).2 (ha.2 a hm h2)
          · rw [if_neg h2]
      refine Sim.muted (hd := .dictionary) (by rw [hp]; decide) (by simp only [onStart, hd, if_true]) (fun _ => rfl) ?_
      exact sim_dictionaryKids ks' _ (by show s.path ++ _ = _; rw [hp]; decide) ⟨hc.grammeme, hc.lem, hc.form⟩ hk

end Verif
