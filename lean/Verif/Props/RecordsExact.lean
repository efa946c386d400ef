import Verif.Props.Records

/-!
# C80 — exactly when the calls panic and when two texts are alike
-/

namespace Verif

/-- What stands between the commas. -/
def commaParts : Str → List Str
  | [] => [[]]
  | c :: s => if c = 0x2c then [] :: commaParts s else match commaParts s with
    | [] => [[c]]
    | p :: ps => (c :: p) :: ps

/-- What the text of a form keeps of it: the parts of the word followed by those of the names of its tags. -/
def FormRec.commaPartsOf (form : Str) (names : List Str) : List Str :=
  commaParts form ++ (if names = [] then [[]] else names.flatMap commaParts)

theorem commaParts_ne (s : Str) : commaParts s ≠ [] := by
  cases s with
  | nil => simp [commaParts]
  | cons c s => rw [commaParts]; split <;> [simp; (split <;> simp)]

theorem joinComma_before (a : Str) (l : List Str) (h : l ≠ []) : joinComma (a :: l) = a ++ str "," ++ joinComma l := by
  cases l with
  | nil => exact absurd rfl h
  | cons b l => rfl

theorem join_commaParts (s : Str) : joinComma (commaParts s) = s := by
  induction s with
  | nil => rfl
  | cons c s ih =>
    rw [commaParts]
    split
    · next hc => rw [joinComma_before _ _ (commaParts_ne s), ih, hc]; rfl
    · cases h : commaParts s with
      | nil => exact absurd h (commaParts_ne s)
      | cons p ps =>
        rw [h] at ih
        simp only
        cases ps with
        | nil => rw [joinComma] at ih ⊢; rw [ih]
        | cons q qs => rw [joinComma] at ih ⊢; rw [List.cons_append, List.cons_append, ih]

theorem commaParts_inj {s t : Str} (h : commaParts s = commaParts t) : s = t := by
  rw [← join_commaParts s, h, join_commaParts]

theorem commaParts_append (a b : Str) : commaParts (a ++ str "," ++ b) = commaParts a ++ commaParts b := by
  induction a with
  | nil => rfl
  | cons c a ih =>
    rw [List.cons_append, List.cons_append, commaParts, commaParts, ih]
    split
    · rfl
    · cases h : commaParts a with
      | nil => exact absurd h (commaParts_ne a)
      | cons p ps => rfl

theorem commaParts_join (l : List Str) : commaParts (joinComma l) = if l = [] then [[]] else l.flatMap commaParts := by
  induction l with
  | nil => rfl
  | cons a l ih =>
    rw [if_neg (by simp)]
    cases l with
    | nil => simp [joinComma]
    | cons b l => rw [joinComma, commaParts_append, ih, if_neg (by simp), ← List.flatMap_cons]

theorem eachDeref_total {α β : Type} (f : α → Out β) (g : α → β) (l : List (Option α))
    (hf : ∀ a, some a ∈ l → f a = .ok (g a) ∨ f a = .panic) :
    ((∀ o ∈ l, ∃ a, o = some a ∧ f a = .ok (g a)) ∧ eachDeref f l = .ok ((l.filterMap id).map g)) ∨
    ((∃ o ∈ l, o = none ∨ ∃ a, o = some a ∧ f a = .panic) ∧ eachDeref f l = .panic) := by
  induction l with
  | nil => exact .inl ⟨by simp, rfl⟩
  | cons o l ih =>
    have ih := ih fun a ha => hf a (List.mem_cons_of_mem _ ha)
    cases o with
    | none => exact .inr ⟨⟨none, List.mem_cons_self, .inl rfl⟩, rfl⟩
    | some a =>
      rw [eachDeref]
      rcases hf a List.mem_cons_self with h | h
      · rw [h, Out.bind_ok]
        rcases ih with ⟨h1, h2⟩ | ⟨⟨o, ho, h1⟩, h2⟩
        · refine .inl ⟨?_, by rw [h2]; rfl⟩
          intro o ho
          rcases List.mem_cons.1 ho with rfl | ho
          · exact ⟨a, rfl, h⟩
          · exact h1 o ho
        · exact .inr ⟨⟨o, List.mem_cons_of_mem _ ho, h1⟩, by rw [h2]; rfl⟩
      · rw [h]; exact .inr ⟨⟨_, List.mem_cons_self, .inr ⟨a, rfl, h⟩⟩, rfl⟩

theorem categories_total (c : Categories) : (none ∉ c ∧ c = (c.filterMap id).map some ∧ eachDeref .ok c = .ok (c.filterMap id)) ∨
    (none ∈ c ∧ eachDeref (.ok : Str → Out Str) c = .panic) := by
  rcases eachDeref_total (.ok : Str → Out Str) id c (fun _ _ => .inl rfl) with ⟨h1, h2⟩ | ⟨⟨o, ho, h1⟩, h2⟩
  · refine .inl ⟨fun hn => (by obtain ⟨a, h, _⟩ := h1 _ hn; cases h), ?_, by rw [h2, List.map_id]⟩
    clear h2
    induction c with
    | nil => rfl
    | cons o c ih =>
      obtain ⟨a, rfl, _⟩ := h1 _ List.mem_cons_self
      have := ih fun o ho => h1 o (List.mem_cons_of_mem _ ho)
      change some a :: c = some a :: List.map some (List.filterMap id c)
      rw [← this]
  · refine .inr ⟨?_, h2⟩
    rcases h1 with rfl | ⟨a, _, h⟩
    · exact ho
    · cases h

/-- C80, exactly when the calls panic: the tags, the names and the texts of a form's categories and of the form itself are
given if there is no nil among the categories, and all four calls panic if there is. -/
theorem C80_tags_exact (x : FormRec) :
    (none ∉ x.g → ∃ names, x.g = names.map some ∧ x.tagsOf = .ok names ∧ grammemeNames x.g = .ok names ∧
      categoriesText x.g = .ok (joinComma names) ∧
      x.text = .ok (str "WordForm(" ++ x.form ++ str "," ++ joinComma names ++ str ")")) ∧
    (none ∈ x.g → x.tagsOf = .panic ∧ grammemeNames x.g = .panic ∧ categoriesText x.g = .panic ∧ x.text = .panic) := by
  refine ⟨fun h => ?_, not_C80 x⟩
  rcases categories_total x.g with ⟨_, h1, h2⟩ | ⟨h1, _⟩
  · exact ⟨_, h1, h2, h2, by rw [categoriesText, h2]; rfl, by rw [FormRec.text, h2]; rfl⟩
  · exact absurd h1 h

/-- A form without nil among its categories. -/
def FormRec.Whole (x : FormRec) : Prop := none ∉ x.g

instance (x : FormRec) : Decidable x.Whole := by unfold FormRec.Whole; infer_instance

theorem FormRec.text_total (x : FormRec) : (x.Whole ∧ ∃ a, x.text = .ok a) ∨ (¬ x.Whole ∧ x.text = .panic) := by
  by_cases h : none ∈ x.g
  · exact .inr ⟨fun h' => h' h, ((C80_tags_exact x).2 h).2.2.2⟩
  · obtain ⟨n, _, _, _, _, h5⟩ := (C80_tags_exact x).1 h
    exact .inl ⟨h, _, h5⟩

/-- The text of a lemma: given if there is no nil among its forms and none among the categories of its base form and of
its forms; otherwise the call panics. -/
theorem C80_lemma_exact (x : LemmaItem) :
    (x.base.Whole ∧ (∀ o ∈ x.others, ∃ f, o = some f ∧ f.Whole) → ∃ a, x.text = .ok a) ∧
    (¬ (x.base.Whole ∧ ∀ o ∈ x.others, ∃ f, o = some f ∧ f.Whole) → x.text = .panic) := by
  let g : FormRec → Str := fun f => match f.text with | .ok a => a | _ => []
  have hg : ∀ f : FormRec, f.Whole → f.text = .ok (g f) := by
    intro f hf
    rcases f.text_total with ⟨_, a, h⟩ | ⟨h, _⟩
    · simp only [g, h]
    · exact absurd hf h
  have hp : ∀ f : FormRec, ¬ f.Whole → f.text = .panic := by
    intro f hf
    rcases f.text_total with ⟨h, _⟩ | ⟨_, h⟩
    · exact absurd h hf
    · exact h
  have ht := eachDeref_total FormRec.text g x.others fun f _ => by
    by_cases h : f.Whole
    · exact .inl (hg f h)
    · exact .inr (hp f h)
  rcases ht with ⟨h1, h2⟩ | ⟨⟨o, ho, h1⟩, h2⟩
  · have h1' : ∀ o ∈ x.others, ∃ f, o = some f ∧ f.Whole := by
      intro o ho
      obtain ⟨f, rfl, hf⟩ := h1 o ho
      refine ⟨f, rfl, ?_⟩
      by_contra hw
      rw [hp f hw] at hf; cases hf
    constructor
    · rintro ⟨hb, _⟩
      exact ⟨_, by rw [LemmaItem.text, h2, Out.bind_ok, hg _ hb, Out.bind_ok]⟩
    · intro hn
      have hb : ¬ x.base.Whole := fun hb => hn ⟨hb, h1'⟩
      rw [LemmaItem.text, h2, Out.bind_ok, hp _ hb]; rfl
  · constructor
    · rintro ⟨_, hall⟩
      obtain ⟨f, rfl, hf⟩ := hall o ho
      rcases h1 with h1 | ⟨f', h1, h3⟩
      · cases h1
      · cases h1; rw [hg f hf] at h3; cases h3
    · intro _
      rw [LemmaItem.text, h2]; rfl

/-- C80, exactly when two forms have the same text: when between the commas of the word and of the names of the tags there
stands the same. -/
theorem C80_text_exact (x y : FormRec) (nx ny : List Str) (hx : x.g = nx.map some) (hy : y.g = ny.map some) :
    x.text = y.text ↔ FormRec.commaPartsOf x.form nx = FormRec.commaPartsOf y.form ny := by
  have t : ∀ (z : FormRec) (n : List Str), z.g = n.map some →
      z.text = .ok (str "WordForm(" ++ (z.form ++ str "," ++ joinComma n) ++ str ")") := by
    intro z n hz
    rw [FormRec.text, hz, eachDeref_ok _ (fun a => a) n (fun _ _ => rfl), List.map_id', Out.bind_ok]
    simp only [List.append_assoc]
  have p : ∀ (w : Str) (n : List Str), FormRec.commaPartsOf w n = commaParts (w ++ str "," ++ joinComma n) := by
    intro w n; rw [commaParts_append, commaParts_join]; rfl
  rw [t x nx hx, t y ny hy, p, p]
  constructor
  · intro h
    injection h with h
    rw [List.append_cancel_left (List.append_cancel_right h)]
  · intro h
    rw [commaParts_inj h]

/-- C80, texts of grammemes: the text of a grammeme is made of its name, its parent, its alias and its description; it
tells which grammeme it is if there is no slash in the name and no comma in the parent and in the alias. -/
theorem C80_grammeme_partial (g h : GrammemeRec) (gn : (0x2f : UInt8) ∉ g.name) (hn : (0x2f : UInt8) ∉ h.name)
    (gp : (0x2c : UInt8) ∉ g.parent) (hp : (0x2c : UInt8) ∉ h.parent) (ga : (0x2c : UInt8) ∉ g.alias)
    (ha : (0x2c : UInt8) ∉ h.alias) :
    g.text = str "Tag(" ++ g.name ++ str "/" ++ g.parent ++ str "," ++ g.alias ++ str "," ++ g.description ++ str ")" ∧
    (g.text = h.text → g = h) := by
  have key : ∀ (c : UInt8) (a b s t : Str), c ∉ a → c ∉ b → a ++ c :: s = b ++ c :: t → a = b ∧ s = t := by
    intro c a
    induction a with
    | nil =>
      intro b s t _ hb h
      cases b with
      | nil => exact ⟨rfl, by injection h⟩
      | cons d b => injection h with h1 _; exact absurd (h1 ▸ List.mem_cons_self) hb
    | cons d a ih =>
      intro b s t ha hb h
      cases b with
      | nil => injection h with h1 _; exact absurd (h1 ▸ List.mem_cons_self) ha
      | cons e b =>
        injection h with h1 h2
        obtain ⟨h3, h4⟩ := ih b s t (fun h => ha (List.mem_cons_of_mem _ h)) (fun h => hb (List.mem_cons_of_mem _ h)) h2
        exact ⟨by rw [h1, h3], h4⟩
  refine ⟨rfl, fun e => ?_⟩
  unfold GrammemeRec.text at e
  have e := List.append_cancel_right e
  simp only [List.append_assoc] at e
  have e := List.append_cancel_left e
  obtain ⟨e1, e⟩ := key 0x2f _ _ _ _ gn hn e
  obtain ⟨e2, e⟩ := key 0x2c _ _ _ _ gp hp e
  obtain ⟨e3, e4⟩ := key 0x2c _ _ _ _ ga ha e
  cases g; cases h
  simp only at e1 e2 e3
  have e4 : _ = _ := e4
  subst e1 e2 e3
  congr 1

/-- The text of a list of grammemes: the texts of all of them, in order, unless there is nil among them. -/
theorem C80_grammemes_exact (l : List (Option GrammemeRec)) :
    (∀ gs : List GrammemeRec, l = gs.map some → grammemesText l = .ok (str "Grammemes(" ++ joinComma (gs.map GrammemeRec.text) ++ str ")")) ∧
    (none ∈ l → grammemesText l = .panic) := by
  constructor
  · rintro gs rfl
    rw [grammemesText, eachDeref_ok _ GrammemeRec.text gs (fun _ _ => rfl)]; rfl
  · intro h
    rw [grammemesText, eachDeref_panic _ l h (fun _ _ => .inl rfl)]; rfl

/-! ## Examples -/

/-- The two forms with one text: between the commas there stands the same. -/
example : FormRec.commaPartsOf (str "a,NOUN") [str "sing"] = FormRec.commaPartsOf (str "a") [str "NOUN", str "sing"] ∧
    FormRec.commaPartsOf (str "a") [str "NOUN"] ≠ FormRec.commaPartsOf (str "a") [] := by decide

/-- A lemma that can be printed, and two that cannot. -/
example : (LemmaItem.mk 3 1 ⟨str "ab", [some (str "VERB")]⟩ [some ⟨str "abc", []⟩]).base.Whole ∧
    (LemmaItem.mk 3 1 ⟨str "ab", [none]⟩ []).text = .panic ∧ (LemmaItem.mk 3 1 ⟨str "ab", []⟩ [none]).text = .panic := by decide

example : (GrammemeRec.mk (str "POST") (str "NOUN") (str "n") (str "a noun")).text = str "Tag(NOUN/POST,n,a noun)" ∧
    (0x2f : UInt8) ∉ str "NOUN" ∧ (0x2c : UInt8) ∉ str "POST" := by decide

/-- Two grammemes with one text. -/
theorem not_C80_grammeme : ∃ g h : GrammemeRec, g ≠ h ∧ g.text = h.text :=
  ⟨⟨str "b", str "a", str "x", str "y,z"⟩, ⟨str "b", str "a", str "x,y", str "z"⟩, by decide, by decide⟩

end Verif
