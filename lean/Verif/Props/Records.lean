import Verif.Lemmas.Records

/-!
# C80 — records of a dictionary: search by base form, tags of a form, texts
-/

namespace Verif

/-- C80, search: the lemmas found are lemmas of the list with that base form, in the order of the list, each as often as
the list has it; no lemma with another base form is among them; nil entries are passed over. -/
theorem C80_search (l : List (Option LemmaItem)) (word : Str) :
    ((searchLemmas l word).map some).Sublist l ∧ (∀ x ∈ searchLemmas l word, x.base.form = word) ∧
    ∀ x, x.base.form = word → (searchLemmas l word).count x = l.count (some x) := by
  have e : searchLemmas l word = (l.filterMap id).filter (fun x => x.base.form = word) := searchLoop_eq word l []
  rw [e]
  refine ⟨?_, ?_, ?_⟩
  · exact ((List.filter_sublist (l := l.filterMap id)).map some).trans (filterMap_some_sublist l)
  · intro x hx
    simpa using (List.mem_filter.1 hx).2
  · intro x hx
    rw [List.count_filter (by simpa using hx), count_filterMap_some]

/-- C80, tags: the tags of a form and of a list of categories are the names of the categories, in order; the two calls
agree. -/
theorem C80_tags (x : FormRec) (names : List Str) (hg : x.g = names.map some) :
    x.tagsOf = .ok names ∧ grammemeNames x.g = .ok names := by
  have := eachDeref_ok (Out.ok : Str → Out Str) (fun a => a) names (fun _ _ => rfl)
  rw [List.map_id'] at this
  exact ⟨by rw [FormRec.tagsOf, hg, this], by rw [grammemeNames, hg, this]⟩

/-- C80, the tag of a grammeme: its name and its parent, or `----` if it has none. -/
theorem C80_tag (g : GrammemeRec) : g.tag.name = g.name ∧
    g.tag.parent = (if g.parent = [] then str "----" else g.parent) := by
  unfold GrammemeRec.tag newTag
  split <;> exact ⟨rfl, rfl⟩

/-- C80, texts: two forms whose words have no comma and whose tags have four bytes have the same text only if they are
the same. -/
theorem C80_text_partial (x y : FormRec) (nx ny : List Str) (hx : x.g = nx.map some) (hy : y.g = ny.map some)
    (cx : (0x2c : UInt8) ∉ x.form) (cy : (0x2c : UInt8) ∉ y.form) (lx : ∀ n ∈ nx, n.length = 4)
    (ly : ∀ n ∈ ny, n.length = 4) : ∃ a b, x.text = .ok a ∧ y.text = .ok b ∧ (a = b → x = y) := by
  have t : ∀ (z : FormRec) (n : List Str), z.g = n.map some →
      z.text = .ok (str "WordForm(" ++ z.form ++ str "," ++ joinComma n ++ str ")") := by
    intro z n hz
    rw [FormRec.text, hz, eachDeref_ok _ (fun a => a) n (fun _ _ => rfl), List.map_id']; rfl
  refine ⟨_, _, t x nx hx, t y ny hy, fun he => ?_⟩
  simp only [List.append_assoc] at he
  have h1 := List.append_cancel_left he
  obtain ⟨e1, e2⟩ := append_stop x.form y.form _ _ cx cy (Or.inr rfl) (Or.inr rfl) h1
  have e3 := List.append_cancel_right (List.append_cancel_left e2)
  have ok : ∀ n : List Str, (∀ a ∈ n, a.length = 4) → ∀ a ∈ n, a.length = 4 ∧ a ≠ [] := fun n h a ha =>
    ⟨h a ha, fun h0 => by have := h a ha; rw [h0] at this; cases this⟩
  have e4 := joinComma_inj (separable_length 4) _ _ (ok nx lx) (ok ny ly) e3
  cases x; cases y
  simp only at hx hy e1
  rw [hx, hy, e1, e4]

/-- C80 does not hold with nil among the categories: both calls and the text panic, although one of them tests for nil. -/
theorem not_C80 (x : FormRec) (hn : none ∈ x.g) : x.tagsOf = .panic ∧ grammemeNames x.g = .panic ∧
    categoriesText x.g = .panic ∧ x.text = .panic := by
  have h := eachDeref_panic (Out.ok : Str → Out Str) x.g hn (fun _ _ => Or.inl rfl)
  exact ⟨h, h, by rw [categoriesText, h]; rfl, by rw [FormRec.text, h]; rfl⟩

/-- Nor do all forms have their own text. -/
theorem not_C80_text : ∃ x y : FormRec, x ≠ y ∧ (∃ a, x.text = .ok a ∧ y.text = .ok a) ∧ none ∉ x.g ∧ none ∉ y.g :=
  ⟨⟨str "a,NOUN", [some (str "sing")]⟩, ⟨str "a", [some (str "NOUN"), some (str "sing")]⟩, by decide,
    ⟨str "WordForm(a,NOUN,sing)", by decide, by decide⟩, by decide, by decide⟩

/-! ## Examples -/

/-- Two lemmas with the same base form around a nil entry and another lemma. -/
def someLemmas : List (Option LemmaItem) :=
  [some ⟨1, 1, ⟨str "ab", [some (str "NOUN")]⟩, []⟩, none, some ⟨2, 1, ⟨str "b", []⟩, []⟩,
    some ⟨3, 1, ⟨str "ab", [some (str "VERB")]⟩, [some ⟨str "abc", []⟩]⟩]

example : (searchLemmas someLemmas (str "ab")).map (·.id) = [1, 3] ∧ searchLemmas someLemmas (str "c") = [] := by decide

example : (FormRec.mk (str "ab") [some (str "NOUN"), some (str "sing")]).text = .ok (str "WordForm(ab,NOUN,sing)") ∧
    (LemmaItem.mk 3 (-1) ⟨str "ab", [some (str "VERB")]⟩ [some ⟨str "abc", []⟩]).text =
      .ok (str "Lemma(3,-1,WordForm(ab,VERB), WordForm(abc,)") := by decide

example : none ∈ (FormRec.mk (str "ab") [some (str "NOUN"), none]).g := by decide

end Verif
