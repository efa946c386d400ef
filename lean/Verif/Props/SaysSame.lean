import Verif.Spec.SaysSame
import Verif.Props.Exact

/-!
# C83 — comments, white space, the order of attributes and skipped parts do not matter
-/

namespace Verif

theorem attrOf_perm {as as' : List XAttr} (h : as.Perm as') (hn : (as.map (·.name)).Nodup) (k : Str) :
    attrOf k as = attrOf k as' := by
  have key : ∀ (l : List XAttr), (l.map (·.name)).Nodup → ∀ v, attrOf k l = some v ↔ ⟨k, v⟩ ∈ l := by
    intro l
    induction l with
    | nil => intro _ v; simp [attrOf]
    | cons a l ih =>
      intro hn v
      rw [List.map_cons, List.nodup_cons] at hn
      rw [attrOf, List.mem_cons]
      by_cases hk : a.name = k
      · rw [if_pos hk]
        constructor
        · intro h; cases h; subst hk; exact .inl rfl
        · rintro (h | h)
          · rw [← h]
          · exact absurd (List.mem_map.2 ⟨_, h, rfl⟩) (by rw [← hk] at *; exact hn.1)
      · rw [if_neg hk, ih hn.2]
        constructor
        · exact .inr
        · rintro (h | h)
          · exact absurd (by rw [← h]) hk
          · exact h
  have hn' : (as'.map (·.name)).Nodup := (h.map _).nodup_iff.1 hn
  cases h1 : attrOf k as with
  | some v => exact ((key as' hn' v).2 (h.mem_iff.1 ((key as hn v).1 h1))).symm
  | none =>
    cases h2 : attrOf k as' with
    | none => rfl
    | some v => rw [(key as hn v).2 (h.mem_iff.2 ((key as' hn' v).1 h2))] at h1; cases h1

/-- What is read at a path: the same for both lists. -/
structure Views (p : List Str) (xs ys : List Xml) : Prop where
  doc : p = [] → entriesOf xs = entriesOf ys
  dict : p = [str "dictionary"] → xs.flatMap childEntries = ys.flatMap childEntries
  grammemes : p = [str "dictionary", str "grammemes"] →
    sectionEntries (str "grammemes") xs = sectionEntries (str "grammemes") ys
  grammeme : p = [str "dictionary", str "grammemes", str "grammeme"] →
    ((childrenNamed (str "name") xs).flatMap fun n => textsOf n.2) = (childrenNamed (str "name") ys).flatMap fun n => textsOf n.2
  name : p = namePath → textsOf xs = textsOf ys
  lemmata : p = [str "dictionary", str "lemmata"] →
    sectionEntries (str "lemmata") xs = sectionEntries (str "lemmata") ys
  forms : p = [str "dictionary", str "lemmata", str "lemma"] →
    ((childrenNamed (str "f") xs).map fun f => ((attrOf (str "t") f.1).getD [], tagsOf f.2)) =
      (childrenNamed (str "f") ys).map fun f => ((attrOf (str "t") f.1).getD [], tagsOf f.2)
  heads : p = [str "dictionary", str "lemmata", str "lemma"] →
    ((childrenNamed (str "l") xs).flatMap fun l => tagsOf l.2) = (childrenNamed (str "l") ys).flatMap fun l => tagsOf l.2
  tags : p = [str "dictionary", str "lemmata", str "lemma", str "l"] ∨
    p = [str "dictionary", str "lemmata", str "lemma", str "f"] → tagsOf xs = tagsOf ys

/-- The entry of a lemma in terms of what is read below it. -/
theorem lemmaEntry_eq {ks ks' : List Xml}
    (hf : ((childrenNamed (str "f") ks).map fun f => ((attrOf (str "t") f.1).getD [], tagsOf f.2)) =
      (childrenNamed (str "f") ks').map fun f => ((attrOf (str "t") f.1).getD [], tagsOf f.2))
    (hl : ((childrenNamed (str "l") ks).flatMap fun l => tagsOf l.2) =
      (childrenNamed (str "l") ks').flatMap fun l => tagsOf l.2) : lemmaEntry ks = lemmaEntry ks' := by
  unfold lemmaEntry
  rw [hl]
  have key : ∀ zs : List Xml, ((childrenNamed (str "f") zs).map fun f => ((attrOf (str "t") f.1).getD [],
      ((childrenNamed (str "l") ks').flatMap fun l => tagsOf l.2) ++ tagsOf f.2)) =
      ((childrenNamed (str "f") zs).map fun f => ((attrOf (str "t") f.1).getD [], tagsOf f.2)).map
        fun e => (e.1, ((childrenNamed (str "l") ks').flatMap fun l => tagsOf l.2) ++ e.2) := by
    intro zs; rw [List.map_map]; rfl
  rw [key, key, hf]

theorem childrenNamed_elem (k n : Str) (as : List XAttr) (ks xs : List Xml) :
    childrenNamed k (.elem n as ks :: xs) = (if n = k then [(as, ks)] else []) ++ childrenNamed k xs := by
  rw [childrenNamed]; split <;> rfl

theorem childrenNamed_other (k : Str) (xs : List Xml) : childrenNamed k (.other :: xs) = childrenNamed k xs := rfl
theorem childrenNamed_text (k d : Str) (xs : List Xml) : childrenNamed k (.text d :: xs) = childrenNamed k xs := rfl

theorem childrenNamed_append (k : Str) (xs ys : List Xml) :
    childrenNamed k (xs ++ ys) = childrenNamed k xs ++ childrenNamed k ys := by
  induction xs with
  | nil => rfl
  | cons x xs ih =>
    cases x with
    | elem n as ks => rw [List.cons_append, childrenNamed_elem, childrenNamed_elem, ih, List.append_assoc]
    | text d => exact ih
    | other => exact ih

theorem textsOf_append (xs ys : List Xml) : textsOf (xs ++ ys) = textsOf xs ++ textsOf ys := by
  induction xs with
  | nil => rfl
  | cons x xs ih =>
    cases x with
    | elem n as ks => exact ih
    | text d => rw [List.cons_append, textsOf, textsOf, ih]; rfl
    | other => exact ih

theorem sectionEntries_append (n : Str) (xs ys : List Xml) :
    sectionEntries n (xs ++ ys) = sectionEntries n xs ++ sectionEntries n ys := by
  unfold sectionEntries
  split
  · rw [childrenNamed_append, List.map_append]
  · split
    · rw [childrenNamed_append, List.map_append]
    · rfl

/-- What is read is read element by element. -/
theorem Views.append {p : List Str} {xs ys xs' ys' : List Xml} (h : Views p xs ys) (h' : Views p xs' ys') :
    Views p (xs ++ xs') (ys ++ ys') := by
  constructor
  · intro hp
    unfold entriesOf
    rw [childrenNamed_append, childrenNamed_append, List.flatMap_append, List.flatMap_append]
    have a := h.doc hp; have b := h'.doc hp
    unfold entriesOf at a b
    rw [a, b]
  · intro hp; rw [List.flatMap_append, List.flatMap_append, h.dict hp, h'.dict hp]
  · intro hp; rw [sectionEntries_append, sectionEntries_append, h.grammemes hp, h'.grammemes hp]
  · intro hp
    rw [childrenNamed_append, childrenNamed_append, List.flatMap_append, List.flatMap_append, h.grammeme hp, h'.grammeme hp]
  · intro hp; rw [textsOf_append, textsOf_append, h.name hp, h'.name hp]
  · intro hp; rw [sectionEntries_append, sectionEntries_append, h.lemmata hp, h'.lemmata hp]
  · intro hp
    rw [childrenNamed_append, childrenNamed_append, List.map_append, List.map_append, h.forms hp, h'.forms hp]
  · intro hp
    rw [childrenNamed_append, childrenNamed_append, List.flatMap_append, List.flatMap_append, h.heads hp, h'.heads hp]
  · intro hp
    have a := h.tags hp; have b := h'.tags hp
    unfold tagsOf at a b ⊢
    rw [childrenNamed_append, childrenNamed_append, List.map_append, List.map_append, a, b]

theorem Views.refl (p : List Str) (xs : List Xml) : Views p xs xs := by constructor <;> intros <;> rfl

theorem Views.symm {p : List Str} {xs ys : List Xml} (h : Views p xs ys) : Views p ys xs :=
  ⟨fun e => (h.doc e).symm, fun e => (h.dict e).symm, fun e => (h.grammemes e).symm, fun e => (h.grammeme e).symm,
    fun e => (h.name e).symm, fun e => (h.lemmata e).symm, fun e => (h.forms e).symm, fun e => (h.heads e).symm,
    fun e => (h.tags e).symm⟩

theorem Views.trans {p : List Str} {xs ys zs : List Xml} (h : Views p xs ys) (g : Views p ys zs) : Views p xs zs :=
  ⟨fun e => (h.doc e).trans (g.doc e), fun e => (h.dict e).trans (g.dict e), fun e => (h.grammemes e).trans (g.grammemes e),
    fun e => (h.grammeme e).trans (g.grammeme e), fun e => (h.name e).trans (g.name e),
    fun e => (h.lemmata e).trans (g.lemmata e), fun e => (h.forms e).trans (g.forms e),
    fun e => (h.heads e).trans (g.heads e), fun e => (h.tags e).trans (g.tags e)⟩

/-- An element in which the content attributes and what is read below agree. -/
theorem Views.elem {p : List Str} {n : Str} {as as' : List XAttr} {ks ks' : List Xml}
    (ha : ∀ k ∈ contentAttrs, attrOf k as = attrOf k as') (h : Views (p ++ [n]) ks ks') :
    Views p [.elem n as ks] [.elem n as' ks'] := by
  have hp := ha (str "parent") (by decide)
  have ht := ha (str "t") (by decide)
  have hv := ha (str "v") (by decide)
  constructor
  · rintro rfl
    unfold entriesOf
    rw [childrenNamed_elem, childrenNamed_elem]
    by_cases hn : n = str "dictionary"
    · subst hn
      rw [if_pos rfl, if_pos rfl]
      simpa [childrenNamed] using h.dict rfl
    · rw [if_neg hn, if_neg hn]
  · rintro rfl
    simp only [List.flatMap_cons, List.flatMap_nil, List.append_nil, childEntries]
    by_cases h1 : n = str "grammemes"
    · subst h1; exact h.grammemes rfl
    · by_cases h2 : n = str "lemmata"
      · subst h2; exact h.lemmata rfl
      · unfold sectionEntries; rw [if_neg h1, if_neg h2, if_neg h1, if_neg h2]
  · rintro rfl
    unfold sectionEntries
    rw [if_pos rfl, if_pos rfl, childrenNamed_elem, childrenNamed_elem]
    by_cases hn : n = str "grammeme"
    · subst hn
      rw [if_pos rfl, if_pos rfl]
      have := h.grammeme rfl
      simp only [childrenNamed, List.append_nil, List.map_cons, List.map_nil, grammemeEntry]
      rw [this, hp]
    · rw [if_neg hn, if_neg hn]
  · rintro rfl
    rw [childrenNamed_elem, childrenNamed_elem]
    by_cases hn : n = str "name"
    · subst hn
      rw [if_pos rfl, if_pos rfl]
      simpa [childrenNamed] using h.name rfl
    · rw [if_neg hn, if_neg hn]
  · intro _; rfl
  · rintro rfl
    unfold sectionEntries
    have hne : ¬ str "lemmata" = str "grammemes" := by decide
    rw [if_neg hne, if_neg hne, if_pos rfl, if_pos rfl, childrenNamed_elem, childrenNamed_elem]
    by_cases hn : n = str "lemma"
    · subst hn
      rw [if_pos rfl, if_pos rfl]
      simp only [childrenNamed, List.append_nil, List.map_cons, List.map_nil]
      rw [lemmaEntry_eq (h.forms rfl) (h.heads rfl)]
    · rw [if_neg hn, if_neg hn]
  · rintro rfl
    rw [childrenNamed_elem, childrenNamed_elem]
    by_cases hn : n = str "f"
    · subst hn
      rw [if_pos rfl, if_pos rfl]
      simp only [childrenNamed, List.append_nil, List.map_cons, List.map_nil]
      rw [ht, h.tags (.inr rfl)]
    · rw [if_neg hn, if_neg hn]
  · rintro rfl
    rw [childrenNamed_elem, childrenNamed_elem]
    by_cases hn : n = str "l"
    · subst hn
      rw [if_pos rfl, if_pos rfl]
      simpa [childrenNamed] using h.tags (.inl rfl)
    · rw [if_neg hn, if_neg hn]
  · intro _
    unfold tagsOf
    rw [childrenNamed_elem, childrenNamed_elem]
    by_cases hn : n = str "g"
    · subst hn
      rw [if_pos rfl, if_pos rfl]
      simp [childrenNamed, hv]
    · rw [if_neg hn, if_neg hn]

/-- Something that is read nowhere at this path. -/
theorem Views.nothing {p : List Str} {x : Xml} (hx : (∃ d, x = .text d ∧ p ≠ namePath) ∨ x = .other) : Views p [x] [] := by
  rcases hx with ⟨d, rfl, hp⟩ | rfl
  · exact ⟨fun _ => rfl, fun _ => rfl, fun _ => rfl, fun _ => rfl, fun h => absurd h hp, fun _ => rfl, fun _ => rfl, fun _ => rfl,
      fun _ => rfl⟩
  · exact ⟨fun _ => rfl, fun _ => rfl, fun _ => rfl, fun _ => rfl, fun _ => rfl, fun _ => rfl, fun _ => rfl, fun _ => rfl,
      fun _ => rfl⟩

theorem Views.skipped {p : List Str} {n : Str} (as : List XAttr) (ks : List Xml) (h : p ++ [n] ∈ skippedPaths) :
    Views p [.elem n as ks] [] := by
  have hp : p = (p ++ [n]).dropLast := by simp
  have hn : some n = (p ++ [n]).getLast? := by simp
  generalize p ++ [n] = q at *
  simp only [skippedPaths, List.mem_cons, List.not_mem_nil, or_false] at h
  rcases h with rfl | rfl | rfl | rfl | rfl <;> (
    subst hp
    cases hn
    constructor <;> intro h <;> rfl)

/-- Documents with the same content are read alike. -/
theorem SaysSame.views {p : List Str} {xs ys : List Xml} (h : SaysSame p xs ys) : Views p xs ys := by
  induction h with
  | refl p xs => exact .refl p xs
  | symm _ ih => exact ih.symm
  | trans _ _ ih1 ih2 => exact ih1.trans ih2
  | later x _ ih => exact (Views.refl _ [x]).append ih
  | inside xs _ ih => exact (Views.elem (fun _ _ => rfl) ih).append (.refl _ xs)
  | order ks xs hp hn => exact (Views.elem (fun k _ => attrOf_perm hp hn k) (.refl _ ks)).append (.refl _ xs)
  | unused a as ks xs ha =>
    refine (Views.elem (fun k hk => ?_) (.refl _ ks)).append (.refl _ xs)
    rw [attrOf, if_neg (by rintro rfl; exact ha hk)]
  | comment xs _ => exact (Views.nothing (.inr rfl)).append (.refl _ xs)
  | before d => exact (Views.nothing (.inr rfl)).append (.refl _ [.text d])
  | after d => exact (Views.refl _ [.text d]).append (Views.nothing (.inr rfl))
  | text d xs hp => exact (Views.nothing (.inl ⟨d, rfl, hp⟩)).append (.refl _ xs)
  | skipped as ks xs hs => exact (Views.skipped as ks hs).append (.refl _ xs)

/-- C83 (comments inside the text of a name excepted): two documents of the format with the same content are imported into
the same index with the same result, whatever was in the index before and whatever the limit of lemmas. -/
theorem C83_partial (fo : Str → Bool) (doc doc' : List Xml) (h : SaysSame [] doc doc') (hv : Xml.ValidAll fo [] doc)
    (hv' : Xml.ValidAll fo [] doc') (ix : Index) (max : Int) :
    let r := PState.run fo (PState.init ix max) (Xml.tokensAll doc)
    let r' := PState.run fo (PState.init ix max) (Xml.tokensAll doc')
    r.1.ix = r'.1.ix ∧ r.2 = r'.2 := by
  have he := h.views.doc rfl
  intro r r'
  have h1 := (sim_doc (fo := fo) doc (PState.init ix max) rfl ⟨rfl, rfl, rfl⟩ hv).outcome
  have h2 := (sim_doc (fo := fo) doc' (PState.init ix max) rfl ⟨rfl, rfl, rfl⟩ hv').outcome
  rw [he] at h1
  exact ⟨h1.1.trans h2.1.symm, h1.2.trans h2.2.symm⟩

/-- So are the answers of the index that is saved and loaded. -/
theorem C83_answers_partial (doc doc' : List Xml) (h : SaysSame [] doc doc') (ix : Index) :
    ServesExactly doc ix ↔ ServesExactly doc' ix := by
  unfold ServesExactly
  rw [h.views.doc rfl]

/-! ## The hypotheses are met -/

/-- The sample document with the attributes of the lemma exchanged, a comment among its forms, a comment before the name of
a grammeme, and without its links. -/
def sampleDoc' : List Xml :=
  [.elem (str "dictionary") [⟨str "version", str "0.92"⟩, ⟨str "revision", str "417127"⟩] [
    .elem (str "grammemes") [] [
      .elem (str "grammeme") [⟨str "parent", []⟩] [
        .elem (str "name") [] [.other, .text (str "NOUN")]],
      .elem (str "grammeme") [⟨str "parent", str "NMbr"⟩] [.elem (str "name") [] [.text (str "sing")]],
      .elem (str "grammeme") [⟨str "parent", str "NMbr"⟩] [.elem (str "name") [] [.text (str "plur")]]],
    .elem (str "lemmata") [] [
      .elem (str "lemma") [⟨str "rev", str "1"⟩, ⟨str "id", str "1"⟩] [
        .elem (str "l") [⟨str "t", str "cat"⟩] [.elem (str "g") [⟨str "v", str "NOUN"⟩] []],
        .elem (str "f") [⟨str "t", str "cat"⟩] [.elem (str "g") [⟨str "v", str "sing"⟩] []],
        .other,
        .elem (str "f") [⟨str "t", str "cats"⟩] [.elem (str "g") [⟨str "v", str "plur"⟩] []]]]]]

theorem SaysSame.both {p : List Str} {n : Str} {as : List XAttr} {ks ks' xs ys : List Xml} (h : SaysSame (p ++ [n]) ks ks')
    (g : SaysSame p xs ys) : SaysSame p (.elem n as ks :: xs) (.elem n as ks' :: ys) :=
  .trans (.inside xs h) (.later _ g)

theorem sampleDoc_same : SaysSame [] sampleDoc sampleDoc' := by
  refine .trans (.comment _ (by decide)) (.both (.trans (.text _ _ (by decide)) (.both (.both ?_ (.refl _ _)) ?_)) (.refl _ _))
  · exact .both (.symm (.before _)) (.skipped _ _ _ (by decide))
  · refine .both (.trans (.order _ _ (List.Perm.swap _ _ _) (by decide)) (.both ?_ (.refl _ _))) (.skipped _ _ _ (by decide))
    exact .later _ (.later _ (.symm (.comment _ (by decide))))

example : Xml.ValidAll (fun _ => true) [] sampleDoc' := by decide

/-! ## What does not hold -/

/-- A grammeme whose name is `NOUN`, with and without a comment after the second letter. -/
def commentedName (ks : List Xml) : List Xml :=
  [.elem (str "dictionary") [] [.elem (str "grammemes") [] [
    .elem (str "grammeme") [⟨str "parent", []⟩] [.elem (str "name") [] ks]]]]

/-- C83 does not hold for comments inside the text of a name: the tag is named by what follows the last one. -/
theorem not_C83 : let r := fun ks => (PState.run (fun _ => true) (PState.init Index.new 0) (Xml.tokensAll (commentedName ks)))
    (r [.text (str "NOUN")]).2 = none ∧ (r [.text (str "NO"), .other, .text (str "UN")]).2 = none ∧
    (r [.text (str "NOUN")]).1.ix.tags = [⟨str "----", str "NOUN"⟩] ∧
    (r [.text (str "NO"), .other, .text (str "UN")]).1.ix.tags = [⟨str "----", str "UN"⟩] := by
  decide

end Verif
