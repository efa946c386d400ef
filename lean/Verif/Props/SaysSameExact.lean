import Verif.Props.SaysSame

/-!
# C83 — exactly what comments inside a name do

A comment inside the text of a name splits it into pieces. Every document is imported as the document in which only the
last piece of each name is left.
-/

namespace Verif

/-- The last piece of text alone. -/
def lastText (ks : List Xml) : List Xml := match (textsOf ks).getLast? with
  | none => []
  | some d => [.text d]

mutual
/-- A tree below `path` in which every name of a grammeme is reduced to its last piece of text. -/
def Xml.lastPieces (path : List Str) : Xml → Xml
  | .elem n as ks => .elem n as (if path ++ [n] = namePath then lastText ks else Xml.lastPiecesAll (path ++ [n]) ks)
  | .text d => .text d
  | .other => .other

/-- The same for several trees. -/
def Xml.lastPiecesAll (path : List Str) : List Xml → List Xml
  | [] => []
  | x :: xs => x.lastPieces path :: Xml.lastPiecesAll path xs
end

theorem childrenNamed_lastPieces (p : List Str) (k : Str) (xs : List Xml) :
    childrenNamed k (Xml.lastPiecesAll p xs) = (childrenNamed k xs).map fun c =>
      (c.1, if p ++ [k] = namePath then lastText c.2 else Xml.lastPiecesAll (p ++ [k]) c.2) := by
  induction xs with
  | nil => rfl
  | cons x xs ih =>
    rw [Xml.lastPiecesAll]
    cases x with
    | elem n as ks =>
      rw [Xml.lastPieces, childrenNamed_elem, childrenNamed_elem, ih, List.map_append]
      by_cases h : n = k
      · subst h; simp
      · simp [h]
    | text d => rw [Xml.lastPieces]; exact ih
    | other => rw [Xml.lastPieces]; exact ih

theorem getLast?_flatMap {α : Type} (l : List α) (f g : α → List Str) (h : ∀ a ∈ l, (f a).getLast? = (g a).getLast?) :
    (l.flatMap f).getLast? = (l.flatMap g).getLast? := by
  induction l with
  | nil => rfl
  | cons a l ih =>
    rw [List.flatMap_cons, List.flatMap_cons, List.getLast?_append, List.getLast?_append, h a List.mem_cons_self,
      ih fun b hb => h b (List.mem_cons_of_mem _ hb)]

theorem lastText_last (ks : List Xml) : (textsOf (lastText ks)).getLast? = (textsOf ks).getLast? := by
  unfold lastText
  cases h : (textsOf ks).getLast? <;> rfl

theorem tagsOf_lastPieces (p : List Str) (xs : List Xml) : tagsOf (Xml.lastPiecesAll p xs) = tagsOf xs := by
  unfold tagsOf
  rw [childrenNamed_lastPieces, List.map_map]; rfl

theorem grammemeEntry_lastPieces (as : List XAttr) (ks : List Xml) :
    grammemeEntry as (Xml.lastPiecesAll [str "dictionary", str "grammemes", str "grammeme"] ks) = grammemeEntry as ks := by
  unfold grammemeEntry
  rw [childrenNamed_lastPieces, List.flatMap_map, getLast?_flatMap _ _ (fun n => textsOf n.2)]
  intro a _
  rw [if_pos (by decide)]
  exact lastText_last a.2

theorem lemmaEntry_lastPieces (ks : List Xml) :
    lemmaEntry (Xml.lastPiecesAll [str "dictionary", str "lemmata", str "lemma"] ks) = lemmaEntry ks := by
  apply lemmaEntry_eq
  · rw [childrenNamed_lastPieces, List.map_map]
    refine List.map_congr_left fun a _ => ?_
    simp only [Function.comp]
    rw [if_neg (by decide), tagsOf_lastPieces]
  · rw [childrenNamed_lastPieces, List.flatMap_map]
    congr 1; funext a
    rw [if_neg (by decide), tagsOf_lastPieces]

theorem entriesOf_lastPieces (doc : List Xml) : entriesOf (Xml.lastPiecesAll [] doc) = entriesOf doc := by
  unfold entriesOf
  rw [childrenNamed_lastPieces, List.flatMap_map]
  congr 1; funext d
  rw [if_neg (by decide)]
  simp only
  generalize d.2 = ks
  induction ks with
  | nil => rfl
  | cons x xs ih =>
    rw [Xml.lastPiecesAll, List.flatMap_cons, List.flatMap_cons, ih]
    congr 1
    cases x with
    | text d => rfl
    | other => rfl
    | elem n as ks =>
      rw [Xml.lastPieces, childEntries, childEntries]
      unfold sectionEntries
      by_cases h1 : n = str "grammemes"
      · subst h1
        rw [if_pos rfl, if_pos rfl, if_neg (by decide), childrenNamed_lastPieces, List.map_map]
        refine List.map_congr_left fun a _ => ?_
        simp only [Function.comp]
        rw [if_neg (by decide)]
        exact grammemeEntry_lastPieces a.1 a.2
      · rw [if_neg h1, if_neg h1]
        by_cases h2 : n = str "lemmata"
        · subst h2
          rw [if_pos rfl, if_pos rfl, if_neg (by decide), childrenNamed_lastPieces, List.map_map]
          refine List.map_congr_left fun a _ => ?_
          simp only [Function.comp]
          rw [if_neg (by decide)]
          exact lemmaEntry_lastPieces a.2
        · rw [if_neg h2, if_neg h2]

mutual
theorem valid_lastPieces (fo : Str → Bool) (p : List Str) : ∀ x : Xml, x.Valid fo p → (x.lastPieces p).Valid fo p
  | .elem n as ks, h => by
    rw [Xml.Valid] at h
    rw [Xml.lastPieces, Xml.Valid]
    refine ⟨h.1, h.2.1, ?_⟩
    split
    · unfold lastText
      cases (textsOf ks).getLast? with
      | none => rw [Xml.ValidAll]; trivial
      | some d => rw [Xml.ValidAll, Xml.Valid, Xml.ValidAll]; exact ⟨trivial, trivial⟩
    · exact validAll_lastPieces fo _ ks h.2.2
  | .text d, _ => by rw [Xml.lastPieces, Xml.Valid]; trivial
  | .other, _ => by rw [Xml.lastPieces, Xml.Valid]; trivial

theorem validAll_lastPieces (fo : Str → Bool) (p : List Str) : ∀ xs : List Xml, Xml.ValidAll fo p xs →
    Xml.ValidAll fo p (Xml.lastPiecesAll p xs)
  | [], _ => by rw [Xml.lastPiecesAll, Xml.ValidAll]; trivial
  | x :: xs, h => by
    rw [Xml.ValidAll] at h
    rw [Xml.lastPiecesAll, Xml.ValidAll]
    exact ⟨valid_lastPieces fo p x h.1, validAll_lastPieces fo p xs h.2⟩
end

/-- C83 with comments wherever they stand: a document of the format is imported as the document in which only the last
piece of each name is left — the same index and the same result, whatever was in the index and whatever the limit. -/
theorem C83_exact (fo : Str → Bool) (doc : List Xml) (hv : Xml.ValidAll fo [] doc) (ix : Index) (max : Int) :
    let r := PState.run fo (PState.init ix max) (Xml.tokensAll doc)
    let r' := PState.run fo (PState.init ix max) (Xml.tokensAll (Xml.lastPiecesAll [] doc))
    r.1.ix = r'.1.ix ∧ r.2 = r'.2 := by
  intro r r'
  have h1 := (sim_doc (fo := fo) doc (PState.init ix max) rfl ⟨rfl, rfl, rfl⟩ hv).outcome
  have h2 := (sim_doc (fo := fo) _ (PState.init ix max) rfl ⟨rfl, rfl, rfl⟩ (validAll_lastPieces fo [] doc hv)).outcome
  rw [entriesOf_lastPieces] at h2
  exact ⟨h1.1.trans h2.1.symm, h1.2.trans h2.2.symm⟩

/-- So documents that say the same once only the last piece of each name is left are imported alike. -/
theorem C83_exact_same (fo : Str → Bool) (doc doc' : List Xml)
    (h : SaysSame [] (Xml.lastPiecesAll [] doc) (Xml.lastPiecesAll [] doc')) (hv : Xml.ValidAll fo [] doc)
    (hv' : Xml.ValidAll fo [] doc') (ix : Index) (max : Int) :
    let r := PState.run fo (PState.init ix max) (Xml.tokensAll doc)
    let r' := PState.run fo (PState.init ix max) (Xml.tokensAll doc')
    r.1.ix = r'.1.ix ∧ r.2 = r'.2 := by
  obtain ⟨a1, a2⟩ := C83_exact fo doc hv ix max
  obtain ⟨b1, b2⟩ := C83_exact fo doc' hv' ix max
  obtain ⟨c1, c2⟩ := C83_partial fo _ _ h (validAll_lastPieces fo [] doc hv) (validAll_lastPieces fo [] doc' hv') ix max
  exact ⟨a1.trans (c1.trans b1.symm), a2.trans (c2.trans b2.symm)⟩

/-! ## Example: the name with a comment after its second letter -/

example : Xml.ValidAll (fun _ => true) [] (commentedName [.text (str "NO"), .other, .text (str "UN")]) := by decide

example : Xml.lastPiecesAll [] (commentedName [.text (str "NO"), .other, .text (str "UN")]) =
    commentedName [.text (str "UN")] := by
  simp [commentedName, Xml.lastPiecesAll, Xml.lastPieces, lastText, textsOf, namePath]

end Verif
