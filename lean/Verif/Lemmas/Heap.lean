import Verif.Model.Heap

/-!
# Reading slices after `append`; the parser with references does what the parser with values does
-/

namespace Verif

namespace Heap

variable {α : Type}

/-- The slice lies within its array. -/
def Valid (h : Heap α) (s : Slice) : Prop := s.arr < h.length ∧ s.len ≤ (h.getD s.arr []).length

theorem getD_append_left {h : Heap α} {a : List α} {i : Nat} (hi : i < h.length) :
    (h ++ [a]).getD i [] = h.getD i [] := by
  simp [List.getElem?_append_left hi]

theorem getD_append_self {h : Heap α} {a : List α} : (h ++ [a]).getD h.length [] = a := by simp

theorem getD_set_ne {h : Heap α} {a : List α} {i j : Nat} (hij : i ≠ j) : (h.set i a).getD j [] = h.getD j [] := by
  simp [List.getElem?_set_ne hij]

theorem getD_set_self {h : Heap α} {a : List α} {i : Nat} (hi : i < h.length) : (h.set i a).getD i [] = a := by
  simp [List.getElem?_set_self hi]

variable (grow : Growth α) (zero : α)

/-- What `append` returns reads as the old elements followed by the new ones. -/
theorem read_append {h : Heap α} {s : Slice} (v : Valid h s) (xs : List α) :
    read (append grow zero h s xs).1 (append grow zero h s xs).2 = read h s ++ xs := by
  unfold append read
  simp only
  have hl : ((h.getD s.arr []).take s.len).length = s.len := by rw [List.length_take]; have := v.2; omega
  split
  · simp only
    rw [getD_set_self v.1]
    rw [List.take_append_of_le_length (by rw [List.length_append, hl]),
      List.take_of_length_le (by rw [List.length_append, hl])]
  · simp only
    rw [getD_append_self, List.take_append_of_le_length (by rw [List.length_append, hl]),
      List.take_of_length_le (by rw [List.length_append, hl])]

/-- The slice that was appended to still reads the same. -/
theorem read_append_self {h : Heap α} {s : Slice} (v : Valid h s) (xs : List α) :
    read (append grow zero h s xs).1 s = read h s := by
  unfold append read
  simp only
  have hl : ((h.getD s.arr []).take s.len).length = s.len := by rw [List.length_take]; have := v.2; omega
  split
  · simp only
    rw [getD_set_self v.1, List.append_assoc, List.take_append_of_le_length (by rw [hl]),
      List.take_of_length_le (by rw [hl])]
  · simp only
    rw [getD_append_left v.1]

/-- Slices of other arrays are not affected. -/
theorem read_append_ne {h : Heap α} {s t : Slice} (v : Valid h t) (ne : t.arr ≠ s.arr) (xs : List α) :
    read (append grow zero h s xs).1 t = read h t := by
  unfold append read
  simp only
  split
  · simp only
    rw [getD_set_ne (Ne.symm ne)]
  · simp only
    rw [getD_append_left v.1]

theorem valid_append {h : Heap α} {s t : Slice} (v : Valid h s) (vt : Valid h t) (xs : List α) :
    Valid (append grow zero h s xs).1 t := by
  unfold append
  simp only
  split
  · rename_i hc
    unfold Valid
    simp only
    refine ⟨by rw [List.length_set]; exact vt.1, ?_⟩
    by_cases e : s.arr = t.arr
    · have h2 := vt.2
      rw [← e] at h2 ⊢
      rw [getD_set_self v.1]
      simp only [List.length_append, List.length_take, List.length_drop]
      omega
    · rw [getD_set_ne e]
      exact vt.2
  · unfold Valid
    simp only
    refine ⟨by rw [List.length_append]; have := vt.1; omega, ?_⟩
    rw [getD_append_left vt.1]
    exact vt.2

theorem valid_append_new {h : Heap α} {s : Slice} (v : Valid h s) (xs : List α) :
    Valid (append grow zero h s xs).1 (append grow zero h s xs).2 := by
  have h2 := v.2
  unfold append
  simp only
  split
  · unfold Valid
    simp only
    refine ⟨by rw [List.length_set]; exact v.1, ?_⟩
    rw [getD_set_self v.1]
    simp only [List.length_append, List.length_take, List.length_drop]
    omega
  · unfold Valid
    simp only
    refine ⟨by simp, ?_⟩
    rw [getD_append_self]
    simp only [List.length_append, List.length_take, List.length_replicate]
    omega

theorem append_arr (h : Heap α) (s : Slice) (xs : List α) :
    (append grow zero h s xs).2.arr = s.arr ∨ (append grow zero h s xs).2.arr = h.length := by
  unfold append
  simp only
  split
  · exact .inl rfl
  · exact .inr rfl

theorem read_make {h : Heap α} {s : Slice} (v : Valid h s) (xs : List α) : read (makeWith h xs).1 s = read h s := by
  unfold makeWith read
  simp only
  rw [getD_append_left v.1]

theorem valid_make {h : Heap α} {s : Slice} (v : Valid h s) (xs : List α) : Valid (makeWith h xs).1 s := by
  unfold makeWith Valid
  simp only
  refine ⟨by rw [List.length_append]; have := v.1; omega, ?_⟩
  rw [getD_append_left v.1]
  exact v.2

theorem read_make_new (h : Heap α) (xs : List α) : read (makeWith h xs).1 (makeWith h xs).2 = xs := by
  unfold makeWith read
  simp only
  rw [getD_append_self, List.take_of_length_le (Nat.le_refl _)]

theorem valid_make_new (h : Heap α) (xs : List α) : Valid (makeWith h xs).1 (makeWith h xs).2 := by
  unfold makeWith Valid
  simp only
  rw [getD_append_self]
  exact ⟨by simp, Nat.le_refl _⟩

theorem makeEmpty_eq (h : Heap α) : makeEmpty h = makeWith h [] := rfl

end Heap

namespace HState

/-- The value of a form. -/
def formValue (h : Heap Str) (w : HForm) : WForm := { form := w.form, g := h.read w.g }

/-- The value of a lemma. -/
def lemmaValue (h : Heap Str) (l : HLemma) : LemmaRec :=
  { lg := h.read l.lg, f := l.f.map (Option.map (formValue h)) }

/-- The state of the value parser that corresponds to a state with references. -/
def value (s : HState) : PState :=
  { s.st with lem := s.lem.map (lemmaValue s.heap), form := s.form.map (formValue s.heap) }

/-- The slices of the forms of a list. -/
def formSlices (fs : List (Option HForm)) : List Slice := fs.filterMap (Option.map HForm.g)

/-- The slices the parser holds. -/
def owned (s : HState) : List Slice :=
  (match s.lem with
    | none => []
    | some l => l.lg :: formSlices l.f) ++
  (match s.form with
    | none => []
    | some w => [w.g])

/-- All slices are valid and no two share an array. -/
structure Apart (h : Heap Str) (L : List Slice) : Prop where
  valid : ∀ t ∈ L, h.Valid t
  nodup : (L.map Slice.arr).Nodup

/-- The slices of the state are apart. -/
def Good (s : HState) : Prop := Apart s.heap s.owned

theorem Apart.perm {h : Heap Str} {L L' : List Slice} (a : Apart h L) (p : L'.Perm L) : Apart h L' :=
  ⟨fun t ht => a.valid t (p.mem_iff.1 ht), ((p.map _).nodup_iff).2 a.nodup⟩

theorem Apart.sub {h : Heap Str} {L L' : List Slice} (a : Apart h L) (p : L'.Sublist L) : Apart h L' :=
  ⟨fun t ht => a.valid t (p.subset ht), (p.map _).nodup a.nodup⟩

theorem Apart.make {h : Heap Str} {L : List Slice} (a : Apart h L) (xs : List Str) :
    Apart (h.makeWith xs).1 ((h.makeWith xs).2 :: L) ∧ ∀ t ∈ L, (h.makeWith xs).1.read t = h.read t := by
  refine ⟨⟨?_, ?_⟩, fun t ht => Heap.read_make (a.valid t ht) _⟩
  · intro t ht
    rcases List.mem_cons.1 ht with rfl | ht
    · exact Heap.valid_make_new _ _
    · exact Heap.valid_make (a.valid t ht) _
  · rw [List.map_cons, List.nodup_cons]
    refine ⟨?_, a.nodup⟩
    intro hm
    obtain ⟨t, ht, e⟩ := List.mem_map.1 hm
    have := (a.valid t ht).1
    rw [e] at this
    exact absurd this (Nat.lt_irrefl _)

theorem Apart.append {h : Heap Str} {t : Slice} {L : List Slice} (a : Apart h (t :: L)) (grow : Growth Str)
    (xs : List Str) :
    Apart (h.append grow [] t xs).1 ((h.append grow [] t xs).2 :: L) ∧
    ∀ u ∈ L, (h.append grow [] t xs).1.read u = h.read u := by
  have vt := a.valid t List.mem_cons_self
  have nd := a.nodup
  rw [List.map_cons, List.nodup_cons] at nd
  have ne : ∀ u ∈ L, u.arr ≠ t.arr := fun u hu e => nd.1 (List.mem_map.2 ⟨u, hu, e⟩)
  have vl : ∀ u ∈ L, h.Valid u := fun u hu => a.valid u (List.mem_cons_of_mem _ hu)
  refine ⟨⟨?_, ?_⟩, fun u hu => Heap.read_append_ne grow [] (vl u hu) (ne u hu) xs⟩
  · intro u hu
    rcases List.mem_cons.1 hu with rfl | hu
    · exact Heap.valid_append_new grow [] vt xs
    · exact Heap.valid_append grow [] vt (vl u hu) xs
  · rw [List.map_cons, List.nodup_cons]
    refine ⟨?_, nd.2⟩
    rcases Heap.append_arr grow [] h t xs with e | e
    · rw [e]; exact nd.1
    · rw [e]
      intro hm
      obtain ⟨u, hu, e'⟩ := List.mem_map.1 hm
      have := (vl u hu).1
      omega

theorem formSlices_some (w : HForm) (fs : List (Option HForm)) :
    formSlices (some w :: fs) = w.g :: formSlices fs := rfl

theorem formsValue_congr {h h' : Heap Str} {fs : List (Option HForm)}
    (e : ∀ t ∈ formSlices fs, h'.read t = h.read t) :
    fs.map (Option.map (formValue h')) = fs.map (Option.map (formValue h)) := by
  apply List.map_congr_left
  intro x hx
  cases x with
  | none => rfl
  | some w =>
    have : h'.read w.g = h.read w.g := e _ (List.mem_filterMap.2 ⟨some w, hx, rfl⟩)
    simp only [Option.map_some, formValue, this]

theorem value_congr {s : HState} {h' : Heap Str} (e : ∀ t ∈ s.owned, h'.read t = s.heap.read t) :
    value { s with heap := h' } = s.value := by
  obtain ⟨st, h, lem, form⟩ := s
  unfold owned at e
  simp only at e
  unfold value
  have e1 : lem.map (lemmaValue h') = lem.map (lemmaValue h) := by
    cases lem with
    | none => rfl
    | some l =>
      simp only [Option.map_some, lemmaValue]
      rw [e l.lg (by simp), formsValue_congr fun t ht => e t (by simp [ht])]
  have e2 : form.map (formValue h') = form.map (formValue h) := by
    cases form with
    | none => rfl
    | some w =>
      simp only [Option.map_some, formValue]
      rw [e w.g (by simp)]
  simp only [e1, e2]

/-- The loop over the forms: the array of the lemma's list may change behind its end, the lists read so far are
right. -/
theorem addForms_eq (grow : Growth Str) (lg : Slice) (fs : List (Option HForm)) (h : Heap Str) (ix : Index)
    (vl : h.Valid lg) (vf : ∀ t ∈ formSlices fs, h.Valid t ∧ t.arr ≠ lg.arr) :
    (addForms grow lg h ix fs).2 = PState.addForms (h.read lg) ix (fs.map (Option.map (formValue h))) ∧
    ∀ t, h.Valid t → (addForms grow lg h ix fs).1.Valid t ∧
      (t.arr ≠ lg.arr → (addForms grow lg h ix fs).1.read t = h.read t) := by
  induction fs generalizing h ix with
  | nil => exact ⟨rfl, fun t ht => ⟨ht, fun _ => rfl⟩⟩
  | cons x rest ih =>
    cases x with
    | none => exact ⟨rfl, fun t ht => ⟨ht, fun _ => rfl⟩⟩
    | some w =>
      have r1 := Heap.read_append grow [] vl (h.read w.g)
      have r2 := Heap.read_append_self grow [] vl (h.read w.g)
      have v2 := fun t (vt : h.Valid t) => Heap.valid_append grow [] vl vt (h.read w.g)
      have r3 := fun t (vt : h.Valid t) ne => Heap.read_append_ne grow [] (s := lg) vt ne (h.read w.g)
      unfold addForms
      simp only [List.map_cons, Option.map_some]
      unfold PState.addForms
      generalize Heap.append grow [] h lg (h.read w.g) = y at *
      obtain ⟨h', g⟩ := y
      simp only at r1 r2 r3 v2 ⊢
      have frame : ∀ t, h.Valid t → h'.Valid t ∧ (t.arr ≠ lg.arr → h'.read t = h.read t) :=
        fun t vt => ⟨v2 t vt, r3 t vt⟩
      simp only [formValue]
      generalize ix.addString w.form = z
      obtain ⟨ix1, o1⟩ := z
      cases o1 with
      | ok id =>
        simp only
        rw [r1]
        generalize ix1.addTagSet id (h.read lg ++ h.read w.g) = z2
        obtain ⟨ix2, o2⟩ := z2
        cases o2 with
        | ok u =>
          cases u
          simp only
          have vf' : ∀ t ∈ formSlices rest, h'.Valid t ∧ t.arr ≠ lg.arr := by
            intro t ht
            have := vf t (by rw [formSlices_some]; exact List.mem_cons_of_mem _ ht)
            exact ⟨v2 t this.1, this.2⟩
          obtain ⟨i1, i2⟩ := ih h' ix2 (v2 lg vl) vf'
          refine ⟨?_, ?_⟩
          · rw [i1, r2, formsValue_congr (h' := h') (h := h)]
            intro t ht
            have := vf t (by rw [formSlices_some]; exact List.mem_cons_of_mem _ ht)
            exact r3 t this.1 this.2
          · intro t vt
            refine ⟨(i2 t (v2 t vt)).1, fun ne => ?_⟩
            rw [(i2 t (v2 t vt)).2 ne, r3 t vt ne]
        | err e => exact ⟨rfl, frame⟩
        | panic => exact ⟨rfl, frame⟩
        | diverge => exact ⟨rfl, frame⟩
      | err e => exact ⟨rfl, frame⟩
      | panic => exact ⟨rfl, frame⟩
      | diverge => exact ⟨rfl, frame⟩

/-- The result of a step corresponds: the same error and the same index, and, if there is no error, corresponding
states. -/
def Agree (a : HState × Option PErr) (b : PState × Option PErr) : Prop :=
  a.2 = b.2 ∧ a.1.st.ix = b.1.ix ∧ (a.2 = none → a.1.value = b.1 ∧ a.1.Good)

theorem onStart_agree (grow : Growth Str) (floatOK : Str → Bool) (s : HState) (g : s.Good) (attrs : List XAttr)
    (k : Handler) : Agree (s.onStart grow floatOK attrs k) (s.value.onStart floatOK attrs k) := by
  obtain ⟨st, h, lem, form⟩ := s
  unfold Good owned at g
  simp only at g
  cases k with
  | mute => exact ⟨rfl, rfl, fun _ => ⟨rfl, g⟩⟩
  | dictionary => exact ⟨rfl, rfl, fun _ => ⟨rfl, g⟩⟩
  | grammeme =>
    unfold onStart PState.onStart
    cases getAttr (str "parent") attrs with
    | none => exact ⟨rfl, rfl, fun e => nomatch e⟩
    | some p => exact ⟨rfl, rfl, fun _ => ⟨rfl, g⟩⟩
  | grammemeName => exact ⟨rfl, rfl, fun _ => ⟨rfl, g⟩⟩
  | lem =>
    refine ⟨rfl, rfl, fun _ => ?_⟩
    have ga := g.sub (List.sublist_append_right _ _)
    obtain ⟨m1, m2⟩ := ga.make []
    refine ⟨?_, ?_⟩
    · unfold value PState.onStart onStart
      simp only [Option.map_some, lemmaValue]
      have e1 : Heap.read (h.makeEmpty).1 (h.makeEmpty).2 = [] := Heap.read_make_new h []
      rw [e1]
      have e2 : form.map (formValue (h.makeEmpty).1) = form.map (formValue h) := by
        cases form with
        | none => rfl
        | some w =>
          simp only [Option.map_some, formValue]
          rw [show Heap.read (h.makeEmpty).1 w.g = h.read w.g from m2 w.g (by simp)]
      rw [e2]
      rfl
    · exact m1
  | l =>
    unfold onStart PState.onStart value
    cases lem with
    | none => exact ⟨rfl, rfl, fun e => nomatch e⟩
    | some l => exact ⟨rfl, rfl, fun _ => ⟨rfl, g⟩⟩
  | lg =>
    unfold onStart PState.onStart
    cases getAttr (str "v") attrs with
    | none => exact ⟨rfl, rfl, fun e => nomatch e⟩
    | some v =>
      cases lem with
      | none => exact ⟨rfl, rfl, fun e => nomatch e⟩
      | some l =>
        refine ⟨rfl, rfl, fun _ => ?_⟩
        obtain ⟨m1, m2⟩ := g.append grow [v]
        have r := Heap.read_append grow [] (g.valid l.lg List.mem_cons_self) [v]
        refine ⟨?_, m1⟩
        simp only [value, Option.map_some, lemmaValue]
        rw [r, formsValue_congr fun t ht => m2 t (by simp [ht])]
        have e2 : form.map (formValue (h.append grow [] l.lg [v]).1) = form.map (formValue h) := by
          cases form with
          | none => rfl
          | some w =>
            simp only [Option.map_some, formValue]
            rw [m2 w.g (by simp)]
        rw [e2]
  | f =>
    have ga := g.sub (List.sublist_append_left _ _)
    obtain ⟨m1, m2⟩ := ga.make []
    have e1 : lem.map (lemmaValue (h.makeEmpty).1) = lem.map (lemmaValue h) := by
      cases lem with
      | none => rfl
      | some l =>
        simp only [Option.map_some, lemmaValue]
        rw [show Heap.read (h.makeEmpty).1 l.lg = h.read l.lg from m2 l.lg (by simp),
          formsValue_congr (h' := (h.makeEmpty).1) (h := h) fun t ht => m2 t (by simp [ht])]
    have e2 : Heap.read (h.makeEmpty).1 (h.makeEmpty).2 = [] := Heap.read_make_new h []
    unfold onStart PState.onStart
    cases getAttr (str "t") attrs with
    | none => exact ⟨rfl, rfl, fun e => nomatch e⟩
    | some v =>
      refine ⟨rfl, rfl, fun _ => ⟨?_, m1.perm (List.perm_append_singleton _ _)⟩⟩
      simp only [value, Option.map_some, formValue]
      rw [e1, e2]
      rfl
  | fg =>
    unfold onStart PState.onStart
    cases getAttr (str "v") attrs with
    | none => exact ⟨rfl, rfl, fun e => nomatch e⟩
    | some v =>
      cases form with
      | none => exact ⟨rfl, rfl, fun e => nomatch e⟩
      | some w =>
        refine ⟨rfl, rfl, fun _ => ?_⟩
        have g' := g.perm (List.perm_append_singleton _ _).symm
        obtain ⟨m1, m2⟩ := g'.append grow [v]
        have r := Heap.read_append grow [] (g'.valid w.g List.mem_cons_self) [v]
        refine ⟨?_, m1.perm (List.perm_append_singleton _ _)⟩
        simp only [value, Option.map_some, formValue]
        rw [r]
        have e1 : lem.map (lemmaValue (h.append grow [] w.g [v]).1) = lem.map (lemmaValue h) := by
          cases lem with
          | none => rfl
          | some l =>
            simp only [Option.map_some, lemmaValue]
            rw [m2 l.lg (by simp), formsValue_congr fun t ht => m2 t (by simp [ht])]
        rw [e1]

theorem onEnd_agree (grow : Growth Str) (s : HState) (g : s.Good) (k : Handler) :
    Agree (s.onEnd grow k) (s.value.onEnd k) := by
  obtain ⟨st, h, lem, form⟩ := s
  unfold Good owned at g
  simp only at g
  cases k with
  | grammeme =>
    unfold onEnd PState.onEnd value
    simp only
    cases st.grammeme with
    | none => exact ⟨rfl, rfl, fun e => nomatch e⟩
    | some p => exact ⟨rfl, rfl, fun _ => ⟨rfl, g⟩⟩
  | f =>
    unfold onEnd PState.onEnd value
    simp only
    cases lem with
    | none => exact ⟨rfl, rfl, fun e => nomatch e⟩
    | some l =>
      refine ⟨rfl, rfl, fun _ => ⟨?_, ?_⟩⟩
      · simp only [value, Option.map_some, lemmaValue, List.map_append, List.map_cons, List.map_nil, Option.map_none]
      · unfold Good owned
        simp only
        refine g.perm (.of_eq ?_)
        cases form with
        | none => simp [formSlices]
        | some w => simp [formSlices]
  | lem =>
    unfold onEnd PState.onEnd value
    simp only
    cases lem with
    | none => exact ⟨rfl, rfl, fun e => nomatch e⟩
    | some l =>
      have nd := g.nodup
      simp only [List.cons_append, List.map_cons, List.nodup_cons] at nd
      obtain ⟨a1, a2⟩ := addForms_eq grow l.lg l.f h st.ix (g.valid _ (by simp)) (by
        intro t ht
        refine ⟨g.valid t (by simp [ht]), fun e => nd.1 (List.mem_map.2 ⟨t, by simp [ht], e⟩)⟩)
      simp only [Option.map_some, lemmaValue]
      rw [← a1]
      generalize addForms grow l.lg h st.ix l.f = y at *
      obtain ⟨h', ix', o⟩ := y
      cases o with
      | some e => exact ⟨rfl, rfl, fun e => nomatch e⟩
      | none =>
        refine ⟨rfl, rfl, fun _ => ?_⟩
        simp only at a2
        refine ⟨?_, ?_⟩
        · simp only [value, Option.map_none]
          have e2 : form.map (formValue h') = form.map (formValue h) := by
            cases form with
            | none => rfl
            | some w =>
              simp only [Option.map_some, formValue]
              have vw := g.valid w.g (by simp)
              rw [(a2 _ vw).2 fun e => nd.1 (List.mem_map.2 ⟨w.g, by simp, e⟩)]
          rw [e2]
        · have gs := g.sub (List.sublist_append_right _ _)
          exact ⟨fun t ht => (a2 t (gs.valid t ht)).1, gs.nodup⟩
  | mute => exact ⟨rfl, rfl, fun _ => ⟨rfl, g⟩⟩
  | dictionary => exact ⟨rfl, rfl, fun _ => ⟨rfl, g⟩⟩
  | grammemeName => exact ⟨rfl, rfl, fun _ => ⟨rfl, g⟩⟩
  | l => exact ⟨rfl, rfl, fun _ => ⟨rfl, g⟩⟩
  | lg => exact ⟨rfl, rfl, fun _ => ⟨rfl, g⟩⟩
  | fg => exact ⟨rfl, rfl, fun _ => ⟨rfl, g⟩⟩

theorem token_agree (grow : Growth Str) (floatOK : Str → Bool) (s : HState) (g : s.Good) (t : XTok) :
    Agree (s.token grow floatOK t) (s.value.token floatOK t) := by
  cases t with
  | start n as =>
    unfold token PState.token
    simp only
    unfold startElement PState.startElement
    simp only
    have e : s.value.path = s.st.path := rfl
    rw [e]
    cases handlerOf (s.st.path ++ 0x2e :: n) with
    | none => exact ⟨rfl, rfl, fun e => nomatch e⟩
    | some k => exact onStart_agree grow floatOK { s with st := { s.st with path := s.st.path ++ 0x2e :: n } } g as k
  | chars d =>
    unfold token PState.token
    simp only
    unfold PState.charData
    have e : s.value.path = s.st.path := rfl
    rw [e]
    cases handlerOf s.st.path with
    | none => exact ⟨rfl, rfl, fun e => nomatch e⟩
    | some k =>
      cases k <;> try exact ⟨rfl, rfl, fun _ => ⟨rfl, g⟩⟩
      have e : s.value.grammeme = s.st.grammeme := rfl
      simp only [e]
      cases s.st.grammeme with
      | none => exact ⟨rfl, rfl, fun e => nomatch e⟩
      | some p => exact ⟨rfl, rfl, fun _ => ⟨rfl, g⟩⟩
  | stop n =>
    unfold token PState.token
    simp only
    unfold endElement PState.endElement
    have e : s.value.path = s.st.path := rfl
    rw [e]
    cases handlerOf s.st.path with
    | none => exact ⟨rfl, rfl, fun e => nomatch e⟩
    | some k =>
      obtain ⟨a1, a2, a3⟩ := onEnd_agree grow s g k
      simp only
      split
      · exact ⟨rfl, a2, fun e => nomatch e⟩
      · refine ⟨a1, a2, fun e => ?_⟩
        obtain ⟨b1, b2⟩ := a3 e
        refine ⟨?_, b2⟩
        rw [← b1]
        rfl
  | other => exact ⟨rfl, rfl, fun _ => ⟨rfl, g⟩⟩

theorem run_agree (grow : Growth Str) (floatOK : Str → Bool) (ts : List XTok) (s : HState) (g : s.Good) :
    Agree (s.run grow floatOK ts) (s.value.run floatOK ts) := by
  induction ts generalizing s with
  | nil => exact ⟨rfl, rfl, fun _ => ⟨rfl, g⟩⟩
  | cons t ts ih =>
    have a := token_agree grow floatOK s g t
    unfold run PState.run
    generalize s.token grow floatOK t = x at *
    generalize s.value.token floatOK t = y at *
    obtain ⟨x1, x2⟩ := x
    obtain ⟨y1, y2⟩ := y
    obtain ⟨a1, a2, a3⟩ := a
    simp only at a1 a2 a3
    subst a1
    cases x2 with
    | none =>
      obtain ⟨b1, b2⟩ := a3 rfl
      simp only
      rw [← b1]
      exact ih x1 b2
    | some e => exact ⟨rfl, a2, fun e => nomatch e⟩

end HState

end Verif
