import Verif.Model.Errors
import Verif.Lemmas.Texts
import Verif.Lemmas.Utf8
import Verif.Lemmas.FileFormat

/-!
# Facts about error values
-/

namespace Verif

/-- The bytes of an encoding longer than one byte are not ASCII. -/
theorem encodeRune_high {r : Rune} (h : 2 ≤ (encodeRune r).length) : ∀ b ∈ encodeRune r, 0x80 ≤ b.toNat := by
  unfold encodeRune at h ⊢
  simp only at h ⊢
  generalize r.toUInt32.toNat = n at h ⊢
  intro b hb
  have key : ∀ k, 128 ≤ k → k < 256 → 128 ≤ (UInt8.ofNat k).toNat := fun k h1 h2 => by
    rw [UInt8.toNat_ofNat_of_lt' (by simpa using h2)]; exact h1
  split at h
  · simp at h
  · rename_i h0
    rw [if_neg h0] at hb
    split at hb
    · simp only [List.mem_cons, List.not_mem_nil, or_false] at hb
      rcases hb with rfl | rfl <;> exact key _ (by omega) (by omega)
    · split at hb
      · simp only [List.mem_cons, List.not_mem_nil, or_false] at hb
        rcases hb with rfl | rfl | rfl <;> decide
      · split at hb
        · simp only [List.mem_cons, List.not_mem_nil, or_false] at hb
          rcases hb with rfl | rfl | rfl <;> exact key _ (by omega) (by omega)
        · simp only [List.mem_cons, List.not_mem_nil, or_false] at hb
          rcases hb with rfl | rfl | rfl | rfl <;> exact key _ (by omega) (by omega)

/-- A text, an opening bracket and the encoding of one rune: the text and the encoding can be told from the whole. -/
theorem bracket_inj {w w' : Str} {r r' : Rune}
    (h : w ++ (0x5b :: encodeRune r) = w' ++ (0x5b :: encodeRune r')) : w = w' ∧ encodeRune r = encodeRune r' := by
  have key : ∀ {w w' : Str} {r r' : Rune}, w ++ (0x5b :: encodeRune r) = w' ++ (0x5b :: encodeRune r') →
      ¬ (encodeRune r).length < (encodeRune r').length := by
    intro w w' r r' h hl
    have h1 : (0x5b :: encodeRune r) <:+ w' ++ (0x5b :: encodeRune r') := ⟨w, h⟩
    have h2 : encodeRune r' <:+ w' ++ (0x5b :: encodeRune r') := ⟨w' ++ [0x5b], by simp⟩
    have h3 := List.suffix_of_suffix_length_le h1 h2 (by rw [List.length_cons]; omega)
    have h4 : (0x5b : UInt8) ∈ encodeRune r' := h3.subset (by simp)
    have hp : 0 < (encodeRune r).length := List.length_pos_iff.2 (encodeRune_ne_nil r)
    have := encodeRune_high (by omega) _ h4
    exact absurd this (by decide)
  have hl : (encodeRune r).length = (encodeRune r').length := by
    have h1 := key h
    have h2 := key h.symm
    omega
  obtain ⟨e1, e2⟩ := List.append_inj' h (by simp [hl])
  exact ⟨e1, (List.cons.inj e2).2⟩

/-- The encoding of a character tells the character. -/
theorem encodeRune_inj {r r' : Rune} (h : IsScalar r) (h' : IsScalar r') (e : encodeRune r = encodeRune r') : r = r' := by
  have h1 := decode_encode h []
  rw [e, decode_encode h' []] at h1
  exact (Prod.mk.inj h1).1.symm

/-- The text of characters tells the characters. -/
theorem encodeRunes_inj {a b : List Rune} (ha : ∀ r ∈ a, IsScalar r) (hb : ∀ r ∈ b, IsScalar r)
    (e : encodeRunes a = encodeRunes b) : a = b := by
  have h1 := decodeAux_encode a ha _ (Nat.le_refl _)
  rw [e] at h1
  exact h1.symm.trans (decodeAux_encode b hb _ (Nat.le_refl _))

/-- The text of a "not found" error. -/
theorem notFound_text (adding : Bool) (w : Str) (r : Rune) :
    ∃ g, Err.go adding (.notFound w r) = some g ∧ g.chain = [.index] ∧
      g.text = str "index: fetch: not found: `" ++ (w ++ (0x5b :: encodeRune r)) ++ str "]`" := by
  refine ⟨_, rfl, rfl, ?_⟩
  simp [errorf, Piece.text, indexError, str]

theorem notFound_text_inj {a a' : Bool} {w w' : Str} {r r' : Rune} {g g' : GoError}
    (hg : Err.go a (.notFound w r) = some g) (hg' : Err.go a' (.notFound w' r') = some g') :
    g.text = g'.text ↔ w = w' ∧ encodeRune r = encodeRune r' := by
  obtain ⟨_, e, -, ht⟩ := notFound_text a w r
  obtain ⟨_, e', -, ht'⟩ := notFound_text a' w' r'
  obtain rfl := Option.some.inj (hg.symm.trans e)
  obtain rfl := Option.some.inj (hg'.symm.trans e')
  rw [ht, ht']
  constructor
  · intro h
    exact bracket_inj (List.append_cancel_left (List.append_cancel_right h))
  · rintro ⟨rfl, h⟩
    rw [h]

/-! ## Which errors there are -/

theorem get_error {ix : Index} {id : ID} {e : Err} (h : (ix.get id).error = some e) : e = .noSuchNode id := by
  unfold Index.get at h
  split at h
  · exact (Option.some.inj h).symm
  · cases h

/-- Running out of recursion is not an error, so the text of a node never is one. -/
theorem wordFuel_error (n : Nat) (its : Items) (id : ID) : (Index.wordFuel n its id).error = none := by
  induction n generalizing id with
  | zero => rfl
  | succ n ih =>
    unfold Index.wordFuel
    split
    · rfl
    · split
      · rfl
      · split
        · rename_i it _ _
          have := ih it.parent
          revert this
          cases Index.wordFuel n its it.parent <;> simp [Out.bind, Out.error]
        · rfl

theorem word_bind_error {ix : Index} {id : ID} {r : Rune} {e : Err}
    (h : ((ix.word id).bind fun w => (.err (.notFound w r) : Out ID)).error = some e) : ∃ w, e = .notFound w r := by
  have hw := wordFuel_error (ix.items.nextID.toNat + 1) ix.items id
  unfold Index.word at h
  revert h hw
  cases Index.wordFuel (ix.items.nextID.toNat + 1) ix.items id <;> simp [Out.bind, Out.error]
  rintro rfl
  exact ⟨_, rfl⟩

/-- The errors of a lookup. -/
def Err.OfLookup : Err → Prop
  | .emptyRunes => True
  | .notFound _ _ => True
  | .noSuchNode _ => True
  | _ => False

theorem fetchFromItem_error (ix : Index) (p : ID) (rs : List Rune) {e : Err}
    (h : (ix.fetchFromItem p rs).2.error = some e) : e.OfLookup := by
  induction rs generalizing ix p with
  | nil => obtain rfl := Option.some.inj h; trivial
  | cons r rest ih =>
    unfold Index.fetchFromItem at h
    split at h
    rename_i ix1 cm heq
    split at h
    · obtain ⟨w, rfl⟩ := word_bind_error h; trivial
    · split at h
      · rw [get_error h]; trivial
      · exact ih _ _ h

theorem fetchItemFromParent_error (ix : Index) (p : ID) (rs : List Rune) {e : Err}
    (h : (ix.fetchItemFromParent p rs).2.error = some e) : e.OfLookup := by
  induction rs generalizing ix p with
  | nil => obtain rfl := Option.some.inj h; trivial
  | cons r rest ih =>
    unfold Index.fetchItemFromParent at h
    split at h
    rename_i ix1 cm heq
    split at h
    · obtain ⟨w, rfl⟩ := word_bind_error h; trivial
    · split at h
      · cases h
      · exact ih _ _ h

/-- The errors of an add. -/
def Err.OfAdd : Err → Prop
  | .emptyRunes => True
  | .emptyWord => True
  | .noParent _ => True
  | .noSuchNode _ => True
  | _ => False

theorem addLoop_error (orig : ID) (ix : Index) (p : ID) (rs : List Rune) {e : Err}
    (h : (Index.addLoop orig ix p rs).2.error = some e) : e.OfAdd := by
  induction rs generalizing ix p with
  | nil => obtain rfl := Option.some.inj h; trivial
  | cons r rest ih =>
    unfold Index.addLoop at h
    split at h
    · obtain rfl := Option.some.inj h; trivial
    · split at h
      · cases h
      · split at h
        · rw [get_error h]; trivial
        · exact ih _ _ h

theorem addTagSet_error (ix : Index) (id : ID) (names : List Str) {e : Err}
    (h : (ix.addTagSet id names).2.error = some e) : ∃ n, e = .unknownTag n := by
  unfold Index.addTagSet at h
  split at h
  · exact ⟨_, (Option.some.inj h).symm⟩
  · split at h
    · cases h
    · split at h <;> cases h

theorem tagSet_error (ix : Index) (t : TagSet) {e : Err} (h : (ix.tagSet t).error = some e) : ∃ n, e = .noSuchTag n := by
  induction t with
  | nil => cases h
  | cons a t ih =>
    unfold Index.tagSet at h
    split at h
    · exact ⟨_, (Option.some.inj h).symm⟩
    · revert h ih
      cases ix.tagSet t <;> simp [Out.bind, Out.error]

/-! ## Files -/

theorem writeTagsError_spec (tags : List Tag) (i : Nat) :
    (writeTagsError i tags = none ∧ ∀ t ∈ tags, NameOK t.parent ∧ NameOK t.name) ∨
    ∃ k t, tags[k]? = some t ∧ ¬ (NameOK t.parent ∧ NameOK t.name) ∧
      (∀ j t', j < k → tags[j]? = some t' → NameOK t'.parent ∧ NameOK t'.name) ∧
      writeTagsError i tags = some (errorf [.wrap marshalError, .lit ": cant write indexed ", .num (i + k)]) := by
  induction tags generalizing i with
  | nil => exact .inl ⟨rfl, by simp⟩
  | cons t ts ih =>
    unfold writeTagsError
    by_cases ht : (writeTag t).err = none
    · rw [if_pos ht]
      rcases ih (i + 1) with ⟨h1, h2⟩ | ⟨k, t', h1, h2, h3, h4⟩
      · refine .inl ⟨h1, fun x hx => ?_⟩
        rcases List.mem_cons.1 hx with rfl | hx
        · exact (writeTag_err _).1 ht
        · exact h2 x hx
      · refine .inr ⟨k + 1, t', by simpa using h1, h2, fun j x hj hx => ?_, ?_⟩
        · cases j with
          | zero =>
            simp only [List.getElem?_cons_zero, Option.some.injEq] at hx
            subst hx
            exact (writeTag_err _).1 ht
          | succ j => exact h3 j x (by omega) (by simpa using hx)
        · rw [h4, show i + 1 + k = i + (k + 1) by omega]
    · rw [if_neg ht]
      refine .inr ⟨0, t, by simp, fun h => ht ((writeTag_err _).2 h), fun j _ hj => by omega, rfl⟩

theorem readStringZ_cases (s : Str) : readStringZ s = .err .eof ∨ ∃ x, readStringZ s = .ok x := by
  induction s with
  | nil => exact .inl rfl
  | cons a s ih =>
    unfold readStringZ
    split
    · exact .inr ⟨_, rfl⟩
    · rcases ih with h | ⟨⟨t, s'⟩, h⟩
      · rw [h]; exact .inl rfl
      · rw [h]; exact .inr ⟨_, rfl⟩

/-- The section has an error exactly when reading it fails. -/
theorem sectionError_isSome {α : Type} (cause : Err → GoError) (n : Fin 4) (pfx : Str) (r : Rd α) (s : Str) :
    (sectionError cause n pfx r s).isSome ↔ ∃ e, readSection pfx r s = .err e := by
  unfold sectionError readSection Rd.bind
  rcases readStringZ_cases s with h | ⟨⟨t, s'⟩, h⟩
  · rw [h]; simp [Out.bind]
  · rw [h]
    simp only [Out.bind]
    by_cases hp : t ≠ pfx
    · simp [hp]
    · simp only [hp, if_false]
      cases r s' <;> simp [Out.error]

theorem sectionError_chain {α : Type} (cause : Err → GoError) (n : Fin 4) (pfx : Str) (r : Rd α) (s : Str) {g : GoError}
    (h : sectionError cause n pfx r s = some g) : g.chain = [.index] := by
  unfold sectionError at h
  split at h
  · obtain rfl := Option.some.inj h; rfl
  · split at h
    · obtain rfl := Option.some.inj h; rfl
    · obtain ⟨e, -, rfl⟩ := Option.map_eq_some_iff.1 h; rfl
  · cases h

theorem outerError_chain (n : Fin 4) {e : GoError} (h : e.chain = [.index]) : (outerError n e).chain = [.index] := by
  unfold outerError
  split <;> first | rfl | exact h

end Verif
