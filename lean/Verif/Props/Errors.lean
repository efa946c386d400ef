import Verif.Lemmas.Errors
import Verif.Props.Words
import Verif.Props.Utf8
import Verif.Props.FileFormat
import Verif.Props.Capacity

/-!
# C95 — what an error says
-/

namespace Verif

/-! ## Recognising an error of the index -/

/-- C95: whatever the index and the call, except `TagSet`: an error the call returns is recognised with `errors.Is` as an
error of the index, and as nothing else. -/
theorem C95_is_partial (ix : Index) (c : MemCall) (e : Err) (h : c.err ix = some e) (hc : ∀ t, c ≠ .tagSet t) :
    ∃ g, c.goError ix = some g ∧ ∀ s, g.Is s ↔ s = .index := by
  have key : ∀ a, e.OfLookup ∨ e.OfAdd ∨ (∃ n, e = .unknownTag n) →
      ∃ g, Err.go a e = some g ∧ ∀ s, g.Is s ↔ s = .index := by
    intro a he
    have fin : ∀ g : GoError, g.chain = [.index] → ∀ s, g.Is s ↔ s = .index := by
      intro g hg s; unfold GoError.Is; rw [hg]; simp
    rcases he with he | he | ⟨n, rfl⟩
    · cases e <;> first | exact False.elim he | exact ⟨_, rfl, fin _ (by first | rfl | (split <;> rfl))⟩
    · cases e <;> first | exact False.elim he | exact ⟨_, rfl, fin _ (by first | rfl | (split <;> rfl))⟩
    · exact ⟨_, rfl, fin _ rfl⟩
  have he : e.OfLookup ∨ e.OfAdd ∨ (∃ n, e = .unknownTag n) := by
    cases c with
    | addRunes rs => exact .inr (.inl (addLoop_error _ _ _ _ h))
    | addToNode id rs => exact .inr (.inl (addLoop_error _ _ _ _ h))
    | addString w =>
      simp only [MemCall.err, Index.addString] at h
      split at h
      · obtain rfl := Option.some.inj h; exact .inr (.inl trivial)
      · exact .inr (.inl (addLoop_error _ _ _ _ h))
    | fetchRunes rs => exact .inl (fetchFromItem_error _ _ _ h)
    | fetchString w => exact .inl (fetchFromItem_error _ _ _ h)
    | fetchFromItem id rs => exact .inl (fetchFromItem_error _ _ _ h)
    | fetchItemFromParent id rs => exact .inl (fetchItemFromParent_error _ _ _ h)
    | get id => rw [get_error h]; exact .inl trivial
    | addTagSet id names => exact .inr (.inr (addTagSet_error _ _ _ h))
    | tagSet t => exact absurd rfl (hc t)
  obtain ⟨g, h1, h2⟩ := key c.adds he
  exact ⟨g, by unfold MemCall.goError; rw [h]; exact h1, h2⟩

/-- Not so for `TagSet`: its error is not recognised as anything, on any index and for any set it refuses. -/
theorem not_C95_tagSet (ix : Index) (t : TagSet) (e : Err) (h : (MemCall.tagSet t).err ix = some e) :
    ∃ g, (MemCall.tagSet t).goError ix = some g ∧ ∀ s, ¬ g.Is s := by
  obtain ⟨n, rfl⟩ := tagSet_error ix t h
  refine ⟨_, by unfold MemCall.goError; rw [h]; exact rfl, fun s => ?_⟩
  unfold GoError.Is
  exact List.not_mem_nil

/-- Each kind of error occurs, on an index with one tag and one word. -/
example : let ix := execAll [.tagID (str "NOUN") [], .addRunes [0x61]]
    (MemCall.addString []).err ix = some .emptyWord ∧ (MemCall.addRunes []).err ix = some .emptyRunes ∧
    (MemCall.addToNode 7 [0x61]).err ix = some (.noParent 7) ∧ (MemCall.get 7).err ix = some (.noSuchNode 7) ∧
    (MemCall.fetchRunes [0x61, 0x62]).err ix = some (.notFound [0x61] 0x62) ∧
    (MemCall.addTagSet 1 [str "VERB"]).err ix = some (.unknownTag (str "VERB")) ∧
    (MemCall.tagSet [3]).err ix = some (.noSuchTag 3) := by decide

/-! ## The text of a failed lookup -/

/-- A lookup of `q` in the index stops at `c` after `pre`: `q` continues the known `pre` with `c`, and that is not
known. -/
def StopsAt (ix : Index) (q pre : List Rune) (c : Rune) : Prop :=
  (∃ post, q = pre ++ c :: post) ∧ (pre = [] ∨ ∃ id, (ix.fetchRunes pre).2 = .ok id) ∧
    ∀ id, (ix.fetchRunes (pre ++ [c])).2 ≠ .ok id

/-- A failed lookup stops at one place, and the error is that of the place. -/
theorem stopsAt_iff {h : List Op} {ix : Index} (r : Run h ix) (q : List Rune) (hq : q ≠ [])
    (hz : NoReload h ∨ NoLeadingNul q) (hno : ∀ id, (ix.fetchRunes q).2 ≠ .ok id) :
    ∃ pre c, (ix.fetchRunes q).2 = .err (.notFound (encodeRunes pre) c) ∧
      ∀ pre' c', StopsAt ix q pre' c' ↔ pre' = pre ∧ c' = c := by
  obtain ⟨pre, c, post, e, h1, h2⟩ := C53 r q hq hz hno
  refine ⟨pre, c, h1, fun pre' c' => ⟨?_, ?_⟩⟩
  · rintro ⟨⟨post', e'⟩, hk, hn⟩
    have hp : pre' <+: q := ⟨_, e'.symm⟩
    have hpc : pre' ++ [c'] <+: q := ⟨post', by rw [e']; simp⟩
    have a1 : pre' <+: pre := by
      rcases hk with rfl | hk
      · exact List.nil_prefix
      · by_cases hne : pre' = []
        · rw [hne]; exact List.nil_prefix
        · exact (h2 pre' hne hp).1 hk
    have a2 : ¬ (pre' ++ [c'] <+: pre) := fun h => by
      obtain ⟨id, hid⟩ := (h2 _ (by simp) hpc).2 h
      exact hn id hid
    have a3 : pre <+: pre' := by
      rcases List.prefix_or_prefix_of_prefix (⟨_, e.symm⟩ : pre <+: q) hpc with h | h
      · rcases List.prefix_concat_iff.1 h with h | h
        · exact absurd (h ▸ List.prefix_refl _) a2
        · exact h
      · exact absurd h a2
    have a4 := List.IsPrefix.eq_of_length a1 (Nat.le_antisymm a1.length_le a3.length_le)
    subst a4
    rw [e] at e'
    have := List.append_cancel_left e'
    exact ⟨rfl, (List.cons.inj this).1.symm⟩
  · rintro ⟨rfl, rfl⟩
    refine ⟨⟨post, e⟩, ?_, fun id hid => ?_⟩
    · by_cases hne : pre' = []
      · exact .inl hne
      · exact .inr ((h2 pre' hne ⟨_, e.symm⟩).2 (List.prefix_refl _))
    · have := (h2 _ (by simp) ⟨post, by rw [e]; simp⟩).1 ⟨id, hid⟩
      have := this.length_le
      rw [List.length_append, List.length_singleton] at this
      omega

/-- The error of a failed `FetchString`: of the empty word, or of the place where the lookup stops. -/
theorem fetchString_error {h : List Op} {ix : Index} (r : Run h ix) (w : Str)
    (hz : NoReload h ∨ NoLeadingNul (decodeRunes w)) {g : GoError} (hg : (MemCall.fetchString w).goError ix = some g) :
    (decodeRunes w = [] ∧ g.text = str "index: empty runes") ∨
    ∃ pre c, decodeRunes w ≠ [] ∧ Err.go false (.notFound (encodeRunes pre) c) = some g ∧
      StopsAt ix (decodeRunes w) pre c ∧ ∀ pre' c', StopsAt ix (decodeRunes w) pre' c' ↔ pre' = pre ∧ c' = c := by
  unfold MemCall.goError at hg
  simp only [MemCall.err, MemCall.adds, Index.fetchString] at hg
  by_cases hq : decodeRunes w = []
  · rw [hq] at hg
    refine .inl ⟨hq, ?_⟩
    obtain rfl := Option.some.inj hg
    simp [errorf, Piece.text, indexError, str]
  · have hno : ∀ id, (ix.fetchRunes (decodeRunes w)).2 ≠ .ok id := by
      intro id hid
      rw [hid] at hg
      cases hg
    obtain ⟨pre, c, h1, h2⟩ := stopsAt_iff r _ hq hz hno
    rw [h1] at hg
    exact .inr ⟨pre, c, hq, hg, (h2 pre c).2 ⟨rfl, rfl⟩, h2⟩

theorem emptyRunes_ne {w : Str} {r : Rune} {g : GoError} (hg : Err.go false (.notFound w r) = some g) :
    g.text ≠ str "index: empty runes" := by
  obtain ⟨_, e, -, ht⟩ := notFound_text false w r
  obtain rfl := Option.some.inj (hg.symm.trans e)
  rw [ht]
  intro h
  have := congrArg (fun l => l[7]?) h
  simp [str] at this

/-- C95 for lookups, exactly: two failed lookups of words, in whatever indexes, have errors with the same text if and
only if both words are empty, or both lookups stop at the same character after the same known text. So the text says how
much of the word is known and what comes next. -/
theorem C95_lookup {h h' : List Op} {ix ix' : Index} (r : Run h ix) (r' : Run h' ix') (w w' : Str)
    (hz : NoReload h ∨ NoLeadingNul (decodeRunes w)) (hz' : NoReload h' ∨ NoLeadingNul (decodeRunes w'))
    {g g' : GoError} (hg : (MemCall.fetchString w).goError ix = some g)
    (hg' : (MemCall.fetchString w').goError ix' = some g') :
    g.text = g'.text ↔ (w = [] ∧ w' = []) ∨
      ∃ pre c, StopsAt ix (decodeRunes w) pre c ∧ StopsAt ix' (decodeRunes w') pre c := by
  have hnil : ∀ w : Str, decodeRunes w = [] ↔ w = [] := by
    intro w
    constructor
    · intro h
      by_contra hw
      obtain ⟨b, t, rfl⟩ := List.exists_cons_of_ne_nil hw
      unfold decodeRunes at h
      simp only [List.length_cons, decodeAux] at h
      exact absurd h (by simp)
    · rintro rfl; rfl
  have hsc : ∀ (w : Str) (pre : List Rune) (c : Rune) (ix : Index), StopsAt ix (decodeRunes w) pre c →
      (∀ x ∈ pre, IsScalar x) ∧ IsScalar c := by
    rintro w pre c ix ⟨⟨post, e⟩, -⟩
    have := (C50_any w).1
    rw [e] at this
    exact ⟨fun x hx => this x (by simp [hx]), this c (by simp)⟩
  rcases fetchString_error r w hz hg with ⟨e1, t1⟩ | ⟨pre, c, n1, t1, s1, u1⟩ <;>
    rcases fetchString_error r' w' hz' hg' with ⟨e2, t2⟩ | ⟨pre', c', n2, t2, s2, u2⟩
  · rw [t1, t2]
    exact ⟨fun _ => .inl ⟨(hnil w).1 e1, (hnil w').1 e2⟩, fun _ => rfl⟩
  · rw [t1]
    refine ⟨fun h => absurd h.symm (emptyRunes_ne t2), ?_⟩
    rintro (⟨_, h⟩ | ⟨p, d, ⟨⟨post, h⟩, -⟩, -⟩)
    · exact absurd ((hnil w').2 h) n2
    · rw [e1] at h; exact absurd h.symm (by simp)
  · rw [t2]
    refine ⟨fun h => absurd h (emptyRunes_ne t1), ?_⟩
    rintro (⟨h, _⟩ | ⟨p, d, -, ⟨post, h⟩, -⟩)
    · exact absurd ((hnil w).2 h) n1
    · rw [e2] at h; exact absurd h.symm (by simp)
  · rw [notFound_text_inj t1 t2]
    constructor
    · rintro ⟨h1, h2⟩
      obtain rfl := encodeRunes_inj (hsc _ _ _ _ s1).1 (hsc _ _ _ _ s2).1 h1
      obtain rfl := encodeRune_inj (hsc _ _ _ _ s1).2 (hsc _ _ _ _ s2).2 h2
      exact .inr ⟨pre, c, s1, s2⟩
    · rintro (⟨h, _⟩ | ⟨p, d, a, b⟩)
      · exact absurd ((hnil w).2 h) n1
      · obtain ⟨rfl, rfl⟩ := (u1 p d).1 a
        obtain ⟨rfl, rfl⟩ := (u2 p d).1 b
        exact ⟨rfl, rfl⟩

/-- Two words that stop at the same place, with the same text. -/
example : let ix := execAll [.addRunes [0x61, 0x5b]]
    ((MemCall.fetchString (str "a[x")).goError ix).map GoError.text = some (str "index: fetch: not found: `a[[x]`") ∧
    ((MemCall.fetchString (str "a[xyz")).goError ix).map GoError.text = some (str "index: fetch: not found: `a[[x]`") := by
  decide

/-- Not so for runes that are not characters: two lookups that stop at different runes, with the same text. -/
theorem not_C95_runes : ∃ (h : List Op) (ix : Index) (q q' : List Rune) (g : GoError), Run h ix ∧ NoReload h ∧
    (MemCall.fetchRunes q).goError ix = some g ∧ (MemCall.fetchRunes q').goError ix = some g ∧
    StopsAt ix q [] 0xD800 ∧ StopsAt ix q' [] 0xFFFD := by
  refine ⟨[], Index.new, [0xD800], [0xFFFD], errorf [.wrap indexError, .lit ": fetch: not found: `", .txt [],
    .lit "[", .txt [0xEF, 0xBF, 0xBD], .lit "]`"], .nil, by simp [NoReload], by decide, by decide, ⟨⟨[], rfl⟩, .inl rfl, ?_⟩,
    ⟨⟨[], rfl⟩, .inl rfl, ?_⟩⟩
  all_goals
    intro id
    have h : ∀ q, q = [0xD800] ∨ q = [0xFFFD] → (Index.new.fetchRunes q).2.error.isSome = true := by
      rintro q (rfl | rfl) <;> decide
    intro e
    first
    | (have := h [0xD800] (.inl rfl); rw [show ([] : List Rune) ++ [0xD800] = [0xD800] from rfl] at e; rw [e] at this; cases this)
    | (have := h [0xFFFD] (.inr rfl); rw [show ([] : List Rune) ++ [0xFFFD] = [0xFFFD] from rfl] at e; rw [e] at this; cases this)

/-- Nor for lookups from an id: a missing id reads like a word. On the same index, a lookup from the id 12, which does not
exist, and one from the root, which knows "no item: 12", have the same error. -/
theorem not_C95_from : ∃ (h : List Op) (ix : Index) (g : GoError), Run h ix ∧ ix.nodesCount < 12 ∧
    (MemCall.fetchFromItem 12 [0x61]).goError ix = some g ∧
    (MemCall.fetchString (str "no item: 12a")).goError ix = some g := by
  refine ⟨[.addString (str "no item: 12")], execAll [.addString (str "no item: 12")], errorf [.wrap indexError, .lit ": fetch: not found: `",
    .txt (str "no item: 12"), .lit "[", .txt [0x61], .lit "]`"], small_runs _ (by decide), by decide, by decide, by decide⟩

/-! ## Kinds of errors -/

/-- The fixed beginnings of the texts. -/
def errorHeader : Fin 8 → Str
  | 0 => str "index: empty word"
  | 1 => str "index: add: empty runes"
  | 2 => str "index: empty runes"
  | 3 => str "index: add: no parent: "
  | 4 => str "index: no such node: "
  | 5 => str "index: fetch: not found: `"
  | 6 => str "index: add tag set: unknown tag: "
  | 7 => str "no such tagID "

theorem errorHeader_free : ∀ i j : Fin 8, errorHeader i <+: errorHeader j → i = j := by decide

theorem errorHeader_inj {i j : Fin 8} {p q : Str} (h : errorHeader i ++ p = errorHeader j ++ q) : i = j ∧ p = q := by
  have hij : i = j := by
    rcases List.prefix_or_prefix_of_prefix (⟨p, h⟩ : errorHeader i <+: errorHeader j ++ q) ⟨q, rfl⟩ with h1 | h1
    · exact errorHeader_free _ _ h1
    · exact (errorHeader_free _ _ h1).symm
  subst hij
  exact ⟨rfl, List.append_cancel_left h⟩

/-- Which beginning the text of an error has. -/
def Err.header (a : Bool) : Err → Fin 8
  | .emptyWord => 0
  | .emptyRunes => if a then 1 else 2
  | .noParent _ => 3
  | .noSuchNode _ => 4
  | .notFound _ _ => 5
  | .unknownTag _ => 6
  | _ => 7

/-- What follows it. -/
def Err.payload : Err → Str
  | .noParent id => itoa id.toNat
  | .noSuchNode id => itoa id.toNat
  | .notFound w r => w ++ (0x5b :: encodeRune r) ++ str "]`"
  | .unknownTag n => n
  | .noSuchTag id => itoa id.toNat
  | _ => []

theorem go_text {a : Bool} {e : Err} {g : GoError} (h : Err.go a e = some g) :
    g.text = errorHeader (e.header a) ++ e.payload := by
  cases e <;> cases h
  case emptyRunes => cases a <;> decide
  all_goals simp [errorf, Piece.text, indexError, str, errorHeader, Err.header, Err.payload]

/-- C95: errors of different kinds have different texts, and an error with an id or a tag name says which. Two failed
lookups with the same text: as `C95_lookup` says, and here for runes that are not characters too. -/
theorem C95_kinds (a a' : Bool) (e e' : Err) (g g' : GoError) (h : Err.go a e = some g) (h' : Err.go a' e' = some g')
    (ht : g.text = g'.text) :
    e = e' ∨ ∃ w r r', e = .notFound w r ∧ e' = .notFound w r' ∧ encodeRune r = encodeRune r' := by
  rw [go_text h, go_text h'] at ht
  obtain ⟨h1, h2⟩ := errorHeader_inj ht
  clear ht
  cases e <;> cases h <;> cases e' <;> cases h' <;>
    first
    | exact .inl rfl
    | (exfalso; cases a <;> cases a' <;> simp [Err.header] at h1; done)
    | skip
  case noParent => exact .inl (congrArg Err.noParent (UInt32.toNat_inj.1 (itoa_inj h2)))
  case noSuchNode => exact .inl (congrArg Err.noSuchNode (UInt32.toNat_inj.1 (itoa_inj h2)))
  case notFound =>
    obtain ⟨rfl, e2⟩ := bracket_inj (List.append_cancel_right h2)
    exact .inr ⟨_, _, _, rfl, rfl, e2⟩
  case unknownTag => exact .inl (congrArg Err.unknownTag h2)
  case noSuchTag => exact .inl (congrArg Err.noSuchTag (UInt8.toNat_inj.1 (itoa_inj h2)))

/-! ## Files -/

/-- C95 for saving the tags alone (`Tags()` gives a list that can be written by itself): the save fails exactly if some tag
cannot be written, the error names the first one, and `errors.Is` recognises it as `ErrMarshal` and as nothing else. -/
theorem C95_save_tags (tags : List Tag) (g : GoError) (h : writeTagsError 0 tags = some g) :
    (∃ k t, tags[k]? = some t ∧
      (¬ (t.parent = [] ∨ t.parent.length = 4) ∨ ¬ (t.name = [] ∨ t.name.length = 4)) ∧
      (∀ j t', j < k → tags[j]? = some t' →
        (t'.parent = [] ∨ t'.parent.length = 4) ∧ (t'.name = [] ∨ t'.name.length = 4)) ∧
      g.text = str "marshal: cant write indexed " ++ itoa k) ∧
    ∀ s, g.Is s ↔ s = .marshal := by
  rcases writeTagsError_spec tags 0 with ⟨h1, -⟩ | ⟨k, t, h1, h2, h3, h4⟩
  · rw [h1] at h; cases h
  · rw [h4, Nat.zero_add] at h
    have hg : g = ⟨str "marshal: cant write indexed " ++ itoa k, [.marshal]⟩ := by
      rw [← Option.some.inj h]
      simp [errorf, Piece.text, Piece.chain, marshalError, str]
    subst hg
    refine ⟨⟨k, t, h1, Classical.not_and_iff_not_or_not.1 h2, h3, rfl⟩, fun s => ?_⟩
    simp [GoError.Is]

/-- Two tags, the second with a name of five bytes. -/
example : ∃ g, writeTagsError 0 [newTag [] (str "NOUN"), newTag [] (str "NOUNS")] = some g ∧
    g.text = str "marshal: cant write indexed 1" := ⟨_, rfl, by decide⟩

/-- C95 for saving, exactly: the save fails with the error of position `k` if and only if the tag at position `k` is the
first one whose name, or whose parent's name, is neither empty nor four bytes long. It is an error of the index. -/
theorem C95_save (ix : Index) (g : GoError) :
    ix.saveError = some g ↔ ∃ k t, ix.tags[k]? = some t ∧
      (¬ (t.parent = [] ∨ t.parent.length = 4) ∨ ¬ (t.name = [] ∨ t.name.length = 4)) ∧
      (∀ j t', j < k → ix.tags[j]? = some t' →
        (t'.parent = [] ∨ t'.parent.length = 4) ∧ (t'.name = [] ∨ t'.name.length = 4)) ∧
      g.text = str "index: write: tags index: marshal: cant write indexed " ++ itoa k ∧ g.chain = [.index] := by
  have hx : ∀ k, (errorf [.wrap indexError, .lit ": write: tags index: ",
      .val (errorf [.wrap marshalError, .lit ": cant write indexed ", .num (0 + k)])]) =
      ⟨str "index: write: tags index: marshal: cant write indexed " ++ itoa k, [.index]⟩ := by
    intro k
    simp [errorf, Piece.text, Piece.chain, indexError, marshalError, str]
  unfold Index.saveError
  rcases writeTagsError_spec ix.tags 0 with ⟨h1, h2⟩ | ⟨k, t, h1, h2, h3, h4⟩
  · rw [h1]
    refine ⟨fun h => (by cases h), ?_⟩
    rintro ⟨k, t, ht, hb, -⟩
    have := h2 t (List.mem_of_getElem? ht)
    unfold NameOK at this
    rcases hb with hb | hb
    · exact absurd this.1 hb
    · exact absurd this.2 hb
  · rw [h4]
    simp only [Option.map_some, Option.some.injEq, hx]
    constructor
    · rintro rfl
      exact ⟨k, t, h1, Classical.not_and_iff_not_or_not.1 h2, h3, rfl, rfl⟩
    · rintro ⟨k', t', a1, a2, a3, a4, a5⟩
      have hk : k = k' := by
        rcases Nat.lt_trichotomy k k' with hl | hl | hl
        · exact absurd (a3 k t hl h1) h2
        · exact hl
        · exact absurd (h3 k' t' hl a1) (Classical.not_and_iff_not_or_not.2 a2)
      subst hk
      cases g
      simp only at a4 a5
      rw [a4, a5]

/-- The save has an error value exactly when it fails. -/
theorem C95_save_fails (ix : Index) : ix.saveError = none ↔ ix.save.err = none := by
  have h := save_err ix
  unfold Index.saveError
  rw [h, Option.map_eq_none_iff]
  rcases writeTagsError_spec ix.tags 0 with ⟨h1, h2⟩ | ⟨k, t, h1, h2, h3, h4⟩
  · exact ⟨fun _ => h2, fun _ => h1⟩
  · rw [h4]
    refine ⟨fun h => (by cases h), fun h => absurd (h t (List.mem_of_getElem? h1)) h2⟩

/-- The third tag is the first with a name that cannot be written. -/
example : (execAll [.tagID (str "NOUN") [], .tagID (str "VERB") [], .tagID (str "Adjective") []]).saveError.map
    GoError.text = some (str "index: write: tags index: marshal: cant write indexed 2") := by decide

/-- C95 for loading: whatever the bytes and whatever the errors of the reader, a load that fails returns an error that is
recognised as an error of the index, and as nothing else: not as the end of the file either. -/
theorem C95_load (into : Index) (cause : Err → GoError) (s : Str) :
    ((∃ e, into.load s = .err e) ↔ (loadError cause s).isSome) ∧
    ∀ g, loadError cause s = some g → ∀ x, g.Is x ↔ x = .index := by
  constructor
  · unfold Index.load loadError Rd.bind
    cases h1 : readSection prefixTD readTags s with
    | ok x1 =>
      cases h2 : readSection prefixTI readTagSetIndex x1.2 with
      | ok x2 =>
        cases h3 : readSection prefixCD readVariantsIndex x2.2 with
        | ok x3 =>
          have := sectionError_isSome cause 3 prefixID readItems x3.2
          cases h4 : readSection prefixID readItems x3.2 <;>
            simp [Out.bind, h2, h3, h4, Rd.pure, this]
        | _ => simp [Out.bind, h2, h3, sectionError_isSome]
      | _ => simp [Out.bind, h2, sectionError_isSome]
    | _ => simp [Out.bind, h1, sectionError_isSome]
  · intro g hg x
    have : g.chain = [.index] := by
      unfold loadError at hg
      split at hg
      · split at hg
        · split at hg
          · obtain ⟨e, he, rfl⟩ := Option.map_eq_some_iff.1 hg
            exact outerError_chain _ (sectionError_chain _ _ _ _ _ he)
          · obtain ⟨e, he, rfl⟩ := Option.map_eq_some_iff.1 hg
            exact outerError_chain _ (sectionError_chain _ _ _ _ _ he)
        · obtain ⟨e, he, rfl⟩ := Option.map_eq_some_iff.1 hg
          exact outerError_chain _ (sectionError_chain _ _ _ _ _ he)
      · obtain ⟨e, he, rfl⟩ := Option.map_eq_some_iff.1 hg
        exact outerError_chain _ (sectionError_chain _ _ _ _ _ he)
    unfold GoError.Is
    rw [this]
    simp

/-- C95: a file that begins with something else than an index file does is told so. -/
theorem C95_foreign (cause : Err → GoError) (t rest : Str) (h0 : (0 : UInt8) ∉ t) (ht : t ≠ str "TD") :
    ∃ g, loadError cause (t ++ 0 :: rest) = some g ∧
      g.text = str "index: read: tags: index: read: expected section TD " := by
  have hr : ∀ t : Str, (0 : UInt8) ∉ t → readStringZ (t ++ 0 :: rest) = .ok (t, rest) := by
    intro t h0
    induction t with
    | nil => rfl
    | cons a t ih =>
      have ha : a ≠ 0 := fun e => h0 (by rw [e]; simp)
      have := ih (fun h => h0 (List.mem_cons_of_mem _ h))
      simp [readStringZ, ha, this, Out.bind]
  have hp : t ≠ prefixTD := ht
  have h1 : readSection prefixTD readTags (t ++ 0 :: rest) = .err .section := by
    unfold readSection Rd.bind
    rw [hr t h0]
    simp [Out.bind, hp]
  have h2 : sectionError cause 0 prefixTD readTags (t ++ 0 :: rest) =
      some (errorf [.wrap indexError, .lit ": read: expected section ", .txt prefixTD, .lit " "]) := by
    unfold sectionError
    rw [hr t h0]
    simp [hp]
  refine ⟨_, by unfold loadError; rw [h1]; simp only [h2]; rfl, ?_⟩
  decide

/-- The load stops inside the contents of section `n`, for the reason `e`: the sections before are read, the heading of
section `n` is there, and what follows cannot be read as its contents. -/
def FailsInside (s : Str) (e : Err) : Fin 4 → Prop
  | 0 => ∃ t, s = str "TD" ++ 0 :: t ∧ readTags t = .err e
  | 1 => ∃ t a, readSection (str "TD") readTags s = .ok (a, str "TI" ++ 0 :: t) ∧ readTagSetIndex t = .err e
  | 2 => ∃ t a b s1, readSection (str "TD") readTags s = .ok (a, s1) ∧
      readSection (str "TI") readTagSetIndex s1 = .ok (b, str "CD" ++ 0 :: t) ∧ readVariantsIndex t = .err e
  | 3 => ∃ t a b c s1 s2, readSection (str "TD") readTags s = .ok (a, s1) ∧
      readSection (str "TI") readTagSetIndex s1 = .ok (b, s2) ∧
      readSection (str "CD") readVariantsIndex s2 = .ok (c, str "ID" ++ 0 :: t) ∧ readItems t = .err e

/-- How the texts of such errors begin. -/
def bodyHeader : Fin 4 → Str
  | 0 => str "index: read: tags: index: read: tags index: "
  | 1 => str "index: read: tags: index: write: tags sets index: "
  | 2 => str "index: read: collections index: index: write: tags set collections index: "
  | 3 => str "index: read: node index: "

theorem readSection_body {α : Type} (a b : UInt8) (ha : a ≠ 0) (hb : b ≠ 0) (r : Rd α) (t : Str) :
    readSection [a, b] r ([a, b] ++ 0 :: t) = r t := by
  simp [readSection, Rd.bind, readStringZ, ha, hb, Out.bind]

theorem sectionError_body {α : Type} (cause : Err → GoError) (n : Fin 4) (a b : UInt8) (ha : a ≠ 0) (hb : b ≠ 0)
    (r : Rd α) (t : Str) (e : Err) (h : r t = .err e) : sectionError cause n [a, b] r ([a, b] ++ 0 :: t) =
      some (errorf [.wrap indexError, .lit (bodyLabel n), .val (cause e)]) := by
  simp [sectionError, readStringZ, ha, hb, Out.bind, h, Out.error]

/-- C95 for loading: a load that stops inside the contents of a section says which section it is, followed by the reason
the reader gave. -/
theorem C95_inside (cause : Err → GoError) (s : Str) (e : Err) (n : Fin 4) (h : FailsInside s e n) :
    ∃ g, loadError cause s = some g ∧ g.text = bodyHeader n ++ (cause e).text := by
  match n, h with
  | 0, ⟨t, hs, ht⟩ =>
    subst hs
    have h1 : readSection prefixTD readTags (str "TD" ++ 0 :: t) = .err e :=
      (readSection_body 84 68 (by decide) (by decide) readTags t).trans ht
    have h2 := sectionError_body cause 0 84 68 (by decide) (by decide) readTags t e ht
    refine ⟨_, by unfold loadError; rw [h1]; exact congrArg (Option.map (outerError 0)) h2, ?_⟩
    simp [outerError, errorf, Piece.text, indexError, bodyLabel, bodyHeader, str]
  | 1, ⟨t, a, h0, ht⟩ =>
    have h0 : readSection prefixTD readTags s = .ok (a, str "TI" ++ 0 :: t) := h0
    have h1 : readSection prefixTI readTagSetIndex (str "TI" ++ 0 :: t) = .err e :=
      (readSection_body 84 73 (by decide) (by decide) readTagSetIndex t).trans ht
    have h2 := sectionError_body cause 1 84 73 (by decide) (by decide) readTagSetIndex t e ht
    refine ⟨_, by unfold loadError; simp only [h0]; rw [h1]; exact congrArg (Option.map (outerError 1)) h2, ?_⟩
    simp [outerError, errorf, Piece.text, indexError, bodyLabel, bodyHeader, str]
  | 2, ⟨t, a, b, s1, h0, h0', ht⟩ =>
    have h0 : readSection prefixTD readTags s = .ok (a, s1) := h0
    have h0' : readSection prefixTI readTagSetIndex s1 = .ok (b, str "CD" ++ 0 :: t) := h0'
    have h1 : readSection prefixCD readVariantsIndex (str "CD" ++ 0 :: t) = .err e :=
      (readSection_body 67 68 (by decide) (by decide) readVariantsIndex t).trans ht
    have h2 := sectionError_body cause 2 67 68 (by decide) (by decide) readVariantsIndex t e ht
    refine ⟨_, by unfold loadError; simp only [h0, h0']; rw [h1]; exact congrArg (Option.map (outerError 2)) h2, ?_⟩
    simp [outerError, errorf, Piece.text, indexError, bodyLabel, bodyHeader, str]
  | 3, ⟨t, a, b, c, s1, s2, h0, h0', h0'', ht⟩ =>
    have h0 : readSection prefixTD readTags s = .ok (a, s1) := h0
    have h0' : readSection prefixTI readTagSetIndex s1 = .ok (b, s2) := h0'
    have h0'' : readSection prefixCD readVariantsIndex s2 = .ok (c, str "ID" ++ 0 :: t) := h0''
    have h2 := sectionError_body cause 3 73 68 (by decide) (by decide) readItems t e ht
    refine ⟨_, by unfold loadError; simp only [h0, h0', h0'']; exact congrArg (Option.map (outerError 3)) h2, ?_⟩
    simp [outerError, errorf, Piece.text, indexError, bodyLabel, bodyHeader, str]

/-- So two such loads with the same text stopped in the same section, for reasons with the same text. -/
theorem C95_section (cause : Err → GoError) (s s' : Str) (e e' : Err) (n n' : Fin 4) (h : FailsInside s e n)
    (h' : FailsInside s' e' n') (g g' : GoError) (hg : loadError cause s = some g) (hg' : loadError cause s' = some g')
    (ht : g.text = g'.text) : n = n' ∧ (cause e).text = (cause e').text := by
  obtain ⟨_, a, a'⟩ := C95_inside cause s e n h
  obtain ⟨_, b, b'⟩ := C95_inside cause s' e' n' h'
  obtain rfl := Option.some.inj (a.symm.trans hg)
  obtain rfl := Option.some.inj (b.symm.trans hg')
  rw [a', b'] at ht
  have free : ∀ i j : Fin 4, bodyHeader i <+: bodyHeader j → i = j := by decide
  have hij : n = n' := by
    rcases List.prefix_or_prefix_of_prefix (⟨_, ht⟩ : bodyHeader n <+: bodyHeader n' ++ (cause e').text) ⟨_, rfl⟩ with
      h1 | h1
    · exact free _ _ h1
    · exact (free _ _ h1).symm
  subst hij
  exact ⟨rfl, List.append_cancel_left ht⟩

/-- A file that ends where the nodes begin, and one that ends after the number of tables of tag sets. -/
example : (∃ e, FailsInside ([0x54, 0x44, 0, 0] ++ [0x54, 0x49, 0] ++ [0, 0, 0, 0] ++ [0x43, 0x44, 0, 0] ++ [0x49, 0x44, 0]) e 3) ∧
    ∃ e, FailsInside ([0x54, 0x44, 0, 0] ++ [0x54, 0x49, 0] ++ [1, 0, 0, 0]) e 1 :=
  ⟨⟨_, _, _, _, _, _, _, rfl, rfl, rfl, rfl⟩, ⟨_, _, _, rfl, rfl⟩⟩

/-- C95: what the calls say of an empty word or of no runes. Additions below a node and of runes say that they are
additions, lookups do not; `AddString` calls it an empty word. -/
theorem C95_empty (ix : Index) (id : ID) :
    ((MemCall.addString []).goError ix).map GoError.text = some (str "index: empty word") ∧
    ((MemCall.addRunes []).goError ix).map GoError.text = some (str "index: add: empty runes") ∧
    ((MemCall.addToNode id []).goError ix).map GoError.text = some (str "index: add: empty runes") ∧
    ((MemCall.fetchRunes []).goError ix).map GoError.text = some (str "index: empty runes") ∧
    ((MemCall.fetchString []).goError ix).map GoError.text = some (str "index: empty runes") ∧
    ((MemCall.fetchFromItem id []).goError ix).map GoError.text = some (str "index: empty runes") ∧
    ((MemCall.fetchItemFromParent id []).goError ix).map GoError.text = some (str "index: empty runes") := by
  refine ⟨rfl, rfl, rfl, rfl, rfl, rfl, rfl⟩

/-- Not so for a file that is cut off: cut off at its very beginning and after its first section, it gives the same
error. -/
theorem not_C95_cut (cause : Err → GoError) : ∃ g, loadError cause [] = some g ∧
    loadError cause (str "TD" ++ [0, 0]) = some g := ⟨_, rfl, rfl⟩

/-- Nor can a caller of `LoadIndex` recognise with `errors.Is` that there is no index file yet: the error for a file that
cannot be opened and the one for a file that cannot be read are recognised as the same, whatever the reasons. -/
theorem not_C95_missing (e e' : GoError) (s : Sentinel) :
    ((openIndexError e).Is s ↔ s = .opencorpora) ∧ ((openIndexError e).Is s ↔ (readIndexError e').Is s) := by
  constructor
  · unfold GoError.Is openIndexError errorf
    simp [Piece.chain, opencorporaError]
  · unfold GoError.Is openIndexError readIndexError errorf
    simp [Piece.chain]

end Verif
