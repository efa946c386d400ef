import Verif.Lemmas.ParserStream
import Verif.Lemmas.Readings

/-! # What the entries of a document do to the index -/

namespace Verif

open PState

theorem execEntries_append (a b : List Entry) (ix : Index) :
    execEntries ix (a ++ b) =
      if (execEntries ix a).2 = none then execEntries (execEntries ix a).1 b else execEntries ix a := by
  induction a generalizing ix with
  | nil => rfl
  | cons e a ih =>
    rw [List.cons_append, execEntries, execEntries]
    cases e.exec ix with
    | mk ix' o => cases o with
      | none => exact ih ix'
      | some e => rfl

theorem addFormsSpec_append (a b : List (Str × List Str)) (ix : Index) :
    addFormsSpec ix (a ++ b) =
      if (addFormsSpec ix a).2 = none then addFormsSpec (addFormsSpec ix a).1 b else addFormsSpec ix a := by
  induction a generalizing ix with
  | nil => rfl
  | cons e a ih =>
    obtain ⟨w, tags⟩ := e
    rw [List.cons_append, addFormsSpec, addFormsSpec]
    cases ix.addString w with
    | mk ix' o => cases o with
      | ok id =>
        simp only
        cases ix'.addTagSet id tags with
        | mk ix'' o => cases o with
          | ok u => exact ih ix''
          | err e => rfl
          | panic => rfl
          | diverge => rfl
      | err e => rfl
      | panic => rfl
      | diverge => rfl

/-- A prefix that fails decides the outcome. -/
theorem execEntries_fail {a : List Entry} {ix : Index} (b : List Entry) (h : (execEntries ix a).2 ≠ none) :
    execEntries ix (a ++ b) = execEntries ix a := by
  rw [execEntries_append, if_neg h]

theorem addFormsSpec_fail {a : List (Str × List Str)} {ix : Index} (b : List (Str × List Str))
    (h : (addFormsSpec ix a).2 ≠ none) : addFormsSpec ix (a ++ b) = addFormsSpec ix a := by
  rw [addFormsSpec_append, if_neg h]

theorem addFormsSpec_ne_stop (fs : List (Str × List Str)) (ix : Index) :
    (addFormsSpec ix fs).2 ≠ some .controlledStop := by
  induction fs generalizing ix with
  | nil => simp [addFormsSpec]
  | cons e a ih =>
    obtain ⟨w, tags⟩ := e
    rw [addFormsSpec]
    cases ix.addString w with
    | mk ix' o => cases o with
      | ok id =>
        simp only
        cases ix'.addTagSet id tags with
        | mk ix'' o => cases o with
          | ok u => exact ih ix''
          | err e => simp
          | panic => simp
          | diverge => simp
      | err e => simp
      | panic => simp
      | diverge => simp

theorem execEntries_ne_stop (es : List Entry) (ix : Index) : (execEntries ix es).2 ≠ some .controlledStop := by
  induction es generalizing ix with
  | nil => simp [execEntries]
  | cons e es ih =>
    rw [execEntries]
    cases e with
    | grammeme n p => exact ih _
    | lem fs =>
      have := addFormsSpec_ne_stop fs ix
      rw [Entry.exec]
      cases h : addFormsSpec ix fs with
      | mk ix' o => cases o with
        | none => exact ih _
        | some e => rw [h] at this; exact this

/-! ### Registered tags -/

theorem addLoop_tags (rs : List Rune) (o : ID) (ix : Index) (p : ID) : (ix.addLoop o p rs).1.tags = ix.tags := by
  have hg : ∀ (ix : Index) (p : ID), (ix.getChildrenIDMap p).1.tags = ix.tags := by
    intro ix p
    rfl
  have hs : ∀ (ix : Index) (p : ID) (r : Rune) ix' c, ix.addStep p r = some (ix', c) → ix'.tags = ix.tags := by
    intro ix p r ix' c e
    unfold Index.addStep at e
    simp only at e
    split at e
    · cases e; exact hg ix p
    · split at e
      · cases e
      · cases e; exact hg ix p
  induction rs generalizing ix p with
  | nil => rfl
  | cons r rest ih =>
    unfold Index.addLoop
    split
    · rfl
    · split
      · exact hg ix p
      · rename_i ix' next e
        have := hs _ _ _ _ _ e
        split
        · exact this
        · rw [ih, this]

theorem addString_tags (ix : Index) (w : Str) : (ix.addString w).1.tags = ix.tags := by
  unfold Index.addString
  split
  · rfl
  · exact addLoop_tags _ _ _ _

theorem addTagSet_tags (ix : Index) (id : ID) (names : List Str) : (ix.addTagSet id names).1.tags = ix.tags := by
  unfold Index.addTagSet
  split
  · rfl
  · split
    · rfl
    · split <;> rfl

theorem addFormsSpec_tags (fs : List (Str × List Str)) (ix : Index) : (addFormsSpec ix fs).1.tags = ix.tags := by
  induction fs generalizing ix with
  | nil => rfl
  | cons e a ih =>
    obtain ⟨w, tags⟩ := e
    rw [addFormsSpec]
    have h1 := addString_tags ix w
    cases hs : ix.addString w with
    | mk ix' o =>
      rw [hs] at h1
      cases o with
      | ok id =>
        simp only
        have h2 := addTagSet_tags ix' id tags
        cases ht : ix'.addTagSet id tags with
        | mk ix'' o =>
          rw [ht] at h2
          cases o with
          | ok u => exact (ih ix'').trans (h2.trans h1)
          | err e => exact h2.trans h1
          | panic => exact h2.trans h1
          | diverge => exact h2.trans h1
      | err e => exact h1
      | panic => exact h1
      | diverge => exact h1

/-- Only declared grammemes are registered. -/
theorem execEntries_names (es : List Entry) (ix : Index) :
    ∀ t ∈ (execEntries ix es).1.tags, t ∈ ix.tags ∨ ∃ p, Entry.grammeme t.name p ∈ es := by
  induction es generalizing ix with
  | nil => exact fun t ht => .inl ht
  | cons e es ih =>
    intro t ht
    rw [execEntries] at ht
    cases e with
    | grammeme n p =>
      rcases ih _ t ht with h | ⟨q, hq⟩
      · unfold Index.tagID tagsIndex at h
        simp only at h
        cases hf : tagsFind ix.tags n with
        | some i => rw [hf] at h; exact .inl h
        | none =>
          rw [hf] at h
          rcases List.mem_append.1 h with h | h
          · exact .inl h
          · rw [List.mem_singleton] at h
            subst h
            exact .inr ⟨p, List.mem_cons_self ..⟩
      · exact .inr ⟨q, List.mem_cons_of_mem _ hq⟩
    | lem fs =>
      rw [Entry.exec] at ht
      have htg := addFormsSpec_tags fs ix
      cases h : addFormsSpec ix fs with
      | mk ix' o =>
        rw [h] at ht htg
        cases o with
        | none =>
          rcases ih _ t ht with h | ⟨q, hq⟩
          · left; rw [← htg]; exact h
          · exact .inr ⟨q, List.mem_cons_of_mem _ hq⟩
        | some e => left; rw [← htg]; exact ht

/-- A form without spelling, or with a tag that is not registered, fails. -/
theorem bad_form (ix : Index) (w : Str) (tags : List Str)
    (hb : w = [] ∨ ∃ x ∈ tags, ∀ t ∈ ix.tags, t.name ≠ x) : (addFormsSpec ix [(w, tags)]).2 ≠ none := by
  rw [addFormsSpec]
  rcases hb with rfl | ⟨x, hx, hn⟩
  · simp [Index.addString]
  · have h1 := addString_tags ix w
    cases hs : ix.addString w with
    | mk ix' o =>
      rw [hs] at h1
      cases o with
      | ok id =>
        simp only
        cases hf : Index.findAll ix'.tags tags with
        | error y =>
          have : ix'.addTagSet id tags = (ix', .err (.unknownTag y)) := by
            unfold Index.addTagSet; rw [hf]
          rw [this]
          simp
        | ok ids =>
          exfalso
          have := (all_hasTag_iff (d := { Dict.empty with tags := ix'.tags })).2 ⟨ids, hf⟩
          have := List.all_eq_true.1 this x hx
          unfold Dict.hasTag at this
          rw [List.any_eq_true] at this
          obtain ⟨t, ht, he⟩ := this
          rw [h1] at ht
          exact hn t ht (by simpa using he)
      | err e => simp
      | panic => simp
      | diverge => simp

theorem bad_entry (es1 : List Entry) (fs1 : List (Str × List Str)) (w : Str) (tags : List Str)
    (hb : w = [] ∨ ∃ x ∈ tags, ∀ p, Entry.grammeme x p ∉ es1) :
    (execEntries Index.new (es1 ++ [.lem (fs1 ++ [(w, tags)])])).2 ≠ none := by
  rw [execEntries_append]
  split
  · rw [execEntries, Entry.exec]
    have : (addFormsSpec (execEntries Index.new es1).1 (fs1 ++ [(w, tags)])).2 ≠ none := by
      rw [addFormsSpec_append]
      split
      · refine bad_form _ _ _ (hb.imp (fun h => h) ?_)
        rintro ⟨x, hx, hn⟩
        refine ⟨x, hx, fun t ht he => ?_⟩
        rw [addFormsSpec_tags] at ht
        rcases execEntries_names es1 Index.new t ht with h | ⟨p, h⟩
        · cases h
        · rw [he] at h; exact hn p h
      · assumption
    cases h : addFormsSpec (execEntries Index.new es1).1 (fs1 ++ [(w, tags)]) with
    | mk ix' o => cases o with
      | none => rw [h] at this; exact absurd rfl this
      | some e => simp
  · assumption

end Verif
