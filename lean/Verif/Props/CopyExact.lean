import Verif.Props.Copy
import Verif.Lemmas.Utf8

/-! # C99, exactly: which dictionaries can be copied through their interface -/

namespace Verif

/-- Every letter of every edge is a Unicode character. -/
def TextEdges (ix : Index) : Prop := ∀ p l c, ix.getChildrenMap p l = some c → IsScalar l

theorem TextEdges.addLoop {rs : List Rune} (hrs : ∀ c ∈ rs, IsScalar c) (o : ID) {ix : Index} (h : TextEdges ix) (p : ID) :
    TextEdges (ix.addLoop o p rs).1 := by
  induction rs generalizing ix p with
  | nil => exact h
  | cons r rest ih =>
    have ho : TextEdges (ix.getChildrenIDMap p).1 := by
      intro q l c hc
      rw [(getChildrenIDMap_obs ix p).children] at hc
      exact h q l c hc
    have hstep : ∀ jx n, ix.addStep p r = some (jx, n) → TextEdges jx := by
      intro jx n hs
      unfold Index.addStep at hs
      simp only [getChildrenIDMap_snd] at hs
      cases hc : ix.getChildrenMap p r with
      | some x =>
        rw [hc] at hs
        obtain ⟨rfl, _⟩ := Prod.mk.inj (Option.some.inj hs)
        exact ho
      | none =>
        rw [hc] at hs
        simp only at hs
        split at hs
        · cases hs
        · rename_i its it hn
          obtain ⟨rfl, _⟩ := Prod.mk.inj (Option.some.inj hs)
          intro q l c hq
          obtain ⟨im, him⟩ := ensureChildren_isSome ix.childrenMap p
          have hq' := setChild_get (ix.getChildrenIDMap p).1 im p r it.id q l him
          have hq : (Index.setChild (ix.getChildrenIDMap p).1.childrenMap p r it.id q).getD (fun _ => none) l = some c := hq
          rw [hq'] at hq
          split at hq
          · rename_i e
            rw [e.2]; exact hrs r List.mem_cons_self
          · exact ho q l c hq
    unfold Index.addLoop
    split
    · exact h
    · cases hs : ix.addStep p r with
      | none => exact ho
      | some x =>
        obtain ⟨jx, n⟩ := x
        simp only
        split
        · exact hstep jx n hs
        · exact ih (fun c hc => hrs c (List.mem_cons_of_mem _ hc)) (hstep jx n hs) n

theorem TextEdges.addString {ix : Index} (h : TextEdges ix) (w : Str) : TextEdges (ix.addString w).1 := by
  unfold Index.addString
  split
  · exact h
  · exact h.addLoop (decodeAux_sanitized w.length w (Nat.le_refl _)).1 0 0

theorem TextEdges.tagID {ix : Index} (h : TextEdges ix) (name parent : Str) : TextEdges (ix.tagID name parent).1 := h

theorem TextEdges.addTagSet {ix : Index} (h : TextEdges ix) (id : ID) (names : List Str) : TextEdges (ix.addTagSet id names).1 := by
  unfold Index.addTagSet
  split
  · exact h
  · split
    · exact h
    · split
      · exact h
      · exact h

theorem textEdges_attachAll {n : ID} (sets : List (List Tag)) {dst out : Index} (h : TextEdges dst)
    (ho : attachAll dst n sets = some out) : TextEdges out := by
  induction sets generalizing dst with
  | nil => exact Option.some.inj ho ▸ h
  | cons s rest ih =>
    unfold attachAll at ho
    have := h.addTagSet n (tagNames s)
    split at ho
    · rename_i d e
      rw [e] at this
      exact ih this ho
    · cases ho

theorem textEdges_copyTags (ts : List Tag) {dst : Index} (h : TextEdges dst) : TextEdges (copyTags dst ts) := by
  induction ts generalizing dst with
  | nil => exact h
  | cons t rest ih => exact ih (h.tagID t.name t.parent)

/-- The copy has words of Unicode characters, whatever is copied. -/
theorem textEdges_copyNodes (src : Index) (n : Nat) {out : Index} (ho : copyNodes src n = some out) : TextEdges out := by
  induction n generalizing out with
  | zero =>
    obtain rfl := Option.some.inj ho
    exact textEdges_copyTags _ fun p l c hc => by cases hc
  | succ n ih =>
    unfold copyNodes at ho
    cases hd : copyNodes src n with
    | none => rw [hd] at ho; cases ho
    | some dst =>
      rw [hd] at ho
      have h := ih hd
      have ho : copyNode src dst (UInt32.ofNat (n + 1)) = some out := ho
      unfold copyNode at ho
      split at ho
      · rename_i w sets _ _
        have h2 := h.addString w
        split at ho
        · rename_i d m e
          rw [e] at h2
          exact textEdges_attachAll sets h2 ho
        · cases ho
      · cases ho

/-- A lookup that succeeds goes along edges. -/
theorem fetch_text {ix : Index} (h : TextEdges ix) {rs : List Rune} {p i : ID} (hf : (ix.fetchFromItem p rs).2 = .ok i) :
    ∀ c ∈ rs, IsScalar c := by
  induction rs generalizing ix p with
  | nil => exact fun c hc => by cases hc
  | cons r rest ih =>
    unfold Index.fetchFromItem at hf
    simp only [getChildrenIDMap_snd] at hf
    cases hc : ix.getChildrenMap p r with
    | none =>
      rw [hc] at hf
      simp only at hf
      cases hw : (ix.getChildrenIDMap p).1.word p <;> rw [hw] at hf <;> cases hf
    | some n =>
      rw [hc] at hf
      simp only at hf
      intro c hm
      rcases List.mem_cons.1 hm with rfl | hm
      · exact h p _ n hc
      · split at hf
        · rename_i hr
          rw [hr] at hm
          cases hm
        · rw [fetchFromItem_congr (getChildrenIDMap_obs ix p)] at hf
          exact ih h hf c hm

theorem textWords_of_same {ix cp : Index} (hs : SameDictionary ix cp) (h : TextEdges cp) : TextWords ix := by
  have key : ∀ (rs : List Rune) (p i : ID), (ix.fetchFromItem p rs).2 = .ok i → ∀ c ∈ rs, IsScalar c := by
    intro rs
    induction rs with
    | nil => exact fun p i _ c hc => by cases hc
    | cons r rest ih =>
      intro p i hf
      by_cases h0 : p ≠ 0 ∨ (r :: rest).head? ≠ some 0
      · rw [← hs.fetch p (r :: rest) h0] at hf
        exact fetch_text h hf
      · have hp : p = 0 := by by_contra e; exact h0 (.inl e)
        have hr : r = 0 := by
          by_contra e
          exact h0 (.inr (by simpa using e))
        subst hp hr
        unfold Index.fetchFromItem at hf
        simp only [getChildrenIDMap_snd] at hf
        intro c hm
        rcases List.mem_cons.1 hm with rfl | hm
        · decide
        · cases hc : ix.getChildrenMap 0 0 with
          | none =>
            rw [hc] at hf
            simp only at hf
            cases hw : (ix.getChildrenIDMap 0).1.word 0 <;> rw [hw] at hf <;> cases hf
          | some n =>
            rw [hc] at hf
            simp only at hf
            split at hf
            · rename_i hr
              rw [hr] at hm
              cases hm
            · rw [fetchFromItem_congr (getChildrenIDMap_obs ix 0)] at hf
              exact ih n i hf c hm
  exact fun rs id hf => key rs 0 id hf

/-- C99, exactly: a dictionary can be copied through its interface if and only if its words are text. -/
theorem C99_exact {h : List Op} {ix : Index} (m : Room h) (r : Run h ix) (cr : CopyRoom ix) :
    (∃ cp, copyOf ix = some cp ∧ SameDictionary ix cp) ↔ TextWords ix :=
  ⟨fun ⟨_, hc, hs⟩ => textWords_of_same hs (textEdges_copyNodes _ _ hc), fun ht => C99_partial m r ht cr⟩

/-- Both sides occur: `copySample` can be copied, `copyRunes` cannot. -/
example : (∃ ix, Room copySample ∧ Run copySample ix ∧ CopyRoom ix ∧ TextWords ix) ∧
    ∃ ix, Room copyRunes ∧ Run copyRunes ix ∧ CopyRoom ix ∧ ¬ TextWords ix := by
  have r := small_runs copySample (by decide)
  have r' := small_runs copyRunes (by decide)
  have m' := (by decide : Small copyRunes).toRoom
  have c' := copyRoom_of r' (by decide)
  refine ⟨⟨_, (by decide : Small copySample).toRoom, r, copyRoom_of r (by decide), textWords_of r (by decide)⟩, _, m', r', c', ?_⟩
  intro ht
  obtain ⟨cp, h1, h2⟩ := (C99_exact m' r' c').2 ht
  have h3 := h2.nodesCount
  have h4 : (copyOf (execAll copyRunes)).map Index.nodesCount = some 1 := by decide
  rw [h1, Option.map_some, h3] at h4
  exact absurd h4 (by decide)

end Verif
