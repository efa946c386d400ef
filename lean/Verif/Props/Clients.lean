import Verif.Props.Reference
import Verif.Props.Merge
import Verif.Spec.Clients

/-!
# C115: programs that use several dictionaries and decide by the answers
-/

namespace Verif

open Client

variable {α β : Type}

theorem place_same {γ : Type} (s : Nat → γ) (j : Nat) (x : γ) : place s j x j = x := if_pos rfl

theorem place_other {γ : Type} (s : Nat → γ) {j k : Nat} (x : γ) (h : k ≠ j) : place s j x k = s k := if_neg h

theorem place_self {γ : Type} (s : Nat → γ) (j : Nat) : place s j (s j) = s := by
  funext k
  unfold place
  split
  · rename_i h; rw [h]
  · rfl

theorem place_comp {γ δ : Type} (f : γ → δ) (s : Nat → γ) (j : Nat) (x : γ) :
    (fun k => f (place s j x k)) = place (fun k => f (s k)) j (f x) := by
  funext k
  unfold place
  split <;> rfl

theorem after_history {h : List Op} (q : Ask) : (dictOf h).after q = dictOf (q.history h) := by
  cases q with
  | call op => exact (dictOf_append h op).symm
  | _ => rfl

theorem execAll_history {h : List Op} (q : Ask) : (execAll h).after q = execAll (q.history h) := by
  cases q with
  | call op => simp only [Ask.history, execAll, List.foldl_append, List.foldl_cons, List.foldl_nil]; rfl
  | _ => rfl

theorem answer_within {h : List Op} (q : Ask) (m : Room (q.history h)) : (execAll h).answer q = (dictOf h).answer q := by
  have r := (run_of_room _ m).1
  cases q with
  | call op =>
    obtain ⟨ix, r0, _, _, _⟩ := r.snoc_inv
    cases r0.eq
    refine C113_one r0 _ ?_
    rintro _ ⟨⟩
    have := execAll_history (h := h) (.call op)
    simp only [Index.after] at this
    rw [this]
    exact r
  | _ => exact C113_one r _ (by rintro _ ⟨⟩)

theorem transferred_within {h : List Op} (m : Room (h ++ [.reload])) :
    (execAll h).transferred = some (execAll (h ++ [.reload])) := by
  have r := (run_of_room _ m).1
  obtain ⟨ix, r0, ha, _, e⟩ := r.snoc_inv
  cases r0.eq
  obtain ⟨h1, h2, h3⟩ := reload_eq r0.tag ha
  have h4 := h2 []
  rw [List.append_nil] at h4
  unfold Index.transferred
  rw [h1]
  simp only
  rw [h4]
  simp only
  rw [e, h3]

/-- C115: a program that stays within the capacity gets the result it would get with the reference implementation, and leaves
every dictionary in the state its history leads to. -/
theorem C115 (c : Client α) (h : Nat → List Op) (w : c.Within h) :
    c.onIndexes (fun i => execAll (h i)) =
      ((c.onLists fun i => dictOf (h i)).1, fun i => execAll (c.histories h i)) ∧
    (c.onLists fun i => dictOf (h i)).2 = fun i => dictOf (c.histories h i) := by
  induction c generalizing h with
  | done a => exact ⟨rfl, rfl⟩
  | ask i q next ih =>
    obtain ⟨m, w⟩ := w
    have := ih _ _ w
    rw [place_comp execAll, place_comp dictOf, ← execAll_history, ← after_history] at this
    simp only [onIndexes, onLists, histories]
    rw [answer_within q m]
    exact this
  | create i next ih =>
    have := ih _ w
    rw [place_comp execAll, place_comp dictOf] at this
    exact this
  | transfer i j next ih =>
    obtain ⟨m, w⟩ := w
    have := ih _ _ w
    rw [place_comp execAll, place_comp dictOf, dictOf_append] at this
    simp only [onIndexes, onLists, histories]
    rw [transferred_within m]
    exact this

/-- From the beginning: all dictionaries are new. -/
theorem C115_start (c : Client α) (w : c.Within fun _ => []) :
    (c.onIndexes fun _ => Index.new).1 = (c.onLists fun _ => Dict.empty).1 := by
  have := (C115 c (fun _ => []) w).1
  exact congrArg Prod.fst this

theorem place_agree {γ : Type} {P : Nat → Prop} {s s' : Nat → γ} (hs : ∀ k, P k → s k = s' k) (j : Nat) {x y : γ}
    (hxy : x = y) : ∀ k, P k → place s j x k = place s' j y k := by
  intro k hk
  unfold place
  split
  · exact hxy
  · exact hs k hk

theorem onIndexes_agree (P : Nat → Prop) (c : Client α) (hP : ∀ k, c.Uses k → P k) (s s' : Nat → Index)
    (hs : ∀ k, P k → s k = s' k) :
    (c.onIndexes s).1 = (c.onIndexes s').1 ∧ (∀ k, P k → (c.onIndexes s).2 k = (c.onIndexes s').2 k) ∧
    ∀ k, ¬ P k → (c.onIndexes s).2 k = s k := by
  induction c generalizing s s' with
  | done a => exact ⟨rfl, hs, fun _ _ => rfl⟩
  | ask i q next ih =>
    have e := hs i (hP i (.here ..))
    have hi := hP i (.here ..)
    have := ih ((s i).answer q) (fun k hk => hP k (.ask _ _ _ _ hk)) (place s i ((s i).after q))
      (place s' i ((s' i).after q)) (place_agree hs i (by rw [e]))
    simp only [onIndexes]
    rw [← e] at this ⊢
    exact ⟨this.1, this.2.1, fun k hk => (this.2.2 k hk).trans (place_other _ _ fun h => hk (h ▸ hi))⟩
  | create i next ih =>
    have hi := hP i (.made ..)
    have := ih (fun k hk => hP k (.create _ _ hk)) (place s i Index.new) (place s' i Index.new) (place_agree hs i rfl)
    exact ⟨this.1, this.2.1, fun k hk => (this.2.2 k hk).trans (place_other _ _ fun h => hk (h ▸ hi))⟩
  | transfer i j next ih =>
    have e := hs i (hP i (.saved ..))
    have hj := hP j (.loaded ..)
    simp only [onIndexes]
    rw [← e]
    cases (s i).transferred with
    | none => exact ih false (fun k hk => hP k (.transfer _ _ _ _ hk)) s s' hs
    | some ix =>
      have := ih true (fun k hk => hP k (.transfer _ _ _ _ hk)) (place s j ix) (place s' j ix) (place_agree hs j rfl)
      exact ⟨this.1, this.2.1, fun k hk => (this.2.2 k hk).trans (place_other _ _ fun h => hk (h ▸ hj))⟩

/-- What a program does not use it does not change, and it does not matter for the result: whatever the other dictionaries
are, also beyond the capacity. -/
theorem C115_apart (c : Client α) (s s' : Nat → Index) (hs : ∀ k, c.Uses k → s k = s' k) :
    (c.onIndexes s).1 = (c.onIndexes s').1 ∧ (∀ k, c.Uses k → (c.onIndexes s).2 k = (c.onIndexes s').2 k) ∧
    ∀ k, ¬ c.Uses k → (c.onIndexes s).2 k = s k :=
  onIndexes_agree c.Uses c (fun _ h => h) s s' hs

/-! ## Merging -/

theorem onIndexes_bind (c : Client α) (f : α → Client β) (s : Nat → Index) :
    (c.bind f).onIndexes s = (f (c.onIndexes s).1).onIndexes (c.onIndexes s).2 := by
  induction c generalizing s with
  | done a => rfl
  | ask i q next ih => exact ih _ _
  | create i next ih => exact ih _
  | transfer i j next ih =>
    simp only [Client.bind, onIndexes]
    cases (s i).transferred with
    | none => exact ih false s
    | some ix => exact ih true _

theorem putTags_eq (l : List Tag) (s : Nat → Index) :
    (putTags l).onIndexes s = (true, place s 0 (copyTags (s 0) l)) := by
  induction l generalizing s with
  | nil => simp only [putTags, onIndexes, copyTags, place_self]
  | cons t rest ih =>
    simp only [putTags, onIndexes, copyTags]
    rw [ih]
    simp only [place_same]
    congr 1
    funext k
    unfold place
    split <;> rfl

theorem place_place {γ : Type} (s : Nat → γ) (j : Nat) (x y : γ) : place (place s j x) j y = place s j y := by
  funext k
  unfold place
  split <;> rfl

/-- What the programs below do: `some m` if dictionary 0 is `m` afterwards and the others are as before, `none` if a call
failed. -/
def LeadsTo (c : Client Bool) (s : Nat → Index) (o : Option Index) : Prop :=
  match o with
  | some m => c.onIndexes s = (true, place s 0 m)
  | none => (c.onIndexes s).1 = false

theorem putReadings_leads (n : ID) (l : List (List Tag)) (s : Nat → Index) :
    LeadsTo (putReadings n l) s (attachAll (s 0) n l) := by
  induction l generalizing s with
  | nil => simp only [putReadings, attachAll, LeadsTo, onIndexes, place_self]
  | cons t rest ih =>
    unfold putReadings attachAll
    have e : (s 0).after (.call (.addTagSet n (tagNames t))) = ((s 0).addTagSet n (tagNames t)).1 := rfl
    have e2 : (s 0).answer (.call (.addTagSet n (tagNames t))) = .done ((s 0).addTagSet n (tagNames t)).2 := rfl
    generalize ((s 0).addTagSet n (tagNames t)) = p at e e2
    obtain ⟨ix, o⟩ := p
    have ih' := ih (place s 0 ix)
    rw [place_same] at ih'
    cases o with
    | ok u =>
      cases u
      simp only
      generalize attachAll ix n rest = o at ih'
      cases o with
      | some m => simp only [LeadsTo, onIndexes, e, e2] at ih' ⊢; rw [ih', place_place]
      | none => simp only [LeadsTo, onIndexes, e, e2] at ih' ⊢; exact ih'
    | err x => simp only [LeadsTo, onIndexes, e2]
    | panic => simp only [LeadsTo, onIndexes, e2]
    | diverge => simp only [LeadsTo, onIndexes, e2]

theorem putNode_leads (id : ID) (s : Nat → Index) : LeadsTo (putNode id) s (copyNode (s 1) (s 0) id) := by
  unfold putNode copyNode
  have a1 : (s 1).answer (.word id) = .text ((s 1).word id) := rfl
  have a2 : (s 1).after (.word id) = s 1 := rfl
  have a3 : (s 1).answer (.tagSets id) = .sets ((s 1).tagSetsOf id) := rfl
  have a4 : (s 1).after (.tagSets id) = s 1 := rfl
  cases hw : (s 1).word id with
  | ok w =>
    cases ht : (s 1).tagSetsOf id with
    | ok sets =>
      have e : (s 0).after (.call (.addString w)) = ((s 0).addString w).1 := rfl
      have e2 : (s 0).answer (.call (.addString w)) = .node ((s 0).addString w).2 := rfl
      simp only
      generalize (s 0).addString w = p at e e2
      obtain ⟨ix, o⟩ := p
      cases o with
      | ok n =>
        have := putReadings_leads n sets (place s 0 ix)
        rw [place_same] at this
        simp only
        generalize attachAll ix n sets = o at this
        cases o with
        | some m =>
          simp only [LeadsTo, onIndexes, a1, a2, a3, a4, hw, ht, place_self, e, e2] at this ⊢
          rw [this, place_place]
        | none =>
          simp only [LeadsTo, onIndexes, a1, a2, a3, a4, hw, ht, place_self, e, e2] at this ⊢
          exact this
      | _ => simp only [LeadsTo, onIndexes, a1, a2, a3, a4, hw, ht, place_self, e2]
    | _ => simp only [LeadsTo, onIndexes, a1, a2, a3, hw, ht, place_self]
  | _ => simp only [LeadsTo, onIndexes, a1, hw]

theorem putNodes_leads (s : Nat → Index) (n : Nat) : LeadsTo (putNodes (s 1).tags n) s (mergeNodes (s 0) (s 1) n) := by
  induction n with
  | zero => exact putTags_eq _ s
  | succ n ih =>
    simp only [putNodes, mergeNodes]
    cases hm : mergeNodes (s 0) (s 1) n with
    | none =>
      rw [hm] at ih
      simp only [LeadsTo] at ih
      simp only [Option.bind_none, LeadsTo]
      rw [onIndexes_bind, ih]
      rfl
    | some m =>
      rw [hm] at ih
      simp only [LeadsTo] at ih
      simp only [Option.bind_some]
      have := putNode_leads (UInt32.ofNat (n + 1)) (place s 0 m)
      rw [place_same, place_other _ _ (by decide)] at this
      generalize copyNode (s 1) m (UInt32.ofNat (n + 1)) = o at this
      cases o with
      | none => simp only [LeadsTo] at this ⊢; rw [onIndexes_bind, ih]; exact this
      | some m' => simp only [LeadsTo] at this ⊢; rw [onIndexes_bind, ih]; simp only; rw [this, place_place]

/-- The program does what `mergeInto` does. -/
theorem merge_leads (s : Nat → Index) : LeadsTo Client.merge s (mergeInto (s 0) (s 1)) := by
  have := putNodes_leads s (s 1).nodesCount
  unfold mergeInto
  have a1 : (s 1).answer .tags = .tags (s 1).tags := rfl
  have a2 : (s 1).after .tags = s 1 := rfl
  have a3 : (s 1).answer .nodesCount = .count (s 1).nodesCount := rfl
  have a4 : (s 1).after .nodesCount = s 1 := rfl
  unfold LeadsTo at this ⊢
  simp only [Client.merge, onIndexes, a1, a2, a3, a4, place_self]
  exact this

/-- C102, exactly and without exception (empty readings, words that start with NUL, words that are no text): merging `s` into
`d` succeeds if and only if the same program succeeds with the reference implementation, and then every program is answered
by the merged dictionary as the reference implementation answers. -/
theorem C102_exact (h : Nat → List Op) (w : Client.merge.Within h) :
    let ref := Client.merge.onLists fun i => dictOf (h i)
    ((mergeInto (execAll (h 0)) (execAll (h 1))).isSome = ref.1) ∧
    ∀ m, mergeInto (execAll (h 0)) (execAll (h 1)) = some m →
      ref.2 0 = dictOf (Client.merge.histories h 0) ∧ m = execAll (Client.merge.histories h 0) ∧
      ∀ p, Room (Client.merge.histories h 0 ++ callsMade p) → m.answers p = (ref.2 0).answers p := by
  intro ref
  have h1 := C115 Client.merge h w
  have h2 := merge_leads fun i => execAll (h i)
  rw [LeadsTo.eq_def, h1.1] at h2
  cases hm : mergeInto (execAll (h 0)) (execAll (h 1)) with
  | none =>
    rw [hm] at h2
    exact ⟨h2.symm, by rintro _ ⟨⟩⟩
  | some m =>
    rw [hm] at h2
    simp only [Prod.mk.injEq] at h2
    refine ⟨h2.1.symm, ?_⟩
    rintro _ ⟨⟩
    have e : m = execAll (Client.merge.histories h 0) := by
      have := congrFun h2.2 0
      rw [place_same] at this
      exact this.symm
    have e2 : ref.2 0 = dictOf (Client.merge.histories h 0) := congrFun h1.2 0
    refine ⟨e2, e, fun p hp => ?_⟩
    have r := (run_of_room _ hp).1
    obtain ⟨ix, r0⟩ := r.before
    rw [e2, e, ← r0.eq]
    exact C113_after r0 p r

theorem copyNodes_merge (src : Index) (n : Nat) : copyNodes src n = mergeNodes Index.new src n := by
  induction n with
  | zero => rfl
  | succ n ih => simp only [copyNodes, mergeNodes, ih]

/-- C99, without exception: a copy is what the reference implementation makes of the same program. -/
theorem C99_reference (hs : List Op) (w : Client.merge.Within fun i => if i = 1 then hs else []) :
    let h := fun i => if i = 1 then hs else []
    let ref := Client.merge.onLists fun i => dictOf (h i)
    ((copyOf (execAll hs)).isSome = ref.1) ∧
    ∀ m, copyOf (execAll hs) = some m →
      ∀ p, Room (Client.merge.histories h 0 ++ callsMade p) → m.answers p = (ref.2 0).answers p := by
  have := C102_exact _ w
  have e : copyOf (execAll hs) = mergeInto Index.new (execAll hs) := copyNodes_merge _ _
  refine ⟨e ▸ this.1, fun m hm => (this.2 m (e ▸ hm)).2.2⟩

/-! ## The hypotheses can be met -/

/-- A check that can be computed. -/
def Client.isSmall : Client α → (Nat → List Op) → Bool
  | .done _, _ => true
  | .ask i q next, h => decide (Small (q.history (h i))) &&
    (next ((dictOf (h i)).answer q)).isSmall (place h i (q.history (h i)))
  | .create i next, h => next.isSmall (place h i [])
  | .transfer i j next, h => decide (Small (h i ++ [.reload])) && (next true).isSmall (place h j (h i ++ [.reload]))

theorem Client.within_of_small (c : Client α) (h : Nat → List Op) (s : c.isSmall h = true) : c.Within h := by
  induction c generalizing h with
  | done a => trivial
  | ask i q next ih =>
    simp only [isSmall, Bool.and_eq_true, decide_eq_true_eq] at s
    exact ⟨s.1.toRoom, ih _ _ s.2⟩
  | create i next ih => exact ih _ s
  | transfer i j next ih =>
    simp only [isSmall, Bool.and_eq_true, decide_eq_true_eq] at s
    exact ⟨s.1.toRoom, ih _ _ s.2⟩

/-- Add "ab" to dictionary 0; save it and load the file as dictionary 1; add a letter to the node that was answered, in
dictionary 1 only; count the nodes of both. -/
def clientSample : Client (Nat × Nat) :=
  .ask 0 (.call (.addString (str "ab"))) fun
    | .node (.ok n) => .transfer 0 1 fun
      | true => .ask 1 (.call (.addToNode n [99])) fun _ =>
        .ask 0 .nodesCount fun a => .ask 1 .nodesCount fun b =>
          match a, b with
          | .count a, .count b => .done (a, b)
          | _, _ => .done (0, 0)
      | false => .done (0, 0)
    | _ => .done (0, 0)

example : (clientSample.onIndexes fun _ => Index.new).1 = (2, 3) := by
  rw [C115_start clientSample (clientSample.within_of_small _ (by decide +kernel))]
  decide +kernel

/-- Merging a dictionary with a noun into one with an empty reading (see `not_C102_empty`): there is room, it succeeds, and
afterwards the empty reading is shown as the noun. -/
example : let h := fun i => if i = 0 then mergeEmpty else if i = 1 then mergeNoun else []
    Client.merge.Within h ∧ (Client.merge.onLists fun i => dictOf (h i)).1 = true ∧
    ((Client.merge.onLists fun i => dictOf (h i)).2 0).shown 1 = [[newTag [] (str "NOUN")]] :=
  ⟨Client.merge.within_of_small _ (by decide +kernel), by decide +kernel, by decide +kernel⟩

/-- Words that are no text are refused or changed: here a word of one character that is a lone surrogate is merged as another
word. -/
example : let h := fun i => if i = 1 then [Op.addRunes [55296]] else []
    Client.merge.Within h ∧ (Client.merge.onLists fun i => dictOf (h i)).1 = true ∧
    ((Client.merge.onLists fun i => dictOf (h i)).2 0).nodes = [[], [65533]] :=
  ⟨Client.merge.within_of_small _ (by decide +kernel), by decide +kernel, by decide +kernel⟩

end Verif
