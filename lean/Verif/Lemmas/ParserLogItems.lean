import Verif.Lemmas.ParserLog
import Verif.Lemmas.OptimizeWhile

/-! # The items in the parser's log -/

namespace Verif

/-! ### Forms and entries -/

theorem formLines_forms (fs : List (Str × List Str)) (ix : Index) :
    ((addFormsSpec ix fs).2 = none → (formLines ix fs).map (·.2) = fs) ∧
    ∀ e, (addFormsSpec ix fs).2 = some e → ∃ fs1 f fs2, fs = fs1 ++ f :: fs2 ∧ (formLines ix fs).map (·.2) = fs1 ∧
      (addFormsSpec ix fs1).2 = none ∧ (addFormsSpec ix (fs1 ++ [f])).2 = some e := by
  induction fs generalizing ix with
  | nil => exact ⟨fun _ => rfl, nofun⟩
  | cons f rest ih =>
    obtain ⟨w, tags⟩ := f
    rw [addFormsSpec, formLines]
    cases h1 : ix.addString w with
    | mk ix1 o1 =>
      cases o1 with
      | ok id =>
        simp only
        cases h2 : ix1.addTagSet id tags with
        | mk ix2 o2 =>
          cases o2 with
          | ok u =>
            simp only [List.map_cons]
            obtain ⟨a, b⟩ := ih ix2
            refine ⟨fun h => by rw [a h], fun e he => ?_⟩
            obtain ⟨fs1, f, fs2, c1, c2, c3, c4⟩ := b e he
            refine ⟨(w, tags) :: fs1, f, fs2, by rw [c1]; rfl, by rw [c2], ?_, ?_⟩
            · rw [addFormsSpec, h1]; simp only [h2]; exact c3
            · rw [List.cons_append, addFormsSpec, h1]; simp only [h2]; exact c4
          | err x =>
            refine ⟨nofun, fun e he => ⟨[], (w, tags), rest, rfl, rfl, rfl, ?_⟩⟩
            rw [List.nil_append, addFormsSpec, h1]; simp only [h2]; exact he
          | panic =>
            refine ⟨nofun, fun e he => ⟨[], (w, tags), rest, rfl, rfl, rfl, ?_⟩⟩
            rw [List.nil_append, addFormsSpec, h1]; simp only [h2]; exact he
          | diverge =>
            refine ⟨nofun, fun e he => ⟨[], (w, tags), rest, rfl, rfl, rfl, ?_⟩⟩
            rw [List.nil_append, addFormsSpec, h1]; simp only [h2]; exact he
      | err x =>
        refine ⟨nofun, fun e he => ⟨[], (w, tags), rest, rfl, rfl, rfl, ?_⟩⟩
        rw [List.nil_append, addFormsSpec, h1]; exact he
      | panic =>
        refine ⟨nofun, fun e he => ⟨[], (w, tags), rest, rfl, rfl, rfl, ?_⟩⟩
        rw [List.nil_append, addFormsSpec, h1]; exact he
      | diverge =>
        refine ⟨nofun, fun e he => ⟨[], (w, tags), rest, rfl, rfl, rfl, ?_⟩⟩
        rw [List.nil_append, addFormsSpec, h1]; exact he

theorem entryLines_forms (es : List Entry) (ix : Index) :
    ((execEntries ix es).2 = none → (entryLines ix es).map (·.2) = allForms es) ∧
    ∀ e, (execEntries ix es).2 = some e →
      ∃ f, RejectsAfter ix es ((entryLines ix es).map (·.2)) f e := by
  induction es generalizing ix with
  | nil => exact ⟨fun _ => rfl, nofun⟩
  | cons x es ih =>
    cases x with
    | grammeme n p =>
      obtain ⟨a, b⟩ := ih (ix.tagID n p).1
      refine ⟨a, fun e he => ?_⟩
      obtain ⟨f, es1, fs1, fs2, es2, c1, c2, c3, c4⟩ := b e he
      exact ⟨f, .grammeme n p :: es1, fs1, fs2, es2, by rw [c1]; rfl, c2, c3, c4⟩
    | lem fs =>
      rw [execEntries, Entry.exec, entryLines, allForms]
      obtain ⟨fa, fb⟩ := formLines_forms fs ix
      cases hf : addFormsSpec ix fs with
      | mk ix1 o =>
        rw [hf] at fa fb
        cases o with
        | some e1 =>
          refine ⟨nofun, fun e he => ?_⟩
          simp only at he
          obtain ⟨fs1, f, fs2, c1, c2, c3, c4⟩ := fb e he
          refine ⟨f, [], fs1, fs2, es, by rw [c1]; rfl, ?_, ?_, ?_⟩
          · rw [List.nil_append, execEntries, Entry.exec]
            cases hx : addFormsSpec ix fs1 with
            | mk a b => rw [hx] at c3; simp only at c3; subst c3; rfl
          · rw [List.nil_append, execEntries, Entry.exec]
            cases hx : addFormsSpec ix (fs1 ++ [f]) with
            | mk a b => rw [hx] at c4; simp only at c4; subst c4; rfl
          · simp only [List.append_nil, c2]; rfl
        | none =>
          simp only [List.map_append]
          obtain ⟨a, b⟩ := ih ix1
          refine ⟨fun h => by rw [fa rfl, a h], fun e he => ?_⟩
          obtain ⟨f, es1, fs1, fs2, es2, c1, c2, c3, c4⟩ := b e he
          refine ⟨f, .lem fs :: es1, fs1, fs2, es2, by rw [c1]; rfl, ?_, ?_, ?_⟩
          · rw [List.cons_append, execEntries, Entry.exec, hf]; exact c2
          · rw [List.cons_append, execEntries, Entry.exec, hf]; exact c3
          · rw [fa rfl, ← c4, List.flatMap_cons, List.append_assoc]

/-! ### Step by step -/

/-- The steps in order, up to the first that fails. -/
def execSteps : Index → List IStep → Index × Option PErr
  | ix, [] => (ix, none)
  | ix, .gram n p :: ss => execSteps (ix.tagID n p).1 ss
  | ix, .form w tags :: ss =>
    match ix.addString w with
    | (ix, .ok id) => match ix.addTagSet id tags with
      | (ix, .ok ()) => execSteps ix ss
      | (ix, .err e) => (ix, some (.index e))
      | (ix, _) => (ix, some .inner)
    | (ix, .err e) => (ix, some (.index e))
    | (ix, _) => (ix, some .inner)

/-- Their reports. -/
def stepLines : Index → List IStep → List (Item × Str × List Str)
  | _, [] => []
  | ix, .gram n p :: ss => stepLines (ix.tagID n p).1 ss
  | ix, .form w tags :: ss =>
    match ix.addString w with
    | (ix, .ok id) => match ix.addTagSet id tags with
      | (ix, .ok ()) => (ix.items.items.getD id.toNat zeroItem, w, tags) :: stepLines ix ss
      | _ => []
    | _ => []

theorem steps_forms (fs : List (Str × List Str)) (ss : List IStep) (ix : Index) :
    (execSteps ix (fs.map (fun f => .form f.1 f.2) ++ ss) = match addFormsSpec ix fs with
      | (ix, none) => execSteps ix ss
      | r => r) ∧
    stepLines ix (fs.map (fun f => .form f.1 f.2) ++ ss) = formLines ix fs ++ match addFormsSpec ix fs with
      | (ix, none) => stepLines ix ss
      | _ => [] := by
  induction fs generalizing ix with
  | nil => exact ⟨rfl, rfl⟩
  | cons f fs ih =>
    obtain ⟨w, tags⟩ := f
    simp only [List.map_cons, List.cons_append, execSteps, stepLines, addFormsSpec, formLines]
    cases ix.addString w with
    | mk ix1 o1 => cases o1 with
      | ok id =>
        simp only
        cases ix1.addTagSet id tags with
        | mk ix2 o2 => cases o2 with
          | ok u => simp only [List.cons_append]; exact ⟨(ih ix2).1, by rw [(ih ix2).2]⟩
          | _ => exact ⟨rfl, rfl⟩
      | _ => exact ⟨rfl, rfl⟩

theorem entries_steps (es : List Entry) (ix : Index) :
    execEntries ix es = execSteps ix (stepsOf es) ∧ entryLines ix es = stepLines ix (stepsOf es) := by
  induction es generalizing ix with
  | nil => exact ⟨rfl, rfl⟩
  | cons x es ih =>
    cases x with
    | grammeme n p => exact ih _
    | lem fs =>
      obtain ⟨a, b⟩ := steps_forms fs (stepsOf es) ix
      rw [execEntries, Entry.exec, entryLines, stepsOf, a, b]
      cases addFormsSpec ix fs with
      | mk ix1 o => cases o with
        | some e => exact ⟨rfl, rfl⟩
        | none => exact ⟨(ih ix1).1, by simp only [(ih ix1).2]⟩

theorem stepLines_forms (ss : List IStep) (ix ixl : Index) (ok : execSteps ix ss = (ixl, none)) :
    (stepLines ix ss).map (·.2) = stepForms ss := by
  induction ss generalizing ix with
  | nil => rfl
  | cons x ss ih =>
    cases x with
    | gram n p => exact ih _ ok
    | form w tags =>
      simp only [execSteps, stepLines] at ok ⊢
      cases h1 : ix.addString w with
      | mk ix1 o1 =>
        rw [h1] at ok
        cases o1 with
        | ok id =>
          simp only at ok ⊢
          cases h2 : ix1.addTagSet id tags with
          | mk ix2 o2 =>
            rw [h2] at ok
            cases o2 with
            | ok u => simp only [List.map_cons, stepForms]; rw [ih _ ok]
            | _ => simp at ok
        | _ => simp at ok

/-! ### What stays of an item -/

/-- The same node; the same readings if `same`. -/
structure ItemLater (it it' : Item) (same : Prop) : Prop where
  id : it'.id = it.id
  parent : it'.parent = it.parent
  letter : it'.letter = it.letter
  same : same → it' = it

theorem ItemLater.trans {a b c : Item} {p q r : Prop} (h : ItemLater a b p) (h' : ItemLater b c q) (hp : r → p)
    (hq : r → q) : ItemLater a c r :=
  ⟨h'.id.trans h.id, h'.parent.trans h.parent, h'.letter.trans h.letter,
    fun hr => (h'.same (hq hr)).trans (h.same (hp hr))⟩

theorem addTagSet_items {ix ix' : Index} {id : ID} {tags : List Str} (h : ix.addTagSet id tags = (ix', .ok ())) :
    ∃ v, ix'.items = Index.setVariants ix.items id v := by
  unfold Index.addTagSet at h
  split at h
  · cases h
  · split at h
    · cases h
    · split at h
      · obtain ⟨h1, _⟩ := Prod.mk.inj h
        exact ⟨_, by rw [← h1]⟩
      · cases h

/-- One form: its node, and what it does to the items that were there. -/
theorem form_items {h : List Op} {ix ix1 ix2 : Index} {w : Str} {tags : List Str} {id : ID}
    (r : Run h ix) (hr : NoReload h) (h1 : ix.addString w = (ix1, .ok id)) (h2 : ix1.addTagSet id tags = (ix2, .ok ()))
    (r2 : Run (h ++ formCalls (dictOf h) [(w, tags)]) ix2) :
    (dictOf (h ++ formCalls (dictOf h) [(w, tags)])).nodes[id.toNat]? = some (decodeRunes w) ∧
    ∀ (k : Nat) (v : List Rune) (it : Item), (dictOf h).nodes[k]? = some v → ix.items.items[k]? = some it →
      ∃ it', ix2.items.items[k]? = some it' ∧ ItemLater it it' (decodeRunes w ≠ v) := by
  have hw : w ≠ [] := by
    rintro rfl
    simp [Index.addString] at h1
  have ec : formCalls (dictOf h) [(w, tags)] = Op.addString w :: (formCalls (dictOf h) [(w, tags)]).tail := rfl
  have hnode : (dictOf (h ++ formCalls (dictOf h) [(w, tags)])).nodes[id.toNat]? = some (decodeRunes w) := by
    have r2' := r2
    rw [ec] at r2'
    obtain ⟨id', a, b⟩ := C01_string (h' := (formCalls (dictOf h) [(w, tags)]).tail) w hw r r2'
    rw [h1] at a
    cases a
    unfold Index.fetchString at b
    have hr2 : NoReload (h ++ formCalls (dictOf h) [(w, tags)]) := by
      unfold NoReload at *
      intro hm
      rcases List.mem_append.1 hm with hm | hm
      · exact hr hm
      · simp [formCalls] at hm
    rw [r2.trie.fetchRoot_iff, Run.root_join (.inl hr2)] at b
    exact b.2
  refine ⟨hnode, fun k v it hk hi => ?_⟩
  have hk1 : ix1.items.items[k]? = some it := by
    have e : (formCalls (dictOf h) [(w, tags)]) = [Op.addString w] ++ (formCalls (dictOf h) [(w, tags)]).tail := rfl
    rw [e, ← List.append_assoc] at r2
    obtain ⟨jx, s⟩ := r2.before
    obtain ⟨jx0, s0, _, hf, _⟩ := s.snoc_inv
    have hfit := hf.nodes
    rw [dictOf_append] at hfit
    simp only [Op.spec] at hfit
    have K := kept_addToNode r.trie 0 (decodeRunes w) (by simpa using hfit)
    have := K.items k (List.getElem?_eq_some_iff.1 hk).1
    have e1 : ix1 = (ix.addToNode 0 (decodeRunes w)).1 := by
      have := congrArg Prod.fst h1
      simp only at this
      rw [← this]
      unfold Index.addString
      rw [if_neg (fun h => hw (List.length_eq_zero_iff.1 h))]
      rfl
    rw [e1, this, hi]
  obtain ⟨v', hv'⟩ := addTagSet_items h2
  rw [hv', setVariants_get]
  by_cases hid : k = id.toNat
  · rw [if_pos hid, hk1]
    refine ⟨_, rfl, rfl, rfl, rfl, fun hne => absurd ?_ hne⟩
    have := prefix_getElem? (dictOf_nodes_prefix h (formCalls (dictOf h) [(w, tags)])) hk
    rw [hid, hnode] at this
    exact Option.some.inj this
  · rw [if_neg hid]
    exact ⟨it, hk1, rfl, rfl, rfl, fun _ => rfl⟩

theorem steps_cons_form (d : Dict) (w : Str) (tags : List Str) (ss : List IStep) :
    stepCalls d (.form w tags :: ss) =
      formCalls d [(w, tags)] ++ stepCalls ((formCalls d [(w, tags)]).foldl Op.spec d) ss := rfl

/-- A grammeme, then the rest. -/
theorem gram_step {h : List Op} {ix ixl : Index} {F : List (Str × List Str)} {n p : Str} {ss : List IStep}
    (r : Run h ix) (hr : NoReload h) (hF : Holds (dictOf h) F)
    (rl : Run (h ++ stepCalls (dictOf h) (.gram n p :: ss)) ixl) :
    Run (h ++ [Op.tagID n p]) (ix.tagID n p).1 ∧ NoReload (h ++ [Op.tagID n p]) ∧
      Holds (dictOf (h ++ [Op.tagID n p])) F ∧ (dictOf (h ++ [Op.tagID n p])).nodes = (dictOf h).nodes ∧
      Run (h ++ [Op.tagID n p] ++ stepCalls (dictOf (h ++ [Op.tagID n p])) ss) ixl := by
  have e1 : h ++ stepCalls (dictOf h) (.gram n p :: ss) =
      (h ++ [Op.tagID n p]) ++ stepCalls (dictOf (h ++ [Op.tagID n p])) ss := by
    rw [dictOf_append, stepCalls]; simp
  rw [e1] at rl
  obtain ⟨jx, s⟩ := rl.before
  obtain ⟨jx0, s0, _, _, rfl⟩ := s.snoc_inv
  obtain rfl := r.unique s0
  refine ⟨s, by unfold NoReload at *; simp [hr], ?_, ?_, rl⟩
  · rw [dictOf_append]
    simp only [Op.spec]
    split
    · exact hF
    · exact ⟨hF.words, hF.nodes, hF.attached⟩
  · rw [dictOf_append]
    simp only [Op.spec]
    split <;> rfl

theorem tagID_items (ix : Index) (n p : Str) : (ix.tagID n p).1.items = ix.items := by
  unfold Index.tagID
  split
  rfl

/-- What stays of an item during the steps. -/
theorem steps_keep (ss : List IStep) {h : List Op} {ix ixl : Index} {F : List (Str × List Str)} (r : Run h ix)
    (hr : NoReload h) (hF : Holds (dictOf h) F) (ok : execSteps ix ss = (ixl, none))
    (rl : Run (h ++ stepCalls (dictOf h) ss) ixl) {k : Nat} {v : List Rune} {it : Item}
    (hk : (dictOf h).nodes[k]? = some v) (hi : ix.items.items[k]? = some it) :
    ∃ it', ixl.items.items[k]? = some it' ∧ ItemLater it it' (∀ f ∈ stepForms ss, decodeRunes f.1 ≠ v) := by
  induction ss generalizing h ix F it with
  | nil =>
    obtain rfl := (Prod.mk.inj ok).1
    exact ⟨it, hi, rfl, rfl, rfl, fun _ => rfl⟩
  | cons x ss ih =>
    cases x with
    | gram n p =>
      obtain ⟨a, b, c, d, e⟩ := gram_step r hr hF rl
      exact ih a b c ok e (by rw [d]; exact hk) (by rw [tagID_items]; exact hi)
    | form w tags =>
      rw [execSteps] at ok
      cases h1 : ix.addString w with
      | mk ix1 o1 =>
        rw [h1] at ok
        cases o1 with
        | ok id =>
          simp only at ok
          cases h2 : ix1.addTagSet id tags with
          | mk ix2 o2 =>
            rw [h2] at ok
            cases o2 with
            | ok u =>
              simp only at ok
              rw [steps_cons_form, ← List.append_assoc] at rl
              obtain ⟨a, b, c⟩ := form_step r hr hF h1 h2 rl
              obtain ⟨_, hkeep⟩ := form_items r hr h1 h2 a
              obtain ⟨it1, hi1, l1⟩ := hkeep k v it hk hi
              rw [← foldl_dictOf] at rl
              obtain ⟨it2, hi2, l2⟩ := ih a b c ok rl (prefix_getElem? (dictOf_nodes_prefix _ _) hk) hi1
              exact ⟨it2, hi2, l1.trans l2 (fun hall => hall (w, tags) List.mem_cons_self)
                (fun hall f hf => hall f (List.mem_cons_of_mem _ hf))⟩
            | _ => simp at ok
        | _ => simp at ok

/-- A reported item, in the end. -/
theorem steps_lines (ss : List IStep) {h : List Op} {ix ixl : Index} {F : List (Str × List Str)} (r : Run h ix)
    (hr : NoReload h) (hF : Holds (dictOf h) F) (ok : execSteps ix ss = (ixl, none))
    (rl : Run (h ++ stepCalls (dictOf h) ss) ixl) {a b : List (Item × Str × List Str)} {it : Item} {w : Str}
    {tags : List Str} (e : stepLines ix ss = a ++ (it, w, tags) :: b) :
    w ≠ [] ∧ (dictOf (h ++ stepCalls (dictOf h) ss)).nodes[it.id.toNat]? = some (decodeRunes w) ∧
    ∃ it', ixl.items.items[it.id.toNat]? = some it' ∧
      ItemLater it it' (∀ x ∈ b, decodeRunes x.2.1 ≠ decodeRunes w) := by
  induction ss generalizing h ix F a with
  | nil => simp [stepLines] at e
  | cons x ss ih =>
    cases x with
    | gram n p =>
      obtain ⟨a', b', c', d', e'⟩ := gram_step r hr hF rl
      have key := ih a' b' c' ok e' e
      have e1 : h ++ stepCalls (dictOf h) (.gram n p :: ss) =
          (h ++ [Op.tagID n p]) ++ stepCalls (dictOf (h ++ [Op.tagID n p])) ss := by
        rw [dictOf_append, stepCalls]; simp
      rw [e1]
      exact key
    | form w0 tags0 =>
      rw [execSteps] at ok
      rw [stepLines] at e
      cases h1 : ix.addString w0 with
      | mk ix1 o1 =>
        rw [h1] at ok e
        cases o1 with
        | ok id =>
          simp only at ok e
          cases h2 : ix1.addTagSet id tags0 with
          | mk ix2 o2 =>
            rw [h2] at ok e
            cases o2 with
            | ok u =>
              simp only at ok e
              rw [steps_cons_form, ← List.append_assoc] at rl ⊢
              obtain ⟨ra, rb, rc⟩ := form_step r hr hF h1 h2 rl
              obtain ⟨hnode, _⟩ := form_items r hr h1 h2 ra
              rw [← foldl_dictOf] at rl ⊢
              cases a with
              | cons y a => exact ih ra rb rc ok rl (List.cons.inj e).2
              | nil =>
                obtain ⟨e1, e2⟩ := List.cons.inj e
                obtain ⟨e3, e4⟩ := Prod.mk.inj e1
                obtain ⟨e5, e6⟩ := Prod.mk.inj e4
                subst e5 e6
                have hw : w0 ≠ [] := by
                  rintro rfl
                  simp [Index.addString] at h1
                have h0 : 0 < id.toNat := by
                  rcases Nat.eq_zero_or_pos id.toNat with h0 | h0
                  · rw [h0, ra.trie.root] at hnode
                    exact absurd ((C50_empty w0).1 (Option.some.inj hnode).symm) hw
                  · exact h0
                obtain ⟨it0, _, i1, i2, _⟩ := ra.trie.item id.toNat h0 (List.getElem?_eq_some_iff.1 hnode).1
                have e7 : it0 = it := by rw [← e3, List.getD_eq_getElem?_getD, i1]; rfl
                rw [e7] at i1 i2
                rw [i2]
                obtain ⟨it', k1, k2⟩ := steps_keep ss ra rb rc ok rl hnode i1
                refine ⟨hw, prefix_getElem? (dictOf_nodes_prefix _ _) hnode, it', k1, k2.id, k2.parent, k2.letter, ?_⟩
                intro hall
                refine k2.same fun f hf => ?_
                rw [← stepLines_forms ss ix2 ixl ok, e2] at hf
                obtain ⟨y, hy, rfl⟩ := List.mem_map.1 hf
                exact hall y hy
            | _ => simp at ok
        | _ => simp at ok

end Verif
