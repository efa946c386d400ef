import Verif.Lemmas.ImportWork
import Verif.Props.EndToEnd

/-!
# C114 — what an import costs

The parser counts steps in `Model/ImportCost.lean`. `Spec/ImportCost.lean` has the sizes.
-/

namespace Verif

open PState

/-- The counted parser is the parser: same outcome on every stream of tokens. -/
theorem C114_counted (fo : Str → Bool) (s : PState) (ts : List XTok) : (runT fo s ts).1 = run fo s ts := runT_fst fo ts s

/-- The steps besides those of the calls of the index, on any stream of tokens and from any state: at most one for each
token and two for each attribute. -/
theorem C114_tokens (fo : Str → Bool) (s : PState) (ts : List XTok) :
    (runT fo s ts).2 ≤ (ts.map XTok.size).sum + callsAlong fo s ts := runT_le fo ts s

/-- The steps of an import that succeeds, exactly up to the attributes looked at: those of the calls of the index, one for
each form and for each of its tags. -/
theorem import_calls {fo : Str → Bool} {doc : List Xml} (hv : Xml.ValidAll fo [] doc) (hd : Declared (entriesOf doc))
    (m : DocRoom (entriesOf doc)) : callsAlong fo (PState.init Index.new 0) (Xml.tokensAll doc) =
      formsOwn (allForms (entriesOf doc)) + callsWork Index.new (callsOf (entriesOf doc)) := by
  have room := room_of_doc hd m
  have r1 := room_runs _ room
  have he : execEntries Index.new (entriesOf doc) = (execAll (callsOf (entriesOf doc)), none) :=
    entries_ok (entriesOf doc) Run.nil (by simp [NoReload]) Holds.empty [] (by simp) hd.steps r1
  have hs := (simT_doc (fo := fo) doc (PState.init Index.new 0) (by decide) rfl ⟨rfl, rfl, rfl⟩ hv).steps
  rw [hs]
  exact entries_work (h := []) (F := []) (entriesOf doc) Run.nil (by simp [NoReload]) Holds.empty he r1

theorem sum_add (F : List (Str × List Str)) (a b : Str × List Str → Nat) :
    (F.map a).sum + (F.map b).sum = (F.map fun f => a f + b f).sum := by
  induction F with
  | nil => rfl
  | cons f F ih => simp only [List.map_cons, List.sum_cons]; omega

/-- C114: importing a document of the format, with declared tags and within capacity, takes at most a step for each part of
the document, `T` for each grammeme, and for each form what `formCost` says. Nothing is multiplied by the number of words,
lemmas or forms. -/
theorem C114 (fo : Str → Bool) (doc : List Xml) (hv : Xml.ValidAll fo [] doc) (hd : Declared (entriesOf doc))
    (m : DocRoom (entriesOf doc)) {R c K : Nat} (dd : DocDifferent (entriesOf doc) R c K) :
    let T := (declaredTags (entriesOf doc)).length
    (runT fo (PState.init Index.new 0) (Xml.tokensAll doc)).1.2 = none ∧
    (runT fo (PState.init Index.new 0) (Xml.tokensAll doc)).2 ≤ documentSize doc + grammemeCount (entriesOf doc) * T +
      ((allForms (entriesOf doc)).map (formCost T R c K)).sum := by
  intro T
  refine ⟨by rw [runT_fst]; exact (imported hv hd m).1, ?_⟩
  have h1 := runT_le fo (Xml.tokensAll doc) (PState.init Index.new 0)
  have h2 := import_steps hd m dd
  rw [import_calls hv hd m] at h1
  have hT : (declaredTags (entriesOf doc)).length = T := rfl
  rw [hT] at h2
  clear_value T
  have h3 := sum_add (allForms (entriesOf doc)) (fun f => 1 + f.2.length) (fun f => (decodeRunes f.1).length +
    (f.2.length * (T + 2) + R * (f.2.length + 1) + (3 * c + 2) + K * (c + 2)))
  have h4 : (fun f : Str × List Str => 1 + f.2.length + ((decodeRunes f.1).length +
      (f.2.length * (T + 2) + R * (f.2.length + 1) + (3 * c + 2) + K * (c + 2)))) =
      formCost T R c K := by
    funext f
    unfold formCost
    omega
  simp only [h4] at h3
  unfold documentSize
  unfold formsOwn at h1
  omega

/-! ## It does take longer with more different readings -/

/-- Each two different readings of the same size that are attached, by calls of any history, are compared. -/
theorem calls_grow (n : Nat) (hn : 0 < n) (h : List Op) (m : Room h) (L : List (List Str))
    (hL : ∀ l ∈ L, l.length = n ∧ ∃ e ∈ (dictOf h).readings, e.2 = l) (hd : L.Pairwise fun a b => ¬ a.Perm b) :
    L.length * (L.length - 1) ≤ 2 * callsWork Index.new h := by
  induction h using list_reverse_induction generalizing L with
  | nil =>
    cases L with
    | nil => exact Nat.zero_le _
    | cons l L =>
      obtain ⟨_, e, he, _⟩ := hL l (List.mem_cons_self ..)
      cases he
  | snoc q op ih =>
    rw [callsWork_append]
    have mq := m.init
    have ih := ih mq
    have e0 : q.foldl Op.exec Index.new = execAll q := rfl
    rw [e0]
    simp only [callsWork, Nat.add_zero]
    have same : (∀ l ∈ L, ∃ e ∈ (dictOf q).readings, e.2 = l) →
        L.length * (L.length - 1) ≤ 2 * (callsWork Index.new q + opSteps (execAll q) op) := by
      intro hs
      have := ih L (fun l hl => ⟨(hL l hl).1, hs l hl⟩) hd
      omega
    by_cases hr : (dictOf (q ++ [op])).readings = (dictOf q).readings
    · exact same fun l hl => hr ▸ (hL l hl).2
    · have hop : ∃ id names, op = .addTagSet id names ∧ (0 < id.toNat ∧ id.toNat < (dictOf q).nodes.length) ∧
          names.all (dictOf q).hasTag = true ∧
          (dictOf (q ++ [op])).readings = (dictOf q).readings ++ [(id.toNat, names)] := by
        rw [dictOf_append] at hr ⊢
        cases op with
        | addTagSet id names =>
          refine ⟨id, names, rfl, ?_⟩
          simp only [Op.spec] at hr ⊢
          split at hr
          · rename_i hc
            rw [if_pos hc]
            exact ⟨⟨hc.2.1, hc.2.2⟩, hc.1, rfl⟩
          · exact absurd rfl hr
        | addRunes rs => exact absurd (by simp only [Op.spec, Dict.insert]; split <;> (try split) <;> rfl) hr
        | addString w => exact absurd (by simp only [Op.spec, Dict.insert]; split <;> (try split) <;> rfl) hr
        | addToNode id rs => exact absurd (by simp only [Op.spec, Dict.insert]; split <;> (try split) <;> rfl) hr
        | tagID n p => exact absurd (by simp only [Op.spec]; split <;> rfl) hr
        | _ => exact absurd rfl hr
      obtain ⟨id, names, rfl, hk, hall, he⟩ := hop
      have old : ∀ l ∈ L, l ≠ names → ∃ e ∈ (dictOf q).readings, e.2 = l := by
        intro l hl hne
        obtain ⟨_, e, h1, h2⟩ := hL l hl
        rw [he] at h1
        rcases List.mem_append.1 h1 with h1 | h1
        · exact ⟨e, h1, h2⟩
        · rw [List.mem_singleton.1 h1] at h2
          exact absurd h2.symm hne
      by_cases hin : names ∈ L
      · have hnl := (hL names hin).1
        by_cases hp : ∃ e ∈ (dictOf q).readings, e.2.Perm names
        · obtain ⟨e, h1, h2⟩ := hp
          have := ih (L.map fun x => if x = names then e.2 else x) (by
            intro l hl
            obtain ⟨x, hx, rfl⟩ := List.mem_map.1 hl
            by_cases hxn : x = names
            · rw [if_pos hxn]
              exact ⟨h2.length_eq.trans hnl, e, h1, rfl⟩
            · rw [if_neg hxn]
              exact ⟨(hL x hx).1, old x hx hxn⟩) (by
            rw [List.pairwise_map]
            refine hd.imp fun {a b} hab hpm => hab ?_
            have k : ∀ x : List Str, (if x = names then e.2 else x).Perm x := by
              intro x
              split
              · rename_i hx; rw [hx]; exact h2
              · exact List.Perm.refl x
            exact ((k a).symm.trans hpm).trans (k b))
          rw [List.length_map] at this
          omega
        · have hnd : L.Nodup := hd.imp fun {a b} hab (e : a = b) => hab (by rw [e])
          have h1 : ∀ l ∈ L.erase names, l.length = names.length ∧ ∃ e ∈ (dictOf q).readings, e.2 = l := by
            intro l hl
            obtain ⟨a, b⟩ := (hnd.mem_erase_iff).1 hl
            exact ⟨(hL l b).1.trans hnl.symm, old l b a⟩
          have h2 : (L.erase names).Pairwise fun a b => ¬ a.Perm b := hd.sublist List.erase_sublist
          have h3 := C96_tag_grows mq id names hk (by intro h0; rw [h0] at hnl; simp at hnl; omega) hall
            (fun e he hpm => hp ⟨e, he, hpm⟩) _ h1 h2
          have h4 := ih _ (fun l hl => ⟨(h1 l hl).1.trans hnl, (h1 l hl).2⟩) h2
          have h5 := List.length_erase_of_mem hin
          have h6 : 0 < L.length := List.length_pos_of_mem hin
          obtain ⟨k, hk⟩ : ∃ k, L.length = k + 1 := ⟨L.length - 1, by omega⟩
          rw [h5, hk, Nat.add_sub_cancel] at h3 h4
          rw [hk, Nat.add_sub_cancel, Nat.succ_mul]
          simp only [opSteps]
          have h7 : k * k ≤ k * (k - 1) + k := by
            cases k with
            | zero => exact Nat.le_refl _
            | succ j => rw [Nat.add_sub_cancel, ← Nat.mul_succ]
          omega
      · exact same fun l hl => old l hl fun e => hin (e ▸ hl)

/-- The number `R` in `C114` cannot be left out: any two different tag lists of the same size are compared with each other.
`L` are tag lists of forms, no two of them the same, all with `n` tags. -/
theorem C114_grows (fo : Str → Bool) (doc : List Xml) (hv : Xml.ValidAll fo [] doc) (hd : Declared (entriesOf doc))
    (m : DocRoom (entriesOf doc)) (n : Nat) (hn : 0 < n) (L : List (List Str))
    (hL : ∀ l ∈ L, l.length = n ∧ ∃ f ∈ allForms (entriesOf doc), f.2 = l) (hp : L.Pairwise fun a b => ¬ a.Perm b) :
    L.length * (L.length - 1) ≤ 2 * (runT fo (PState.init Index.new 0) (Xml.tokensAll doc)).2 := by
  have h1 := runT_ge fo (Xml.tokensAll doc) (PState.init Index.new 0)
  rw [import_calls hv hd m] at h1
  have h2 := calls_grow n hn _ (room_of_doc hd m) L (by
    intro l hl
    obtain ⟨a, f, hf, e⟩ := hL l hl
    refine ⟨a, ?_⟩
    have : f.2 ∈ (dictOf (callsOf (entriesOf doc))).readings.map (·.2) := by
      rw [(callsOf_imp hd m).lists]
      exact List.mem_map.2 ⟨f, hf, rfl⟩
    obtain ⟨x, hx, hxe⟩ := List.mem_map.1 this
    exact ⟨x, hx, hxe.trans e⟩) hp
  omega

/-- And every token of the document, every form and every tag of a form takes at least a step. -/
theorem C114_least (fo : Str → Bool) (doc : List Xml) (hv : Xml.ValidAll fo [] doc) (hd : Declared (entriesOf doc))
    (m : DocRoom (entriesOf doc)) :
    (Xml.tokensAll doc).length + ((allForms (entriesOf doc)).map fun f => 1 + f.2.length).sum ≤
      (runT fo (PState.init Index.new 0) (Xml.tokensAll doc)).2 := by
  have h1 := runT_ge_length fo (Xml.tokensAll doc) (PState.init Index.new 0) (imported hv hd m).1
  rw [import_calls hv hd m] at h1
  unfold formsOwn at h1
  omega

/-! ## The hypotheses can be met -/

/-- Within capacity there are always such sizes. -/
theorem DocRoom.different {es : List Entry} (m : DocRoom es) : DocDifferent es 65535 255 65536 :=
  ⟨m.tagLists, m.perWord, m.sets⟩

/-- In the small document there are two forms with two different tag lists; each form has its own spelling. -/
theorem sampleDoc_different : DocDifferent (entriesOf sampleDoc) 2 1 2 := by
  have e : allForms (entriesOf sampleDoc) = [(str "cat", [str "NOUN", str "sing"]), (str "cats", [str "NOUN", str "plur"])] := by
    rw [sampleDoc_entries]; decide
  have hne : decodeRunes (str "cat") ≠ decodeRunes (str "cats") := by decide
  have key : ∀ F, F <+: allForms (entriesOf sampleDoc) → ∀ w, tagListsOf w F = [] ∨
      tagListsOf w F = [[str "NOUN", str "sing"]] ∨ tagListsOf w F = [[str "NOUN", str "plur"]] := by
    intro F hF w
    rw [e] at hF
    have hF : F = [] ∨ F = [(str "cat", [str "NOUN", str "sing"])] ∨
        F = [(str "cat", [str "NOUN", str "sing"]), (str "cats", [str "NOUN", str "plur"])] := by
      have hl := hF.length_le
      rw [List.prefix_iff_eq_take.1 hF]
      generalize F.length = n at hl
      simp only [List.length_cons, List.length_nil] at hl
      match n, hl with
      | 0, _ => exact .inl rfl
      | 1, _ => exact .inr (.inl rfl)
      | 2, _ => exact .inr (.inr rfl)
    rcases hF with rfl | rfl | rfl
    · exact .inl rfl
    · by_cases h1 : decodeRunes (str "cat") = decodeRunes w
      · exact .inr (.inl (by unfold tagListsOf; rw [List.filter_cons_of_pos (by simpa using h1)]; rfl))
      · exact .inl (by unfold tagListsOf; rw [List.filter_cons_of_neg (by simpa using h1)]; rfl)
    · by_cases h1 : decodeRunes (str "cat") = decodeRunes w
      · have h2 : decodeRunes (str "cats") ≠ decodeRunes w := fun h => hne (h1.trans h.symm)
        exact .inr (.inl (by
          unfold tagListsOf
          rw [List.filter_cons_of_pos (by simpa using h1), List.filter_cons_of_neg (by simpa using h2)]; rfl))
      · by_cases h2 : decodeRunes (str "cats") = decodeRunes w
        · exact .inr (.inr (by
            unfold tagListsOf
            rw [List.filter_cons_of_neg (by simpa using h1), List.filter_cons_of_pos (by simpa using h2)]; rfl))
        · exact .inl (by
            unfold tagListsOf
            rw [List.filter_cons_of_neg (by simpa using h1), List.filter_cons_of_neg (by simpa using h2)]; rfl)
  refine ⟨⟨[[str "NOUN", str "sing"], [str "NOUN", str "plur"]], by decide, ?_⟩, fun w => ?_,
    ⟨[[[str "NOUN", str "sing"]], [[str "NOUN", str "plur"]]], by decide, ?_⟩⟩
  · intro f hf
    rw [e] at hf
    rcases List.mem_cons.1 hf with rfl | hf
    · exact ⟨_, List.mem_cons_self .., List.Perm.refl _⟩
    · rw [List.mem_singleton.1 hf]
      exact ⟨_, List.mem_cons_of_mem _ (List.mem_cons_self ..), List.Perm.refl _⟩
  · rcases key _ (List.prefix_refl _) w with h | h | h
    · exact ⟨[], by decide, fun n hn => by rw [h] at hn; cases hn⟩
    · exact ⟨_, Nat.le_of_eq (by rw [h]; rfl), fun n hn => ⟨n, hn, List.Perm.refl _⟩⟩
    · exact ⟨_, Nat.le_of_eq (by rw [h]; rfl), fun n hn => ⟨n, hn, List.Perm.refl _⟩⟩
  · intro F hF w hw
    have refl : ∀ A : List (List Str), SameSets A A := fun A =>
      ⟨fun a ha => ⟨a, ha, List.Perm.refl _⟩, fun a ha => ⟨a, ha, List.Perm.refl _⟩⟩
    rcases key F hF w with h | h | h
    · exact absurd h hw
    · exact ⟨_, List.mem_cons_self .., h ▸ refl _⟩
    · exact ⟨_, List.mem_cons_of_mem _ (List.mem_cons_self ..), h ▸ refl _⟩

/-- What the theorems say about the small document: the import takes 95 steps, `C114` allows 148. -/
example : (runT (fun _ => true) (PState.init Index.new 0) (Xml.tokensAll sampleDoc)).2 ≤
    documentSize sampleDoc + grammemeCount (entriesOf sampleDoc) * (declaredTags (entriesOf sampleDoc)).length +
      ((allForms (entriesOf sampleDoc)).map (formCost (declaredTags (entriesOf sampleDoc)).length 2 1 2)).sum :=
  (C114 _ sampleDoc sampleDoc_valid sampleDoc_declared sampleDoc_room sampleDoc_different).2

example : (runT (fun _ => true) (PState.init Index.new 0) (Xml.tokensAll sampleDoc)).2 = 95 := by decide +kernel

/-- Its two tag lists are compared. -/
example : 2 * (2 - 1) ≤ 2 * (runT (fun _ => true) (PState.init Index.new 0) (Xml.tokensAll sampleDoc)).2 :=
  C114_grows _ sampleDoc sampleDoc_valid sampleDoc_declared sampleDoc_room 2 (by decide)
    [[str "NOUN", str "sing"], [str "NOUN", str "plur"]] (by rw [sampleDoc_entries]; decide) (by decide)

end Verif
