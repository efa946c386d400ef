import Verif.Props.Delivery

/-!
# Exactly what is answered: empty readings and strings starting with NUL

C10, C44, C62 and C82 except words with an empty reading and strings that start with NUL. Here nothing is excepted: the
theorems say for every word and every string what is answered instead.
-/

namespace Verif

theorem choose_names {α β : Type} {R : α → β → Prop} {A : List α} : ∀ (c : List β), (∀ i ∈ c, ∃ a ∈ A, R a i) →
    ∃ D : List α, (∀ a ∈ D, a ∈ A) ∧ List.Forall₂ R D c
  | [], _ => ⟨[], by simp, .nil⟩
  | i :: c, h => by
    obtain ⟨D, h1, h2⟩ := choose_names c fun j hj => h j (List.mem_cons_of_mem _ hj)
    obtain ⟨a, ha, hr⟩ := h i List.mem_cons_self
    exact ⟨a :: D, by simpa [ha] using h1, .cons hr h2⟩

theorem forall₂_mem_right {α β : Type} {R : α → β → Prop} {D : List α} {c : List β} (h : List.Forall₂ R D c) {i : β}
    (hi : i ∈ c) : ∃ a ∈ D, R a i := by
  induction h with
  | nil => cases hi
  | cons hr _ ih =>
    rcases List.mem_cons.1 hi with rfl | hi
    · exact ⟨_, List.mem_cons_self, hr⟩
    · obtain ⟨a, ha, h⟩ := ih hi
      exact ⟨a, List.mem_cons_of_mem _ ha, h⟩

theorem forall₂_pairwise {α β : Type} {R : α → β → Prop} {P : α → α → Prop}
    (hp : ∀ a b i j, R a i → R b j → P a b → i = j) {D : List α} {c : List β} (h : List.Forall₂ R D c) (hn : c.Nodup) :
    D.Pairwise fun a b => ¬ P a b := by
  induction h with
  | nil => exact .nil
  | @cons a i D c hr ht ih =>
    rw [List.nodup_cons] at hn
    refine .cons ?_ (ih hn.2)
    intro b hb hab
    have : ∀ {D : List α} {c : List β}, List.Forall₂ R D c → b ∈ D → ∃ j ∈ c, R b j := by
      intro D c h
      induction h with
      | nil => intro h; cases h
      | cons hr _ ih =>
        intro hb
        rcases List.mem_cons.1 hb with rfl | hb
        · exact ⟨_, List.mem_cons_self, hr⟩
        · obtain ⟨j, hj, h⟩ := ih hb
          exact ⟨j, List.mem_cons_of_mem _ hj, h⟩
    obtain ⟨j, hj, hrj⟩ := this ht hb
    exact hn.1 (hp a b i j hr hrj hab ▸ hj)

theorem tagSetsLoop_none {ix : Index} {c : Coll} (h0 : ix.tagSets.get 0 = none) (hs : c.Pairwise (· ≤ ·))
    (hm : (0 : TagSetID) ∈ c) : ix.tagSetsLoop c = c.map fun _ => [] := by
  cases c with
  | nil => cases hm
  | cons a rest =>
    have ha : a = 0 := by
      rcases List.mem_cons.1 hm with h | h
      · exact h.symm
      · have hle := (List.pairwise_cons.1 hs).1 0 h
        have hle' : a.toNat ≤ (0 : UInt32).toNat := hle
        have hz : (0 : UInt32).toNat = 0 := rfl
        exact UInt32.toNat_inj.1 (by omega)
    subst ha
    unfold Index.tagSetsLoop
    rw [h0]
    simp only
    rw [List.map_const', List.length_cons]

/-- C10, exactly: what `TagSets` returns for any word, with or without empty readings. -/
theorem C10_exact {h : List Op} {ix : Index} (r : Run h ix) (n : ID) (hn : 1 ≤ n.toNat ∧ n.toNat ≤ ix.nodesCount) :
    ∃ L, ix.tagSetsOf n = .ok L ∧ Shown ix.tags (dictOf h).firstSingle ((dictOf h).attached n.toNat) L := by
  cases hx : (dictOf h).firstSingle with
  | some x => exact C10_shown r n hn x hx
  | none =>
    by_cases hempty : [] ∈ (dictOf h).attached n.toNat
    · have hpos := r.trie.length_pos
      rw [r.trie.nodesCount] at hn
      obtain ⟨c, hs, hnd, hm, he⟩ := tagSetsOf_eq r.refines.1 r.caps (id := n) (by omega) (by omega)
      have hfs := r.firstSet
      rw [hx] at hfs
      have hg : ix.tagSets.get 0 = none := by
        rw [TagSetIndex.get_eq]; exact hfs
      have h0 : (0 : TagSetID) ∈ c := (hm 0).2 ⟨[], hempty, [], rfl, .inl ⟨rfl, rfl⟩⟩
      refine ⟨_, he, fun h => absurd hempty h, fun _ => ?_⟩
      have hne : ∀ a : List Str, a ≠ [] → ∀ i, TSId (dictOf h).tags ix.tagSets a i → i ≠ 0 := by
        rintro a ha i hi rfl
        obtain ⟨_, _, _, _, _, h5⟩ := hi.get r.caps ha
        rw [hg] at h5; cases h5
      have hz : ∀ i, TSId (dictOf h).tags ix.tagSets [] i → i = 0 :=
        fun i hi => hi.unique r.tag.sets ⟨[], rfl, .inl ⟨rfl, rfl⟩⟩
      have hsame : ∀ a b i, TSId (dictOf h).tags ix.tagSets a i → TSId (dictOf h).tags ix.tagSets b i → a.Perm b := by
        intro a b i ha hb
        by_cases h1 : a = []
        · by_cases h2 : b = []
          · rw [h1, h2]
          · subst h1
            exact absurd (hz i ha) (hne b h2 i hb)
        · by_cases h2 : b = []
          · subst h2
            exact absurd (hz i hb) (hne a h1 i ha)
          · exact (entryOf_names r.refines.1 r.caps r.refines.2.tags h1 ha).1.symm.trans
              (entryOf_names r.refines.1 r.caps r.refines.2.tags h2 hb).1
      obtain ⟨D, h1, h2⟩ := choose_names c fun i hi => (hm i).1 hi
      refine ⟨D, ⟨h1, ?_, ?_⟩, ?_⟩
      · intro a ha
        obtain ⟨i, hi⟩ := (r.tag.readings _ a (mem_attached.1 ha)).2.2
        obtain ⟨b, hb, hbi⟩ := forall₂_mem_right h2 ((hm i).2 ⟨a, ha, hi⟩)
        exact ⟨b, hb, hsame a b i hi hbi⟩
      · refine forall₂_pairwise ?_ h2 hnd
        intro a b i j hi hj hab
        exact (hi.perm r.tag.names r.refines.2.tags hab).unique r.tag.sets hj
      · rw [tagSetsLoop_none hg hs h0, List.map_const', List.map_const', h2.length_eq]
    · obtain ⟨L, h1, h2⟩ := C09 r n hn hempty
      exact ⟨L, h1, fun _ => h2, fun h => absurd h hempty⟩

/-! ## From the document -/

/-- The characters looked up for a string in a loaded index: leading NULs are skipped unless some form starts with NUL. -/
def lookedUp (forms : List (Str × List Str)) (w : Str) : List Rune :=
  if ∃ f ∈ forms, (decodeRunes f.1).head? = some 0 then decodeRunes w else (decodeRunes w).dropWhile (· == 0)

/-- The tag lists of the forms with these characters, in document order. -/
def listsSpelled (q : List Rune) (forms : List (Str × List Str)) : List (List Str) :=
  (forms.filter fun f => decodeRunes f.1 = q).map (·.2)

/-- The tag of the first form that has exactly one. -/
def firstOneTag (forms : List (Str × List Str)) : Option Str := forms.findSome? fun f => singleName f.2

/-- What a loaded index answers about a string, in terms of the document alone: nothing is excepted. -/
def ServesExactly (doc : List Xml) (ix : Index) : Prop :=
  ix.tags = declaredTags (entriesOf doc) ∧
  ∀ w, let forms := allForms (entriesOf doc)
    let q := lookedUp forms w
    (w ≠ [] ∧ q = [] → (ix.fetchString w).2 = .ok 0 ∧ ix.tagSetsOf 0 = .panic) ∧
    (w ≠ [] ∧ q ≠ [] ∧ (∃ f ∈ forms, q <+: decodeRunes f.1) → ∃ id L, (ix.fetchString w).2 = .ok id ∧
      ix.tagSetsOf id = .ok L ∧ Shown ix.tags (firstOneTag forms) (listsSpelled q forms) L) ∧
    (w = [] ∨ (q ≠ [] ∧ ¬ ∃ f ∈ forms, q <+: decodeRunes f.1) → ∃ e, (ix.fetchString w).2 = .err e)

/-- The readings of an import are the tag lists of the forms, in document order. -/
theorem imported_first {es : List Entry} (hd : Declared es) (m : DocRoom es) :
    (dictOf (callsOf es ++ [.optimize] ++ [.reload])).firstSingle = firstOneTag (allForms es) := by
  have hl := (callsOf_imp hd m).lists
  have hr := (imported_dict hd m).2.2.1
  unfold Dict.firstSingle firstOneTag
  rw [hr]
  have key : ∀ {α : Type} (l : List (α × List Str)),
      (l.findSome? fun e => singleName e.2) = (l.map (·.2)).findSome? singleName := by
    intro α l
    rw [List.findSome?_map]; rfl
  rw [key, key, hl]

/-- C44, C62, exactly: an index imported from a document within capacity, saved and loaded. -/
theorem imported_exactly {doc : List Xml} (hd : Declared (entriesOf doc)) (m : DocRoom (entriesOf doc))
    {ix : Index} (ht : ix.tags = declaredTags (entriesOf doc))
    (s : Run (callsOf (entriesOf doc) ++ [.optimize] ++ [.reload]) ix) : ServesExactly doc ix := by
  refine ⟨ht, ?_⟩
  intro w forms q
  have hi := callsOf_imp hd m
  obtain ⟨_, hnodes, _, hat⟩ := imported_dict hd m
  have hnul : ([0] ∈ (dictOf (callsOf (entriesOf doc))).nodes) ↔ ∃ f ∈ forms, (decodeRunes f.1).head? = some 0 := by
    rw [hi.nodes]
    constructor
    · rintro (h | ⟨v, hv, hp⟩)
      · cases h
      · obtain ⟨f, hf, rfl⟩ := List.mem_map.1 hv
        obtain ⟨t, ht⟩ := hp
        exact ⟨f, hf, by rw [← ht]; rfl⟩
    · rintro ⟨f, hf, hh⟩
      refine .inr ⟨_, List.mem_map.2 ⟨f, hf, rfl⟩, ?_⟩
      cases hc : decodeRunes f.1 with
      | nil => rw [hc] at hh; cases hh
      | cons a l => rw [hc] at hh; cases hh; exact ⟨l, rfl⟩
  have hq : (if [0] ∈ (dictOf (callsOf (entriesOf doc) ++ [.optimize])).nodes then decodeRunes w
      else (decodeRunes w).dropWhile (· == 0)) = q := by
    rw [show (dictOf (callsOf (entriesOf doc) ++ [.optimize])).nodes = (dictOf (callsOf (entriesOf doc))).nodes by
      rw [dictOf_append]; rfl]
    show _ = lookedUp forms w
    unfold lookedUp
    by_cases hz : [0] ∈ (dictOf (callsOf (entriesOf doc))).nodes
    · rw [if_pos hz, if_pos (hnul.1 hz)]
    · rw [if_neg hz, if_neg (fun h => hz (hnul.2 h))]
  have hfound : ∀ id, (ix.fetchString w).2 = .ok id ↔
      w ≠ [] ∧ (dictOf (callsOf (entriesOf doc))).nodes[id.toNat]? = some q := by
    intro id
    unfold Index.fetchString
    rw [C18_exact s, hq, Ne, C50_empty]
    rw [show (dictOf (callsOf (entriesOf doc) ++ [.optimize])).nodes = (dictOf (callsOf (entriesOf doc))).nodes by
      rw [dictOf_append]; rfl]
  have herr : (∃ id, (ix.fetchString w).2 = .ok id) ∨ ∃ e, (ix.fetchString w).2 = .err e :=
    s.trie.fetch_err 0 (decodeRunes w)
  have hmem : ∀ id : ID, (dictOf (callsOf (entriesOf doc))).nodes[id.toNat]? = some q → q ≠ [] →
      ∃ f ∈ forms, q <+: decodeRunes f.1 := by
    intro id hid hne
    rcases (hi.nodes q).1 (List.mem_of_getElem? hid) with h | ⟨v, hv, hp⟩
    · exact absurd h hne
    · obtain ⟨f, hf, rfl⟩ := List.mem_map.1 hv
      exact ⟨f, hf, hp⟩
  refine ⟨?_, ?_, ?_⟩
  · rintro ⟨hw, hq0⟩
    refine ⟨(hfound 0).2 ⟨hw, ?_⟩, ?_⟩
    · rw [hq0]; exact hi.root
    · unfold Index.tagSetsOf
      rw [s.trie.items_get_none (by simp)]
  · rintro ⟨hw, hne, f, hf, hp⟩
    have hmq : q ∈ (dictOf (callsOf (entriesOf doc))).nodes := (hi.nodes q).2 (.inr ⟨_, List.mem_map.2 ⟨f, hf, rfl⟩, hp⟩)
    obtain ⟨id, hid⟩ := s.trie.exists_id (w := q) (by rw [hnodes]; exact hmq)
    have hid' := hid
    rw [hnodes] at hid'
    have hlt := (List.getElem?_eq_some_iff.1 hid).1
    have h1 : 1 ≤ id.toNat ∧ id.toNat ≤ ix.nodesCount := by
      rw [s.trie.nodesCount]
      refine ⟨?_, by omega⟩
      rcases Nat.eq_zero_or_pos id.toNat with h0 | h0
      · rw [h0, hi.root] at hid'
        exact absurd (Option.some.inj hid').symm hne
      · exact h0
    obtain ⟨L, l1, l2⟩ := C10_exact s id h1
    rw [hat id.toNat q hid, imported_first hd m] at l2
    exact ⟨id, L, (hfound id).2 ⟨hw, hid'⟩, l1, l2⟩
  · intro h
    rcases herr with ⟨id, hid⟩ | he
    · obtain ⟨hw, hn⟩ := (hfound id).1 hid
      rcases h with h | ⟨hne, hno⟩
      · exact absurd h hw
      · exact absurd (hmem id hn hne) hno
    · exact he

/-- C44, exactly: a document of the format with declared tags within capacity is imported, optimized, saved and loaded
without an error, and the loaded index answers every string as said by `ServesExactly`. -/
theorem C44_exact (fo : Str → Bool) (doc : List Xml) (hv : Xml.ValidAll fo [] doc) (hd : Declared (entriesOf doc))
    (m : DocRoom (entriesOf doc)) :
    let r := PState.run fo (PState.init Index.new 0) (Xml.tokensAll doc)
    r.2 = none ∧ r.1.ix.optimize.2 = .ok () ∧ r.1.ix.optimize.1.save.err = none ∧
    ∃ ix, Index.new.load r.1.ix.optimize.1.save.bytes = .ok (ix, []) ∧ ServesExactly doc ix := by
  intro r
  obtain ⟨h1, h2, h3, ix, h4, h5, s⟩ := imported hv hd m
  exact ⟨h1, h2, h3, ix, h4, imported_exactly hd m h5 s⟩

/-- C62, exactly: the same for a whole update. -/
theorem C62_exact (env : Env) (force : Bool) (w : World) (hc : env.Calm)
    (hreq : ∀ v, v.fs = w.fs → (isUpdateRequired env v).1 = .ok true)
    (body xml : Str) (hget : ∀ n, env.get n = .answer 200 body true) (hbz : env.bunzip body = (xml, true))
    (doc : List Xml) (htok : env.tokens xml = (Xml.tokensAll doc, true))
    (hv : Xml.ValidAll env.floatOK [] doc) (hd : Declared (entriesOf doc)) (m : DocRoom (entriesOf doc)) :
    ∃ w' ix, update ⟨true⟩ env force w = (.ok (), w') ∧
      w'.ev = w.ev ++ [.downloaded true, .unpacked true, .compiled true] ∧ LoadsTo w'.fs ix ∧ ServesExactly doc ix := by
  obtain ⟨p1, p2, p3, ix, p4, p5⟩ := C44_exact env.floatOK doc hv hd m
  obtain ⟨w', h1, h2, h3⟩ := update_loads env force w hc hreq body xml hget hbz doc htok ix p1 p2 p3 p4
  exact ⟨w', ix, h1, h2, h3, p5⟩

/-! ## On the screen -/

/-- The line consists of NULs only, and no form starts with NUL. -/
def NulOnly (doc : List Xml) (line : Str) : Prop := line ≠ [] ∧ lookedUp (allForms (entriesOf doc)) line = []

instance (line : Str) : Decidable (IsSearch line) := by unfold IsSearch; infer_instance

instance (doc : List Xml) (line : Str) : Decidable (NulOnly doc line) := by unfold NulOnly; infer_instance

/-- What is shown for a line that is no command, in terms of the document. -/
def SaidExactly (doc : List Xml) (line : Str) (reply : Reply) : Prop :=
  let forms := allForms (entriesOf doc)
  let q := lookedUp forms line
  ((line ≠ [] ∧ ∃ f ∈ forms, q <+: decodeRunes f.1) →
    ∃ L, Shown (declaredTags (entriesOf doc)) (firstOneTag forms) (listsSpelled q forms) L ∧
      reply = if L = [] then .empty else .readings L) ∧
  (¬ (line ≠ [] ∧ ∃ f ∈ forms, q <+: decodeRunes f.1) → reply = .notFound)

theorem search_lines {lib : Lib} {ix : Index} {line : Str} (hc : IsSearch line) :
    processInput lib none ix line = processSearch ix line := by
  unfold IsSearch firstWord commands at hc
  simp only [List.mem_cons, List.not_mem_nil, or_false, not_or] at hc
  unfold processInput
  simp only
  rw [if_neg (by tauto), if_neg (by tauto), if_neg (by tauto), if_neg (by tauto), if_neg (by tauto),
    if_neg (by tauto)]

/-- The answer to a line: a crash or the reply. -/
theorem search_exactly {doc : List Xml} {ix : Index} (hs : ServesExactly doc ix) (lib : Lib) (line : Str) (hc : IsSearch line) :
    (NulOnly doc line → (processInput lib none ix line).2 = .panic) ∧
    (¬ NulOnly doc line → ∃ reply, (processInput lib none ix line).2 = .ok reply ∧ (∀ c, reply ≠ .exit c) ∧
      SaidExactly doc line reply) := by
  obtain ⟨h1, h2, h3⟩ := hs.2 line
  have o : Index.Obs ix (ix.fetchString line).1 := fetchFromItem_obs ix 0 (decodeRunes line)
  have ho := (SameAnswers.of_obs o).tagSets
  rw [search_lines hc]
  unfold processSearch SaidExactly
  unfold NulOnly
  generalize ix.fetchString line = x at *
  obtain ⟨b, res⟩ := x
  simp only at *
  constructor
  · intro hn
    obtain ⟨rfl, hp⟩ := h1 hn
    simp only [ho, hp]; rfl
  · intro hn
    by_cases hf : line ≠ [] ∧ ∃ f ∈ allForms (entriesOf doc), lookedUp (allForms (entriesOf doc)) line <+: decodeRunes f.1
    · have hq : lookedUp (allForms (entriesOf doc)) line ≠ [] := fun h => hn ⟨hf.1, h⟩
      obtain ⟨id, L, rfl, hL, hsh⟩ := h2 ⟨hf.1, hq, hf.2⟩
      refine ⟨if L = [] then .empty else .readings L, ?_, ?_, fun _ => ⟨L, by rw [← hs.1]; exact hsh, rfl⟩,
        fun h => absurd hf h⟩
      · show (b.tagSetsOf id).bind _ = _
        rw [ho, hL]
        simp only [Out.bind_ok, List.length_eq_zero_iff]
      · intro c h; split at h <;> cases h
    · have : line = [] ∨ (lookedUp (allForms (entriesOf doc)) line ≠ [] ∧
          ¬ ∃ f ∈ allForms (entriesOf doc), lookedUp (allForms (entriesOf doc)) line <+: decodeRunes f.1) := by
        by_cases hl : line = []
        · exact .inl hl
        · exact .inr ⟨fun h => hn ⟨hl, h⟩, fun h => hf ⟨hl, h⟩⟩
      obtain ⟨e, rfl⟩ := h3 this
      exact ⟨.notFound, rfl, (fun c h => by cases h), fun h => absurd h hf, fun _ => rfl⟩

/-- A session of searches and reloads answers the lines up to the first one of NULs only, where it crashes. -/
theorem session_exactly {doc : List Xml} {ix : Index} (hs : ServesExactly doc ix) (lib : Lib) :
    ∀ (lines : List (Str × Option Index)) (jx : Index), Index.Obs ix jx →
    (∀ l ∈ lines, (IsReload l.1 ∧ l.2 = some ix) ∨ IsSearch l.1) →
    (toolLoop lib jx lines).1.length = (lines.takeWhile fun l => ¬ (IsSearch l.1 ∧ NulOnly doc l.1)).length ∧
    (toolLoop lib jx lines).2 = if ∃ l ∈ lines, IsSearch l.1 ∧ NulOnly doc l.1 then .crash else .exit 0
  | [], _, _, _ => ⟨rfl, rfl⟩
  | (line, disk) :: rest, jx, ho, h => by
    have ih := fun kx (hk : Index.Obs ix kx) => session_exactly hs lib rest kx hk
      fun l hl => h l (List.mem_cons_of_mem _ hl)
    rcases h (line, disk) List.mem_cons_self with ⟨hr, hdisk⟩ | hc
    · simp only at hr hdisk
      have hns : ¬ IsSearch line := by
        intro hc; apply hc
        rcases hr with hr | hr <;> rw [hr] <;> decide
      have e : processInput lib disk jx line = (ix, .ok .reloaded) := by
        rw [hdisk]
        unfold IsReload firstWord at hr
        unfold processInput
        simp only
        rcases hr with hr | hr <;> rw [hr] <;> rfl
      rw [toolLoop, e]
      obtain ⟨h1, h2⟩ := ih ix (.refl ix)
      simp only [List.takeWhile_cons, hns, false_and, not_false_eq_true, decide_true, if_true, List.length_cons, h1, h2,
        List.mem_cons, exists_eq_or_imp, false_or, and_self]
    · simp only at hc
      have hr : ¬ IsReload line := by
        intro hr
        apply hc
        rcases hr with hr | hr <;> rw [hr] <;> decide
      have h2 : processInput lib disk jx line = processInput lib none jx line := processInput_disk hr
      have h3 := processInput_congr ho lib none line
      have h4 := ho.trans (processInput_keeps (lib := lib) (line := line))
      obtain ⟨h5, h6⟩ := search_exactly hs lib line hc
      rw [← h3] at h5 h6
      rw [toolLoop, h2]
      generalize processInput lib none jx line = y at *
      obtain ⟨kx, o⟩ := y
      simp only at h5 h6
      by_cases hn : NulOnly doc line
      · have := h5 hn
        subst this
        simp [hc, hn]
      · obtain ⟨reply, rfl, h7, _⟩ := h6 hn
        obtain ⟨h8, h9⟩ := ih kx h4
        cases reply with
        | exit c => exact absurd rfl (h7 c)
        | _ =>
          simp only [List.takeWhile_cons, hn, and_false, not_false_eq_true, decide_true, if_true, List.length_cons, h8, h9,
            List.mem_cons, exists_eq_or_imp, false_or, and_self]

/-- C82, exactly (lines that are commands excepted): every search of a session is answered as `SaidExactly` says, and the tool
crashes at the first line of NULs only (if no form starts with NUL). -/
theorem C82_exact (args : List Str) (ss : List (FlagName × Bool)) (ha : Accepted args ss)
    (hh : lastSetting .h false ss = false) (env : Env) (w : World) (hc : env.Calm)
    (hreq : ∀ v, v.fs = w.fs → (isUpdateRequired env v).1 = .ok true)
    (body xml : Str) (hget : ∀ n, env.get n = .answer 200 body true) (hbz : env.bunzip body = (xml, true))
    (doc : List Xml) (htok : env.tokens xml = (Xml.tokensAll doc, true))
    (hv : Xml.ValidAll env.floatOK [] doc) (hd : Declared (entriesOf doc)) (m : DocRoom (entriesOf doc)) :
    ∃ w' ix, updateMain args true env w = (0, w') ∧ LoadsTo w'.fs ix ∧
      ∀ (lib : Lib) (lines : List (Str × Option Index)), (∀ l ∈ lines, IsReload l.1 → l.2 = some ix) →
        (∀ (i : Nat) (l : Str × Option Index) (reply : Reply), lines[i]? = some l →
          (toolMain lib (some ix) lines).1[i]? = some reply → IsSearch l.1 →
          ¬ NulOnly doc l.1 ∧ SaidExactly doc l.1 reply) ∧
        ((∀ l ∈ lines, IsReload l.1 ∨ IsSearch l.1) →
          (toolMain lib (some ix) lines).1.length = (lines.takeWhile fun l => ¬ (IsSearch l.1 ∧ NulOnly doc l.1)).length ∧
          (toolMain lib (some ix) lines).2 = if ∃ l ∈ lines, IsSearch l.1 ∧ NulOnly doc l.1 then .crash else .exit 0) := by
  obtain ⟨w', ix, hu, _, hl, hs⟩ := C62_exact env (lastSetting .f true ss) w hc hreq body xml hget hbz doc htok hv hd m
  refine ⟨w', ix, ?_, hl, ?_⟩
  · have hp := parse_values (f := Flags.default) (g := ⟨lastSetting .f true ss, lastSetting .d false ss,
      lastSetting .h false ss⟩) |>.2 ⟨ss, ha, rfl, rfl, rfl⟩
    unfold updateMain
    rw [hp, hh]
    simp only [Bool.false_eq_true, if_false, Bool.not_true]
    rw [hu]
  · intro lib lines hrel
    refine ⟨?_, ?_⟩
    · intro i l reply hi hrep h1
      have hr : ¬ IsReload l.1 := by
        intro hr
        apply h1
        rcases hr with hr | hr <;> rw [hr] <;> decide
      obtain ⟨h2, h3⟩ := search_exactly hs lib l.1 h1
      have hrs := session_replies lib ix lines ix (.refl ix) hrel i l reply hi hr hrep
      by_cases hn : NulOnly doc l.1
      · rw [h2 hn] at hrs
        rcases hrs with h | ⟨e, h, _⟩ <;> cases h
      · obtain ⟨p, hp, -, hsaid⟩ := h3 hn
        rcases hrs with h | ⟨e, h, _⟩
        · rw [hp] at h
          rw [← Out.ok.inj h]; exact ⟨hn, hsaid⟩
        · rw [hp] at h; cases h
    · intro h
      refine session_exactly hs lib lines ix (.refl ix) ?_
      intro l hm
      rcases h l hm with h' | h'
      · exact .inl ⟨h', hrel l hm h'⟩
      · exact .inr h'

/-! ## Instances -/

/-- `C10_exact` on the histories of `Props/EmptyReading.lean`: a foreign tag is shown, or nothing at all. -/
example : Run emptyForeign (execAll emptyForeign) ∧ (dictOf emptyForeign).firstSingle = some (str "NOUN") ∧
    (dictOf emptyForeign).attached 2 = [[]] ∧ Run emptyHides (execAll emptyHides) ∧
    (dictOf emptyHides).firstSingle = none ∧ [] ∈ (dictOf emptyHides).attached 1 :=
  ⟨small_runs _ (by decide), by decide, by decide, small_runs _ (by decide), by decide, by decide⟩

/-- What `ServesExactly` says about the sample document and strings that start with NUL: `"\x00cat"` is looked up as `cat`, and
a line of NULs only is found at the root, whose readings cannot be shown. -/
example : lookedUp (allForms (entriesOf sampleDoc)) (0 :: str "cat") = decodeRunes (str "cat") ∧
    NulOnly sampleDoc [0] ∧ IsSearch [0] ∧ ¬ NulOnly sampleDoc (str "cat") := by decide

/-- What it says about the document with a form `a` without tags: its only reading is the noun of `b`. -/
example (ix : Index) (hs : ServesExactly untaggedDoc ix) : ∃ id L, (ix.fetchString (str "a")).2 = .ok id ∧
    ix.tagSetsOf id = .ok L ∧ ExactReadings ix.tags [[str "NOUN"]] L := by
  have h := (hs.2 (str "a")).2.1 (by decide)
  have e1 : firstOneTag (allForms (entriesOf untaggedDoc)) = some (str "NOUN") := by decide
  have e2 : listsSpelled (lookedUp (allForms (entriesOf untaggedDoc)) (str "a")) (allForms (entriesOf untaggedDoc)) = [[]] := by
    decide
  rw [e1, e2] at h
  exact h

/-- The update and a session of three lines, of which the second crashes the tool. -/
example (lib : Lib) : ∃ w' ix, updateMain [str "-f"] true (quietEnv (str "bz") 10 (fun n => 100 + n)
      (fun _ => (str "xml", true)) (fun _ => (Xml.tokensAll sampleDoc, true))) emptyWorld = (0, w') ∧ LoadsTo w'.fs ix ∧
    (toolMain lib (some ix) [(str "cat", none), ([0], none), (str "dog", none)]).1.length = 1 ∧
    (toolMain lib (some ix) [(str "cat", none), ([0], none), (str "dog", none)]).2 = .crash := by
  obtain ⟨w', ix, h1, h2, h3⟩ := C82_exact [str "-f"] [(.f, true)]
    (.cons _ _ _ _ _ ⟨str "-", by simp, .inl ⟨rfl, rfl⟩⟩ .nil) rfl
    (quietEnv (str "bz") 10 (fun n => 100 + n) (fun _ => (str "xml", true)) (fun _ => (Xml.tokensAll sampleDoc, true)))
    emptyWorld (quietEnv_calm _ _ _ _ _)
    (by intro v hv; unfold isUpdateRequired statFile; rw [hv]; rfl) (str "bz") (str "xml") (fun _ => rfl) rfl
    sampleDoc rfl sampleDoc_valid sampleDoc_declared sampleDoc_room
  have a1 : IsSearch (str "cat") ∧ ¬ NulOnly sampleDoc (str "cat") := by decide
  have a2 : IsSearch [0] ∧ NulOnly sampleDoc [0] := by decide
  have a3 : IsSearch (str "dog") := by decide
  have hr : ∀ {l : Str}, IsSearch l → ¬ IsReload l := by
    intro l hc hr; apply hc
    rcases hr with hr | hr <;> rw [hr] <;> decide
  obtain ⟨-, h5⟩ := h3 lib [(str "cat", none), ([0], none), (str "dog", none)] (by
    intro l hl h
    simp only [List.mem_cons, List.not_mem_nil, or_false] at hl
    rcases hl with rfl | rfl | rfl
    · exact absurd h (hr a1.1)
    · exact absurd h (hr a2.1)
    · exact absurd h (hr a3))
  obtain ⟨h6, h7⟩ := h5 (by
    intro l hl
    simp only [List.mem_cons, List.not_mem_nil, or_false] at hl
    rcases hl with rfl | rfl | rfl
    · exact .inr a1.1
    · exact .inr a2.1
    · exact .inr a3)
  refine ⟨w', ix, h1, h2, ?_, ?_⟩
  · rw [h6]; simp [a1, a2]
  · rw [h7]; simp [a2]

end Verif
