import Verif.Lemmas.Output
import Verif.Props.Printed
import Verif.Props.Tool

/-! # C97 — a transcript of the interactive tool says what was shown -/

namespace Verif

/-! ## What a command writes is the text of what it shows -/

/-- A reply that is only logged. -/
def OnlyLogged : Out Reply → Prop
  | .ok (.node ..) => False
  | .ok (.tagSet _) => False
  | .ok (.variants _) => False
  | _ => True

theorem shownBy_logged {lib : Lib} {disk : Option Index} {ix : Index} {line : Str}
    (h : OnlyLogged (processInput lib disk ix line).2) : shownBy lib disk ix line = .nothing := by
  unfold shownBy
  generalize (processInput lib disk ix line).2 = x at *
  cases x with
  | ok y => cases y <;> first | rfl | exact False.elim h
  | err e => rfl
  | panic => rfl
  | diverge => rfl

theorem OnlyLogged.bind {α : Type} {x : Out α} {f : α → Reply} (hf : ∀ a, OnlyLogged (.ok (f a))) :
    OnlyLogged (x.bind fun a => .ok (f a)) := by
  cases x with
  | ok a => exact hf a
  | err e => trivial
  | panic => trivial
  | diverge => trivial

theorem processTag_logged (lib : Lib) (ix : Index) (items : List Str) : OnlyLogged (processTag lib ix items) := by
  unfold processTag
  split
  · split
    · trivial
    · split
      · split <;> trivial
      · split
        · trivial
        · exact OnlyLogged.bind fun _ => trivial
  · trivial

theorem processSearch_logged (ix : Index) (line : Str) : OnlyLogged (processSearch ix line).2 := by
  unfold processSearch
  split
  · exact OnlyLogged.bind fun _ => by split <;> trivial
  · trivial
  · trivial
  · trivial

theorem processNode_kinds (ix : Index) (items : List Str) : (∀ names, (processNode ix items).2 ≠ .ok (.tagSet names)) ∧
    ∀ sets, (processNode ix items).2 ≠ .ok (.variants sets) := by
  have sn : ∀ (ix : Index) (id : ID), (∀ names, (showNode ix id).2 ≠ .ok (.tagSet names)) ∧
      ∀ sets, (showNode ix id).2 ≠ .ok (.variants sets) := by
    intro ix id
    unfold showNode
    split
    · split
      · split <;> simp
      · simp
    · simp
    · simp
  unfold processNode
  split
  · split
    · simp
    · split
      · simp
      · split
        · split
          · split
            · exact sn _ _
            · simp
          · simp
          · simp
          · simp
        · split
          · simp
          · split
            · exact sn _ _
            · simp
  · simp

theorem getD_map_some (l : List Str) : (l.map some).map (·.getD []) = l := by
  rw [List.map_map]
  conv => rhs; rw [← List.map_id l]
  rfl

/-- All tags of a stored set are registered. -/
theorem set_tags {h : List Op} {ix : Index} (r : Run h ix) {id : TagSetID} {ts : TagSet} (hg : ix.tagSets.get id = some ts) :
    ∀ t ∈ ts, ∃ tag ∈ ix.tags, tagsGet ix.tags t = some tag := by
  intro t ht
  rw [TagSetIndex.get_eq] at hg
  have hlt := r.tag.setIds _ _ hg t ht
  rw [← r.tag.tags] at hlt
  exact ⟨_, List.getElem_mem hlt, by rw [tagsGet_eq, List.getElem?_eq_getElem hlt]⟩

theorem set_names {h : List Op} {ix : Index} (r : Run h ix) {id : TagSetID} {ts : TagSet} (hg : ix.tagSets.get id = some ts) :
    ts.map (setName ix.tags) = (shownTags ix ts).map (·.getD []) ∧ ts.map (varName ix.tags) = (shownTags ix ts).map (·.getD []) := by
  unfold shownTags
  rw [List.map_map]
  constructor <;>
  · apply List.map_congr_left
    intro t ht
    obtain ⟨tag, -, e⟩ := set_tags r hg t ht
    simp [setName, varName, e]

theorem varLines_eq {h : List Op} {ix : Index} (r : Run h ix) (s : Str) : ∀ (c : Coll) (i : Nat),
    varLines ix i c ++ s = setLines i (c.map fun id => (id, ((ix.tagSets.get id).map (shownTags ix)).map fun names => names.map (·.getD []))) ++ s
  | [], _ => rfl
  | id :: c, i => by
    have ih := varLines_eq r s c (i + 1)
    unfold varLines
    rw [List.map_cons]
    unfold setLines setLine varSet
    have e1 : str "\n- " = 0x0a :: str "- " := by decide
    simp only [e1, List.append_assoc, List.cons_append]
    rw [ih]
    cases hg : ix.tagSets.get id with
    | none => rfl
    | some ts =>
      simp only [Option.map_some, List.append_assoc]
      rw [(set_names r hg).2]

theorem lineOutput_eq {h : List Op} {ix : Index} (r : Run h ix) (lib : Lib) (disk : Option Index)
    (order : IdMap → List (Rune × ID)) (line : Str) :
    lineOutput lib order ix line = (shownBy lib disk ix line).text order := by
  have quiet : OnlyLogged (processInput lib disk ix line).2 → ([] : Str) ++ str "\n" = (shownBy lib disk ix line).text order := by
    intro hq
    rw [shownBy_logged hq]
    rfl
  unfold lineOutput
  simp only
  by_cases h1 : (splitSpaces line).headD [] = str "tag" ∨ (splitSpaces line).headD [] = str "t"
  · rw [if_pos h1]
    apply quiet
    unfold processInput
    simp only
    rw [if_pos h1]
    exact processTag_logged _ _ _
  rw [if_neg h1]
  by_cases h2 : (splitSpaces line).headD [] = str "set" ∨ (splitSpaces line).headD [] = str "s"
  · rw [if_pos h2]
    have hp : (processInput lib disk ix line).2 = processSet lib ix (splitSpaces line) := by
      unfold processInput
      simp only
      rw [if_neg h1, if_pos h2]
    cases hi : splitSpaces line with
    | nil =>
      apply quiet
      rw [hp, hi]
      trivial
    | cons c rest =>
      cases rest with
      | nil =>
        apply quiet
        rw [hp, hi]
        trivial
      | cons sub rest =>
        unfold setOutput
        simp only
        by_cases t1 : sub = str "tables"
        · rw [if_pos t1]
          apply quiet
          rw [hp, hi]
          unfold processSet
          simp only
          rw [if_pos t1]
          trivial
        rw [if_neg t1]
        by_cases t2 : sub = str "table"
        · rw [if_pos t2]
          apply quiet
          rw [hp, hi]
          unfold processSet
          simp only
          rw [if_neg t1, if_pos t2]
          split
          · split
            · trivial
            · split
              · trivial
              · exact OnlyLogged.bind fun _ => trivial
          · trivial
        rw [if_neg t2]
        cases hn : lib.parseInt sub with
        | none =>
          apply quiet
          rw [hp, hi]
          unfold processSet
          simp only
          rw [if_neg t1, if_neg t2, hn]
          trivial
        | some n =>
          simp only
          cases hg : ix.tagSets.get (toU32 n) with
          | none =>
            apply quiet
            rw [hp, hi]
            unfold processSet
            simp only
            rw [if_neg t1, if_neg t2, hn]
            simp only
            rw [hg]
            trivial
          | some ts =>
            have e : (processInput lib disk ix line).2 = .ok (.tagSet (shownTags ix ts)) := by
              rw [hp, hi]
              unfold processSet
              simp only
              rw [if_neg t1, if_neg t2, hn]
              simp only
              rw [hg]
            unfold shownBy
            rw [e, hi]
            simp only [List.getD_cons_succ, List.getD_cons_zero, hn, Option.getD_some]
            unfold setText Screen.text
            rw [(set_names r hg).1]
            simp only [List.append_assoc]
  rw [if_neg h2]
  by_cases h3 : (splitSpaces line).headD [] = str "node" ∨ (splitSpaces line).headD [] = str "n"
  · rw [if_pos h3]
    have hp : (processInput lib disk ix line).2 = (processNode ix (splitSpaces line)).2 := by
      unfold processInput
      simp only
      rw [if_neg h1, if_neg h2, if_pos h3]
    unfold nodeOutput shownBy
    rw [hp]
    have no := processNode_kinds ix (splitSpaces line)
    generalize (processNode ix (splitSpaces line)).2 = x at *
    cases x with
    | err e => rfl
    | panic => rfl
    | diverge => rfl
    | ok y =>
      cases y with
      | node id w it L m =>
        simp only
        unfold Screen.text nodeText
        have hL : ∀ (L : List (List Tag)) (i : Nat),
            readingLines i L = readingLines i ((L.map fun t => t.map (·.name)).map fun t => t.map fun n => ⟨[], n⟩) := by
          intro L
          induction L with
          | nil => intro i; rfl
          | cons t L ih =>
            intro i
            rw [List.map_cons, List.map_cons]
            unfold readingLines readingLine
            rw [ih (i + 1)]
            simp [List.map_map, Function.comp_def]
        unfold variantsText
        rw [hL L 0]
      | tagSet names => exact absurd rfl (no.1 names)
      | variants sets => exact absurd rfl (no.2 sets)
      | _ => rfl
  rw [if_neg h3]
  by_cases h4 : (splitSpaces line).headD [] = str "var" ∨ (splitSpaces line).headD [] = str "v"
  · rw [if_pos h4]
    have hp : (processInput lib disk ix line).2 = processVar lib ix (splitSpaces line) := by
      unfold processInput
      simp only
      rw [if_neg h1, if_neg h2, if_neg h3, if_pos h4]
    cases hi : splitSpaces line with
    | nil =>
      apply quiet
      rw [hp, hi]
      trivial
    | cons c rest =>
      cases rest with
      | nil =>
        apply quiet
        rw [hp, hi]
        trivial
      | cons sub rest =>
        unfold varOutput
        simp only
        cases hn : lib.parseUint sub with
        | none =>
          apply quiet
          rw [hp, hi]
          unfold processVar
          simp only
          rw [hn]
          trivial
        | some v =>
          simp only
          cases hg : ix.variants v with
          | ok c =>
            have e : (processInput lib disk ix line).2 =
                .ok (.variants (c.map fun id => (id, (ix.tagSets.get id).map (shownTags ix)))) := by
              rw [hp, hi]
              unfold processVar
              simp only
              rw [hn]
              simp only
              rw [hg]
              rfl
            unfold shownBy
            rw [e, hi]
            simp only [List.getD_cons_succ, List.getD_cons_zero, hn, Option.getD_some]
            unfold varText Screen.text
            simp only [List.append_assoc, List.map_map]
            rw [varLines_eq r]
            rfl
          | err e => apply quiet; rw [hp, hi]; unfold processVar; simp only; rw [hn]; simp only; rw [hg]; trivial
          | panic => apply quiet; rw [hp, hi]; unfold processVar; simp only; rw [hn]; simp only; rw [hg]; trivial
          | diverge => apply quiet; rw [hp, hi]; unfold processVar; simp only; rw [hn]; simp only; rw [hg]; trivial
  rw [if_neg h4]
  apply quiet
  unfold processInput
  simp only
  rw [if_neg h1, if_neg h2, if_neg h3, if_neg h4]
  split
  · split <;> trivial
  · split
    · trivial
    · exact processSearch_logged _ _

theorem lineOutput_congr {ix ix' : Index} (h : Index.Obs ix ix') (lib : Lib) (order : IdMap → List (Rune × ID)) (line : Str) :
    lineOutput lib order ix' line = lineOutput lib order ix line := by
  have e1 : setOutput lib ix' = setOutput lib ix := by funext items; unfold setOutput; rw [h.tagSets, h.tags]
  have e2 : ∀ c i, varLines ix' i c = varLines ix i c := by
    intro c
    induction c with
    | nil => intro i; rfl
    | cons id c ih => intro i; unfold varLines varSet; rw [ih, h.tagSets, h.tags]
  have e3 : varOutput lib ix' = varOutput lib ix := by
    funext items
    unfold varOutput varText Index.variants
    rw [h.collectionIdx]
    simp only [e2]
  have e4 : nodeOutput order ix' = nodeOutput order ix := by funext items; unfold nodeOutput; rw [processNode_congr h]
  unfold lineOutput
  rw [e1, e3, e4]

theorem shownBy_congr {ix ix' : Index} (h : Index.Obs ix ix') (lib : Lib) (disk : Option Index) (line : Str) :
    shownBy lib disk ix' line = shownBy lib disk ix line := by
  unfold shownBy
  rw [processInput_congr h]

/-! ## C97 -/

/-- An index reached by calls of the interface, all of whose tags have names of four bytes without a line end, and no word of
which contains a line end. -/
def Readable (ix : Index) : Prop :=
  (∃ h, Run h ix) ∧ (∀ t ∈ ix.tags, t.name.length = 4 ∧ (0x0a : UInt8) ∉ t.name) ∧
  ∀ id w, ix.word id = .ok w → (0x0a : UInt8) ∉ w

theorem shownTags_plain {h : List Op} {ix : Index} (r : Run h ix)
    (hn : ∀ t ∈ ix.tags, t.name.length = 4 ∧ (0x0a : UInt8) ∉ t.name) {id : TagSetID} {ts : TagSet}
    (hg : ix.tagSets.get id = some ts) : ∀ n ∈ (shownTags ix ts).map (·.getD []), OneLineName n := by
  intro n h
  unfold shownTags at h
  rw [List.map_map] at h
  obtain ⟨t, ht, rfl⟩ := List.mem_map.1 h
  obtain ⟨tag, hm, e⟩ := set_tags r hg t ht
  simp only [Function.comp_apply, e, Option.map_some, Option.getD_some]
  exact hn tag hm

theorem processInput_kinds {lib : Lib} {disk : Option Index} {ix : Index} {line : Str} :
    (∀ names, (processInput lib disk ix line).2 = .ok (.tagSet names) →
      ∃ id ts, ix.tagSets.get id = some ts ∧ names = shownTags ix ts) ∧
    (∀ sets, (processInput lib disk ix line).2 = .ok (.variants sets) →
      ∃ c : Coll, sets = c.map fun id => (id, (ix.tagSets.get id).map (shownTags ix))) := by
  have nl : ∀ {x : Out Reply}, OnlyLogged x → (∀ names, x = .ok (.tagSet names) →
      ∃ id ts, ix.tagSets.get id = some ts ∧ names = shownTags ix ts) ∧
      (∀ sets, x = .ok (.variants sets) → ∃ c : Coll, sets = c.map fun id => (id, (ix.tagSets.get id).map (shownTags ix))) := by
    intro x hx
    constructor
    · rintro names rfl; exact False.elim hx
    · rintro sets rfl; exact False.elim hx
  unfold processInput
  simp only
  split
  · exact nl (processTag_logged _ _ _)
  split
  · unfold processSet
    split
    · split
      · exact nl trivial
      · split
        · split
          · split
            · exact nl trivial
            · split
              · exact nl trivial
              · exact nl (OnlyLogged.bind fun _ => trivial)
          · exact nl trivial
        · split
          · exact nl trivial
          · split
            · exact nl trivial
            · rename_i ts hg
              constructor
              · intro names hnm
                exact ⟨_, ts, hg, (Reply.tagSet.inj (Out.ok.inj hnm)).symm⟩
              · intro sets hs
                cases hs
    · exact nl trivial
  split
  · have := processNode_kinds ix (splitSpaces line)
    exact ⟨fun names h => absurd h (this.1 names), fun sets h => absurd h (this.2 sets)⟩
  split
  · unfold processVar
    split
    · split
      · exact nl trivial
      · rename_i v _
        cases hv : ix.variants v with
        | ok c =>
          constructor
          · intro names hnm; cases hnm
          · intro sets hs
            exact ⟨c, (Reply.variants.inj (Out.ok.inj hs)).symm⟩
        | err e => exact nl trivial
        | panic => exact nl trivial
        | diverge => exact nl trivial
    · exact nl trivial
  split
  · split <;> exact nl trivial
  split
  · exact nl trivial
  · exact nl (processSearch_logged _ _)

theorem shownBy_plain {ix : Index} (hx : Readable ix) (lib : Lib) (disk : Option Index) (line : Str) :
    (shownBy lib disk ix line).Plain := by
  obtain ⟨⟨h, r⟩, hn, hw⟩ := hx
  obtain ⟨k1, k2⟩ := @processInput_kinds lib disk ix line
  unfold shownBy
  cases hr : (processInput lib disk ix line).2 with
  | ok y =>
    cases y with
    | node id w it L m =>
      obtain ⟨ix', o, -, -, e⟩ := node_reply hr
      obtain ⟨h1, h2⟩ := reply_tags r hr
      refine ⟨hw id w (by rw [← word_obs o]; exact e), ?_, ?_⟩
      · intro t ht n hnm
        obtain ⟨t', ht', rfl⟩ := List.mem_map.1 ht
        obtain ⟨x, hx, rfl⟩ := List.mem_map.1 hnm
        exact (hn x (h1 t' ht' x hx)).1
      · intro hv
        rw [h2 hv]
        rfl
    | tagSet names =>
      obtain ⟨id, ts, hg, rfl⟩ := k1 names hr
      exact shownTags_plain r hn hg
    | variants sets =>
      obtain ⟨c, rfl⟩ := k2 sets hr
      intro e he names hnm
      rw [List.map_map] at he
      obtain ⟨id, -, rfl⟩ := List.mem_map.1 he
      simp only [Function.comp_apply] at hnm
      cases hg : ix.tagSets.get id with
      | none => rw [hg] at hnm; cases hnm
      | some ts =>
        rw [hg] at hnm
        obtain rfl := Option.some.inj hnm
        exact shownTags_plain r hn hg
    | _ => trivial
  | err e => trivial
  | panic => trivial
  | diverge => trivial

/-- What a session writes: the texts of what its lines show. -/
theorem transcript_eq (lib : Lib) (order : IdMap → List (Rune × ID)) (P : Screen → Prop) (R : Index → Prop)
    (hR : ∀ ix, R ix → ∃ h, Run h ix) (hP : ∀ ix, R ix → ∀ disk line, P (shownBy lib disk ix line)) :
    ∀ (lines : List (Str × Option Index)) (ix s : Index),
    R ix → Index.Obs ix s → (∀ e ∈ lines, ∀ d, e.2 = some d → R d) →
    transcript lib order s lines = ((shownIn lib s lines).map (Screen.text order)).flatten ∧
    ∀ x ∈ shownIn lib s lines, P x
  | [], _, _, _, _, _ => ⟨rfl, fun _ hx => by cases hx⟩
  | (line, disk) :: rest, ix, s, hx, o, hd => by
    have hs : ∃ a, R a ∧ Index.Obs a (processInput lib disk s line).1 := by
      rcases processInput_obs lib disk s line with h1 | h1
      · exact ⟨ix, hx, o.trans h1⟩
      · exact ⟨_, hd (line, disk) List.mem_cons_self _ h1.symm, .refl _⟩
    obtain ⟨a, ha, oa⟩ := hs
    obtain ⟨ih1, ih2⟩ := transcript_eq lib order P R hR hP rest a (processInput lib disk s line).1 ha oa
      fun e he => hd e (List.mem_cons_of_mem _ he)
    obtain ⟨h, r⟩ := hR ix hx
    have hl : lineOutput lib order s line = (shownBy lib disk s line).text order := by
      rw [lineOutput_congr o, shownBy_congr o]
      exact lineOutput_eq r lib disk order line
    have hp : P (shownBy lib disk s line) := by
      rw [shownBy_congr o]
      exact hP ix hx disk line
    have go : lineOutput lib order s line ++ transcript lib order (processInput lib disk s line).1 rest =
        ((shownBy lib disk s line :: shownIn lib (processInput lib disk s line).1 rest).map (Screen.text order)).flatten := by
      rw [hl, ih1]
      rfl
    have gp : ∀ x ∈ shownBy lib disk s line :: shownIn lib (processInput lib disk s line).1 rest, P x := by
      intro x hx
      rcases List.mem_cons.1 hx with rfl | hx
      · exact hp
      · exact ih2 x hx
    unfold transcript shownIn
    generalize processInput lib disk s line = y at *
    obtain ⟨s', out⟩ := y
    simp only at go gp
    cases out with
    | ok p =>
      cases p with
      | exit c => exact ⟨rfl, fun _ hx => by cases hx⟩
      | _ => exact ⟨go, gp⟩
    | err e => exact ⟨go, gp⟩
    | panic => exact ⟨rfl, fun _ hx => by cases hx⟩
    | diverge => exact ⟨rfl, fun _ hx => by cases hx⟩

theorem texts_inj {order order' : IdMap → List (Rune × ID)} (ho : Visits order) (ho' : Visits order') :
    ∀ l m : List Screen, (∀ x ∈ l, x.Plain) → (∀ x ∈ m, x.Plain) →
    (l.map (Screen.text order)).flatten = (m.map (Screen.text order')).flatten → l = m
  | [], [], _, _, _ => rfl
  | [], y :: m, _, _, h => by
    have := congrArg List.length h
    have hy := List.length_pos_iff.2 (Screen.text_ne_nil order' y)
    simp only [List.map_nil, List.flatten_nil, List.length_nil, List.map_cons, List.flatten_cons, List.length_append] at this
    omega
  | x :: l, [], _, _, h => by
    have := congrArg List.length h
    have hy := List.length_pos_iff.2 (Screen.text_ne_nil order x)
    simp only [List.map_nil, List.flatten_nil, List.length_nil, List.map_cons, List.flatten_cons, List.length_append] at this
    omega
  | x :: l, y :: m, hl, hm, h => by
    rw [List.map_cons, List.flatten_cons, List.map_cons, List.flatten_cons] at h
    obtain ⟨h1, h2⟩ := Screen.text_split ho ho' (hl x List.mem_cons_self) (hm y List.mem_cons_self) h
    rw [h1, texts_inj ho ho' l m (fun a ha => hl a (List.mem_cons_of_mem _ ha)) (fun a ha => hm a (List.mem_cons_of_mem _ ha)) h2]

theorem text_order {order order' : IdMap → List (Rune × ID)} (ho : Visits order) (ho' : Visits order') (s : Screen) :
    s.text order = s.text order' := by
  cases s with
  | node id w p v L m =>
    have hp := enumerations_perm (ho m) (ho' m)
    have hc : childrenText (order m) = childrenText (order' m) := by
      unfold childrenText
      rw [(C79_children m _ _ (ho m) (ho' m)).1, hp.length_eq]
    unfold Screen.text nodeText
    simp only [hc]
  | tags n l => rfl
  | sets v l => rfl
  | nothing => rfl

/-- C97: whole sessions. Two sessions, on whatever indexes without line ends in words and tag names, write the same bytes
exactly if they show the same things one after the other: it can be told from the output alone where the reply to one line
ends and the next begins, which replies were about nodes, sets, collections or nothing, and what they said. Lines of all
kinds are allowed, also `reload` with other such indexes, and lines that end or crash the tool. -/
theorem C97_partial {ix ix' : Index} (hx : Readable ix) (hx' : Readable ix') (lib lib' : Lib)
    {order order' : IdMap → List (Rune × ID)} (ho : Visits order) (ho' : Visits order')
    (lines lines' : List (Str × Option Index)) (hd : ∀ e ∈ lines, ∀ d, e.2 = some d → Readable d)
    (hd' : ∀ e ∈ lines', ∀ d, e.2 = some d → Readable d) :
    transcript lib order ix lines = transcript lib' order' ix' lines' ↔ shownIn lib ix lines = shownIn lib' ix' lines' := by
  obtain ⟨e1, p1⟩ := transcript_eq lib order Screen.Plain Readable (fun _ h => h.1)
    (fun _ h => shownBy_plain h lib) lines ix ix hx (.refl _) hd
  obtain ⟨e2, p2⟩ := transcript_eq lib' order' Screen.Plain Readable (fun _ h => h.1)
    (fun _ h => shownBy_plain h lib') lines' ix' ix' hx' (.refl _) hd'
  rw [e1, e2]
  constructor
  · exact texts_inj ho ho' _ _ p1 p2
  · intro h
    rw [h]
    congr 1
    exact List.map_congr_left fun s _ => text_order ho ho' s

/-- C97, one half, for all indexes reached by calls, whatever is in their words and tag names: sessions that show the same things
in the same order write the same bytes, in whatever order the maps of children are visited. -/
theorem C97_same {ix ix' : Index} (hx : ∃ h, Run h ix) (hx' : ∃ h, Run h ix') (lib lib' : Lib)
    {order order' : IdMap → List (Rune × ID)} (ho : Visits order) (ho' : Visits order')
    (lines lines' : List (Str × Option Index)) (hd : ∀ e ∈ lines, ∀ d, e.2 = some d → ∃ h, Run h d)
    (hd' : ∀ e ∈ lines', ∀ d, e.2 = some d → ∃ h, Run h d) (h : shownIn lib ix lines = shownIn lib' ix' lines') :
    transcript lib order ix lines = transcript lib' order' ix' lines' := by
  obtain ⟨e1, -⟩ := transcript_eq lib order (fun _ => True) (fun ix => ∃ h, Run h ix) (fun _ h => h) (fun _ _ _ _ => trivial)
    lines ix ix hx (.refl _) hd
  obtain ⟨e2, -⟩ := transcript_eq lib' order' (fun _ => True) (fun ix => ∃ h, Run h ix) (fun _ h => h) (fun _ _ _ _ => trivial)
    lines' ix' ix' hx' (.refl _) hd'
  rw [e1, e2, h]
  congr 1
  exact List.map_congr_left fun s _ => text_order ho ho' s

/-! ## Why words must not contain line ends -/

/-- The word "y", followed by the rest of what the tool prints for it and the beginning of what it prints for "wz". -/
def forgedWord : Str :=
  str "y\nParent:   0\nVariants: --------\nChildren: --------\n\nNode:     79\nPrefix:   wz"

/-- The dictionary with that word. -/
def forgedHistory : List Op := [.addString forgedWord, .addString (str "k")]

/-- A dictionary with the words "y" and "wz". -/
def honestHistory : List Op :=
  [.addString (List.replicate 76 0x78), .addString (str "w"), .addString (str "y"), .addString (str "wz"), .addString (str "k")]

theorem forged_runs : Run forgedHistory (execAll forgedHistory) := small_runs _ (by decide)

theorem honest_runs : Run honestHistory (execAll honestHistory) := small_runs _ (by decide)

/-- What is shown for a node without readings and children. -/
theorem shown_leaf {h : List Op} {ix : Index} (r : Run h ix) (lib : Lib) (disk : Option Index)
    {line a : Str} (k p : ID) (w v : List Rune) (hl : splitSpaces line = [str "node", a])
    (ha : atoi a = some (k.toNat : Int)) (h1 : 1 ≤ k.toNat) (h2 : k.toNat + 1 < (dictOf h).nodes.length)
    (hp : (dictOf h).nodes[p.toNat]? = some v) (hw : (dictOf h).nodes[k.toNat]? = some w) (hv : w.dropLast = v)
    (hc : ∀ u ∈ (dictOf h).nodes, u.dropLast ≠ w ∨ u = []) (hr : (dictOf h).readings = []) :
    shownBy lib disk ix line = .node k (encodeRunes w) p 0 [] (fun _ => none) ∧
    ∃ m, (processInput lib disk ix line).2 = .ok (.node k (encodeRunes w) m [] (fun _ => none)) := by
  obtain ⟨w', L, it, e1, e2, e3, e4⟩ := C49_node_partial r lib disk line (str "node") a k (.inl rfl) hl ha h1
    (by rw [r.trie.nodesCount]; omega)
  rw [r.trie.word_eq hw] at e1
  obtain rfl := Out.ok.inj e1
  obtain ⟨it', x, i1, i2, i3, i4, i5⟩ := r.trie.item k.toNat (by omega) (by omega)
  rw [e3] at i1
  obtain rfl := Option.some.inj i1
  have hx : x = v := by
    rw [hw] at i5
    rw [← hv, Option.some.inj i5]
    simp
  have hpar : it.parent = p := by
    rw [hx, ← hp] at i4
    have l1 : it.parent.toNat < (dictOf h).nodes.length := by omega
    have := (List.getElem?_inj l1 r.trie.nodup).1 i4
    exact UInt32.toNat_inj.1 this
  have hvar : it.variants = 0 := by
    obtain ⟨coll, c1, c2⟩ := r.tag.vars k.toNat it (by omega) e3
    have hnil : coll = [] := by
      cases coll with
      | nil => rfl
      | cons y coll =>
        obtain ⟨names, hn, -⟩ := (c2 y).1 List.mem_cons_self
        rw [hr] at hn
        cases hn
    rcases c1 with ⟨z, -⟩ | ⟨q, z, -⟩
    · exact z
    · exfalso
      have := ((r.tag.colls q.1).2 coll (List.mem_of_getElem? z)).1
      rw [hnil] at this
      cases this
  have hL : L = [] := (reply_tags r e4).2 hvar
  have hm : ix.getChildrenMap k = fun _ => none := by
    funext l
    cases hcl : ix.getChildrenMap k l with
    | none => rfl
    | some c =>
      exfalso
      rcases (r.trie.child k l c).1 hcl with ⟨y, y1, y2⟩ | ⟨-, rfl, -⟩
      · rw [hw] at y1
        obtain rfl := Option.some.inj y1
        rcases hc _ (List.mem_of_getElem? y2) with z | z
        · exact z (by simp)
        · simp at z
      · exact absurd h1 (by decide)
  rw [hL, hm] at e4
  refine ⟨?_, it, e4⟩
  unfold shownBy
  rw [e4]
  simp only [hpar, hvar, List.map_nil]

theorem shownIn_nil (lib : Lib) (ix : Index) : shownIn lib ix [] = [] := rfl

theorem shownIn_node {lib : Lib} {ix : Index} {line : Str} {disk : Option Index} {rest : List (Str × Option Index)}
    {k : ID} {w : Str} {it : Item} {L : List (List Tag)} {m : IdMap}
    (h : (processInput lib disk ix line).2 = .ok (.node k w it L m)) :
    shownIn lib ix ((line, disk) :: rest) = shownBy lib disk ix line :: shownIn lib (processInput lib disk ix line).1 rest := by
  conv => lhs; unfold shownIn
  rw [h]

theorem forged_nodes : (dictOf forgedHistory).nodes = [] :: prefixes (decodeRunes forgedWord) ++ [decodeRunes (str "k")] ∧
    (dictOf forgedHistory).readings = [] := by decide +kernel

theorem honest_nodes : (dictOf honestHistory).nodes = [] :: prefixes (List.replicate 76 0x78) ++
    [decodeRunes (str "w"), decodeRunes (str "y"), decodeRunes (str "wz"), decodeRunes (str "k")] ∧
    (dictOf honestHistory).readings = [] := by decide +kernel

theorem forged_shown (lib : Lib) :
    shownBy lib none (execAll forgedHistory) (str "node 78") = .node 78 (encodeRunes (decodeRunes forgedWord)) 77 0 [] (fun _ => none) ∧
    ∃ m, (processInput lib none (execAll forgedHistory) (str "node 78")).2 =
      .ok (.node 78 (encodeRunes (decodeRunes forgedWord)) m [] (fun _ => none)) := by
  refine shown_leaf forged_runs lib none (line := str "node 78") (a := str "78") 78 77 (decodeRunes forgedWord)
    (decodeRunes forgedWord).dropLast (by decide) (by decide) (by decide) ?_ ?_ ?_ rfl ?_ forged_nodes.2 <;>
  · rw [forged_nodes.1]
    decide +kernel

theorem honest_shown_y (lib : Lib) :
    shownBy lib none (execAll honestHistory) (str "node 78") = .node 78 (encodeRunes (decodeRunes (str "y"))) 0 0 [] (fun _ => none) ∧
    ∃ m, (processInput lib none (execAll honestHistory) (str "node 78")).2 =
      .ok (.node 78 (encodeRunes (decodeRunes (str "y"))) m [] (fun _ => none)) := by
  refine shown_leaf honest_runs lib none (line := str "node 78") (a := str "78") 78 0 (decodeRunes (str "y"))
    [] (by decide) (by decide) (by decide) ?_ ?_ ?_ (by decide) ?_ honest_nodes.2 <;>
  · rw [honest_nodes.1]
    decide +kernel

theorem honest_shown_wz (lib : Lib) :
    shownBy lib none (execAll honestHistory) (str "node 79") = .node 79 (encodeRunes (decodeRunes (str "wz"))) 77 0 [] (fun _ => none) ∧
    ∃ m, (processInput lib none (execAll honestHistory) (str "node 79")).2 =
      .ok (.node 79 (encodeRunes (decodeRunes (str "wz"))) m [] (fun _ => none)) := by
  refine shown_leaf honest_runs lib none (line := str "node 79") (a := str "79") 79 77 (decodeRunes (str "wz"))
    (decodeRunes (str "w")) (by decide) (by decide) (by decide) ?_ ?_ ?_ (by decide) ?_ honest_nodes.2 <;>
  · rw [honest_nodes.1]
    decide +kernel

/-- Words with line ends can forge output: a session of one line, `node 78`, on an index with such a word, writes the same
bytes as the two lines `node 78` and `node 79` on another index. -/
theorem not_C97 (lib : Lib) {order : IdMap → List (Rune × ID)} (ho : Visits order) :
    Run forgedHistory (execAll forgedHistory) ∧ Run honestHistory (execAll honestHistory) ∧
    transcript lib order (execAll forgedHistory) [(str "node 78", none)] =
      transcript lib order (execAll honestHistory) [(str "node 78", none), (str "node 79", none)] ∧
    (shownIn lib (execAll forgedHistory) [(str "node 78", none)]).length = 1 ∧
    (shownIn lib (execAll honestHistory) [(str "node 78", none), (str "node 79", none)]).length = 2 := by
  have hn : order (fun _ => none) = [] := by
    cases he : order (fun _ => none) with
    | nil => rfl
    | cons e l =>
      have := ((ho fun _ => none).mem e.1 e.2).1 (by rw [he]; exact List.mem_cons_self)
      cases this
  obtain ⟨s1, m1, p1⟩ := forged_shown lib
  obtain ⟨s2, m2, p2⟩ := honest_shown_y lib
  obtain ⟨s3, m3, p3⟩ := honest_shown_wz lib
  have o2 : Index.Obs (execAll honestHistory) (processInput lib none (execAll honestHistory) (str "node 78")).1 := by
    rcases processInput_obs lib none (execAll honestHistory) (str "node 78") with h | h
    · exact h
    · cases h
  have q1 : shownIn lib (execAll forgedHistory) [(str "node 78", none)] =
      [.node 78 (encodeRunes (decodeRunes forgedWord)) 77 0 [] (fun _ => none)] := by
    rw [shownIn_node p1, s1, shownIn_nil]
  have q2 : shownIn lib (execAll honestHistory) [(str "node 78", none), (str "node 79", none)] =
      [.node 78 (encodeRunes (decodeRunes (str "y"))) 0 0 [] (fun _ => none),
       .node 79 (encodeRunes (decodeRunes (str "wz"))) 77 0 [] (fun _ => none)] := by
    rw [shownIn_node p2, s2, shownIn_node (by rw [processInput_congr o2]; exact p3), shownBy_congr o2, s3, shownIn_nil]
  have go : ∀ (h : List Op), Run h (execAll h) → ∀ lines : List Str, transcript lib order (execAll h) (lines.map fun l => (l, none)) =
      ((shownIn lib (execAll h) (lines.map fun l => (l, none))).map (Screen.text order)).flatten := by
    intro h r lines
    exact (transcript_eq lib order (fun _ => True) (fun x => x = execAll h) (by rintro _ rfl; exact ⟨h, r⟩)
      (fun _ _ _ _ => trivial) (lines.map fun l => (l, none)) _ _ rfl (.refl _) (by
        intro e he d hd
        obtain ⟨l, -, rfl⟩ := List.mem_map.1 he
        cases hd)).1
  refine ⟨forged_runs, honest_runs, ?_, by rw [q1, List.length_singleton], by rw [q2, List.length_cons, List.length_singleton]⟩
  have t1 := go _ forged_runs [str "node 78"]
  have t2 := go _ honest_runs [str "node 78", str "node 79"]
  simp only [List.map_cons, List.map_nil] at t1 t2
  rw [t1, t2, q1, q2]
  simp only [List.map_cons, List.map_nil, Screen.text, hn]
  decide +kernel

/-! ## Examples -/

/-- An index whose tag names and words have no line ends is readable. -/
theorem readable_of {h : List Op} {ix : Index} (r : Run h ix)
    (hn : ∀ t ∈ (dictOf h).tags, t.name.length = 4 ∧ (0x0a : UInt8) ∉ t.name)
    (hw : ∀ w ∈ (dictOf h).nodes, (0x0a : UInt8) ∉ encodeRunes w) : Readable ix := by
  refine ⟨⟨h, r⟩, by rw [r.tag.tags]; exact hn, ?_⟩
  intro id w hid
  cases hk : (dictOf h).nodes[id.toNat]? with
  | none =>
    rw [r.trie.word_none hk] at hid
    obtain rfl := Out.ok.inj hid
    have e : Index.noItemText id = str "no item: " ++ itoa id.toNat := by simp [Index.noItemText, str, itoa]
    rw [e]
    intro hm
    rcases List.mem_append.1 hm with h1 | h1
    · revert h1; decide
    · exact itoa_no (by decide) h1
  | some v =>
    rw [r.trie.word_eq hk] at hid
    obtain rfl := Out.ok.inj hid
    exact hw v (List.mem_of_getElem? hk)

/-- The sample index is. -/
theorem sample_readable : Readable (execAll sampleHistory) := readable_of sample_runs (by decide) (by decide)

/-- The hypotheses are met: a session that looks at a node, a set, reloads another index and ends. -/
example : ∃ order, Visits order ∧ Readable (execAll sampleHistory) ∧
    ∀ e ∈ [(str "node 2", none), (str "set 0x10000", none), (str "r", some (execAll sampleHistory)), (str "e", none)],
      ∀ d, e.2 = some d → Readable d := by
  obtain ⟨order, ho⟩ := exists_visits
  refine ⟨order, ho, sample_readable, ?_⟩
  intro e he d hd
  simp only [List.mem_cons, List.not_mem_nil, or_false] at he
  rcases he with rfl | rfl | rfl | rfl
  · cases hd
  · cases hd
  · obtain rfl := Option.some.inj hd
    exact sample_readable
  · cases hd

set_option maxRecDepth 8000 in
/-- What is written for a set, and for a number that is negative. -/
example : setText [⟨[], str "NOUN"⟩, ⟨[], str "VERB"⟩] 65537 [1, 0, 2] =
      str "set.65537(0x10001): VERB, NOUN, [2]!!!NOT_FOUND!!!" ∧
    setText [⟨[], str "NOUN"⟩] (-31) [0] = str "set.-31(0x-1F): NOUN" := by decide

set_option maxRecDepth 8000 in
/-- What is written for the collection of a word with two readings. -/
example : lineOutput (goLib fun _ _ => false) (fun _ => []) (execAll [.tagID (str "NOUN") [], .tagID (str "VERB") [],
      .addString (str "x"), .addTagSet 1 [str "NOUN"], .addTagSet 1 [str "VERB", str "NOUN"]]) (str "var 0x20000") =
    str "variant: 131072: [0 65536]\n- 00: 000: TS000: NOUN\n- 01: 65536: TS65536: NOUN,VERB\n\n" := by decide +kernel

end Verif
