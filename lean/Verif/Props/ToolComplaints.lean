import Verif.Props.ToolLog

/-!
# C117 — the reasons of failed commands, and the messages beside a printed answer
-/

namespace Verif

theorem isNumber_iff {s : Str} {z : Int} : IsNumber s z ↔ atoi s = some z := (atoi_iff s z).symm

theorem noNumber_iff {s : Str} : (∀ z, ¬ IsNumber s z) ↔ atoi s = none := by
  constructor
  · intro h
    cases ha : atoi s with
    | none => rfl
    | some z => exact absurd (isNumber_iff.2 ha) (h z)
  · intro h z hz
    rw [isNumber_iff.1 hz] at h
    cases h

theorem noFold_iff (f : Str → Bool) (tags : List Tag) :
    tags.zipIdx.find? (fun e => f e.1.name) = none ↔ ∀ t ∈ tags, f t.name = false := by
  rw [List.find?_eq_none]
  constructor
  · intro h t ht
    obtain ⟨i, hi, rfl⟩ := List.mem_iff_getElem.1 ht
    have := h (tags[i], i) (by rw [List.mem_zipIdx_iff_getElem?]; simp [hi])
    simpa using this
  · rintro h ⟨t, i⟩ hm
    have := h t (List.fst_mem_of_mem_zipIdx hm)
    simp [this]

theorem get_text (ix : Index) (id : ID) (h : ∀ j, ix.get id ≠ .ok j) :
    (((MemCall.get id).goError ix).map (·.text)).getD [] = str "index: no such node: " ++ itoa id.toNat := by
  have e : (MemCall.get id).err ix = some (.noSuchNode id) := by
    show (ix.get id).error = _
    unfold Index.get at h ⊢
    split
    · rfl
    · rename_i hc
      rw [if_neg hc] at h
      exact absurd rfl (h id)
  unfold MemCall.goError
  rw [e]
  simp [Err.go, errorf, Piece.text, indexError, str]

theorem tag_complaint {lib : Lib} {ix : Index} {c : Str} {l : List Str} (hc : c = str "tag" ∨ c = str "t") (text : Str) :
    (tagLog lib ix (c :: l)).2 = some text ↔ Complaint lib ix (c :: l) text := by
  have hcs : ¬ (c = str "set" ∨ c = str "s") := by rcases hc with rfl | rfl <;> decide
  have hcv : ¬ (c = str "var" ∨ c = str "v") := by rcases hc with rfl | rfl <;> decide
  have hcn : ¬ (c = str "node" ∨ c = str "n") := by rcases hc with rfl | rfl <;> decide
  constructor
  · intro h
    unfold tagLog at h
    split at h
    · rename_i x arg he
      obtain ⟨rfl, rfl⟩ := List.cons.inj he
      split at h
      · cases h
      · rename_i hcount
        split at h
        · rename_i ha
          split at h
          · cases h
          · rename_i hf
            obtain rfl := Option.some.inj h
            exact .tagName _ _ hc hcount (noNumber_iff.2 ha) ((noFold_iff (fun n => lib.equalFold n arg) _).1 hf)
        · rename_i n ha
          split at h
          · rename_i hn
            obtain rfl := Option.some.inj h
            exact .tagNumber _ _ n hc (isNumber_iff.2 ha) hn
          · split at h <;> cases h
    · rename_i hne
      obtain rfl := Option.some.inj h
      refine .tagItems _ _ hc ?_
      intro hl
      match l, hl with
      | [a], _ => exact hne _ _ rfl
  · intro h
    cases h with
    | tagItems _ _ _ hl =>
      unfold tagLog
      split
      · rename_i he
        rw [(List.cons.inj he).2] at hl
        exact absurd rfl hl
      · rfl
    | tagName _ arg _ ha hz ht =>
      unfold tagLog
      simp only
      rw [if_neg ha, noNumber_iff.1 hz]
      simp only
      rw [(noFold_iff (fun n => lib.equalFold n arg) _).2 ht]
    | tagNumber _ arg z _ hz ht =>
      unfold tagLog
      have ha := isNumber_iff.1 hz
      have hcount : arg ≠ str "count" := by
        rintro rfl
        have : atoi (str "count") = none := by decide
        rw [this] at ha
        cases ha
      simp only
      rw [if_neg hcount, ha]
      simp only
      rw [if_pos ht]
    | _ => contradiction

theorem set_complaint {lib : Lib} {ix : Index} {c : Str} {l : List Str} (hc : c = str "set" ∨ c = str "s") (text : Str) :
    (setLog lib ix (c :: l)).2 = some text ↔ Complaint lib ix (c :: l) text := by
  have hct : ¬ (c = str "tag" ∨ c = str "t") := by rcases hc with rfl | rfl <;> decide
  have hcv : ¬ (c = str "var" ∨ c = str "v") := by rcases hc with rfl | rfl <;> decide
  have hcn : ¬ (c = str "node" ∨ c = str "n") := by rcases hc with rfl | rfl <;> decide
  have h3 : ¬ str "table" = str "tables" := by decide
  constructor
  · intro h
    unfold setLog at h
    match l with
    | [] =>
      obtain rfl := Option.some.inj h
      exact .setItems _ hc
    | sub :: rest =>
      simp only at h
      split at h
      · cases h
      · rename_i h1
        split at h
        · rename_i h2
          subst h2
          split at h
          · split at h
            · rename_i ha
              obtain rfl := Option.some.inj h
              exact .tableNoNumber _ _ hc (noNumber_iff.2 ha)
            · rename_i n ha
              split at h
              · rename_i hn
                obtain rfl := Option.some.inj h
                exact .tableNumber _ _ n hc (isNumber_iff.2 ha) hn
              · split at h <;> cases h
          · rename_i hne
            obtain rfl := Option.some.inj h
            refine .tableItems _ _ hc ?_
            intro hl
            match rest, hl with
            | [a], _ => exact hne _ rfl
        · rename_i h2
          split at h
          · rename_i ha
            obtain rfl := Option.some.inj h
            exact .setNoNumber _ _ _ hc h1 h2 ha
          · rename_i n ha
            split at h
            · rename_i hg
              obtain rfl := Option.some.inj h
              exact .setNumber _ _ _ n hc h1 h2 ha hg
            · cases h
  · intro h
    cases h with
    | setItems _ _ => rfl
    | tableItems _ l _ hl =>
      unfold setLog
      simp only
      rw [if_neg h3, if_pos trivial]
      match l, hl with
      | [], _ => rfl
      | a :: b :: l, _ => rfl
    | tableNoNumber _ arg _ hz =>
      unfold setLog
      simp only
      rw [if_neg h3, if_pos trivial, noNumber_iff.1 hz]
    | tableNumber _ arg z _ hz ht =>
      unfold setLog
      simp only
      rw [if_neg h3, if_pos trivial, isNumber_iff.1 hz]
      simp only
      rw [if_pos ht]
    | setNoNumber _ arg l _ h1 h2 hz =>
      unfold setLog
      simp only
      rw [if_neg h1, if_neg h2, hz]
    | setNumber _ arg l z _ h1 h2 hz hs =>
      unfold setLog
      simp only
      rw [if_neg h1, if_neg h2, hz]
      simp only
      rw [hs]
    | _ => contradiction

theorem var_complaint {lib : Lib} {ix : Index} {c : Str} {l : List Str} (hc : c = str "var" ∨ c = str "v") (text : Str) :
    (varLog lib ix (c :: l)).2 = some text ↔ Complaint lib ix (c :: l) text := by
  have hct : ¬ (c = str "tag" ∨ c = str "t") := by rcases hc with rfl | rfl <;> decide
  have hcs : ¬ (c = str "set" ∨ c = str "s") := by rcases hc with rfl | rfl <;> decide
  have hcn : ¬ (c = str "node" ∨ c = str "n") := by rcases hc with rfl | rfl <;> decide
  constructor
  · intro h
    unfold varLog at h
    match l with
    | [] =>
      obtain rfl := Option.some.inj h
      exact .varItems _ hc
    | sub :: rest =>
      simp only at h
      split at h
      · rename_i ha
        obtain rfl := Option.some.inj h
        exact .varNoNumber _ _ _ hc ha
      · split at h <;> cases h
  · intro h
    cases h with
    | varItems _ _ => rfl
    | varNoNumber _ arg l _ hz =>
      unfold varLog
      simp only
      rw [hz]
    | _ => contradiction

theorem node_complaint {h : List Op} {lib : Lib} {ix : Index} (r : Run h ix) {c : Str} {l : List Str}
    (hc : c = str "node" ∨ c = str "n") (text : Str) :
    (nodeLog ix (c :: l)).2 = some text ↔ Complaint lib ix (c :: l) text := by
  have hct : ¬ (c = str "tag" ∨ c = str "t") := by rcases hc with rfl | rfl <;> decide
  have hcs : ¬ (c = str "set" ∨ c = str "s") := by rcases hc with rfl | rfl <;> decide
  have hcv : ¬ (c = str "var" ∨ c = str "v") := by rcases hc with rfl | rfl <;> decide
  have count : ∀ {arg z}, atoi arg = some z → arg ≠ str "count" := by
    rintro arg z ha rfl
    have : atoi (str "count") = none := by decide
    rw [this] at ha
    cases ha
  constructor
  · intro h
    unfold nodeLog at h
    match l with
    | [] =>
      obtain rfl := Option.some.inj h
      exact .nodeItems _ hc
    | sub :: rest =>
      simp only at h
      split at h
      · cases h
      · rename_i h1
        split at h
        · rename_i h2
          obtain rfl := Option.some.inj h
          exact .nodeMany _ _ _ hc h1 h2
        · rename_i h2
          obtain rfl : rest = [] := by by_contra hc; exact h2 hc
          split at h
          · rename_i ha
            split at h
            · rename_i ix' id hf
              split at h
              · cases h
              · rename_i hg
                exfalso
                have hT := r.trie
                have h2 := congrArg Prod.snd hf
                rw [fetchItemFromParent_same hT] at h2
                have h3 := (hT.fetchRoot_iff _ id).1 h2
                have h4 := hT.get_ok h3.2
                have h5 := (fetchItemFromParent_obs ix 0 (decodeRunes sub)).items
                rw [hf] at h5
                refine hg id ?_
                unfold Index.get at h4 ⊢
                rw [h5]
                exact h4
            · rename_i ix' e hf
              obtain rfl := Option.some.inj h
              exact .nodeText _ _ hc h1 (noNumber_iff.2 ha) e (by rw [hf])
            · cases h
          · rename_i n ha
            split at h
            · rename_i hn
              obtain rfl := Option.some.inj h
              exact .nodeNumber _ _ n hc (isNumber_iff.2 ha) hn
            · rename_i hn
              split at h
              · cases h
              · rename_i hg
                obtain rfl := Option.some.inj h
                rw [get_text ix _ (fun j hj => hg j hj)]
                have := Complaint.nodeNegative (lib := lib) (ix := ix) c sub n hc (isNumber_iff.2 ha) (by omega) (fun j hj => hg j hj)
                have e : str "`: get node: index: no such node: " = str "`: get node: " ++ str "index: no such node: " := by decide
                rw [e] at this
                simpa using this
  · intro h
    cases h with
    | nodeItems _ _ => rfl
    | nodeMany _ arg l _ h1 h2 =>
      unfold nodeLog
      simp only
      rw [if_neg h1, if_pos h2]
    | nodeText _ arg _ h1 hz e hf =>
      unfold nodeLog
      simp only
      rw [if_neg h1, if_neg (by simp), noNumber_iff.1 hz]
      simp only
      split
      · rename_i hf'; rw [hf'] at hf; cases hf
      · rfl
      · rename_i hne hne2
        exfalso
        exact hne2 _ e (Prod.ext rfl hf)
    | nodeNumber _ arg z _ hz hn =>
      unfold nodeLog
      simp only
      have ha := isNumber_iff.1 hz
      rw [if_neg (count ha), if_neg (by simp), ha]
      simp only
      rw [if_pos hn]
    | nodeNegative _ arg z _ hz hn hg =>
      unfold nodeLog
      simp only
      have ha := isNumber_iff.1 hz
      rw [if_neg (count ha), if_neg (by simp), ha]
      simp only
      rw [if_neg (by omega)]
      rw [get_text ix _ hg]
      have e : str "`: get node: index: no such node: " = str "`: get node: " ++ str "index: no such node: " := by decide
      rw [e]
      simp
    | _ => contradiction

theorem tagLog_noErrors (lib : Lib) (ix : Index) (items : List Str) : NoErrors (tagLog lib ix items).1 := by
  unfold tagLog
  repeat' split
  all_goals
    intro m hm
    simp at hm
    try (rw [hm]; simp)

theorem setLog_noErrors (lib : Lib) (ix : Index) (items : List Str) : NoErrors (setLog lib ix items).1 := by
  unfold setLog
  dsimp only
  repeat' split
  all_goals
    intro m hm
    simp at hm
    try (first | (rw [hm]; simp; done) | (rcases hm with rfl | rfl <;> simp; done) | (rcases hm with rfl | rfl | rfl <;> simp; done) | (rcases hm with rfl | rfl | rfl | rfl <;> simp; done))

theorem varLog_noErrors (lib : Lib) (ix : Index) (items : List Str) : NoErrors (varLog lib ix items).1 := by
  unfold varLog
  dsimp only
  split
  · split
    · intro m hm
      simp at hm
      rw [hm]; simp
    · split
      · intro m hm
        simp only [List.mem_cons] at hm
        rcases hm with rfl | rfl | rfl | hm
        · simp
        · simp
        · simp
        · exact collMessages_noErrors _ _ m hm
      · intro m hm
        simp at hm
        rcases hm with rfl | rfl <;> simp
  · exact noErrors_nil

theorem nodeLog_noErrors (ix : Index) (items : List Str) : NoErrors (nodeLog ix items).1 := by
  unfold nodeLog
  dsimp only
  repeat' split
  all_goals
    intro m hm
    simp at hm
    try (rw [hm]; simp)

theorem withError_iff {x : List (LogLevel × Str) × Option Str} (hx : NoErrors x.1) (text : Str) :
    (.error, text) ∈ withError x ↔ x.2 = some text := by
  constructor
  · intro h
    exact withError_mem (l := x.1) (e := x.2) h hx
  · intro h
    unfold withError
    rw [h]
    simp

theorem Complaint.command {lib : Lib} {ix : Index} {items : List Str} {text : Str} (h : Complaint lib ix items text) :
    ∃ c l, items = c :: l ∧ ((c = str "tag" ∨ c = str "t") ∨ (c = str "set" ∨ c = str "s") ∨ (c = str "node" ∨ c = str "n") ∨
      (c = str "var" ∨ c = str "v")) := by
  cases h <;> exact ⟨_, _, rfl, by tauto⟩

/-- C117: an error is logged about a line exactly if there is something to complain about in it, and the message names the
reason: `Complaint` lists them. -/
theorem C117_reason {h : List Op} {ix : Index} (hr : Run h ix) (lib : Lib) (eta : Nat → Str) (line text : Str) :
    (.error, text) ∈ toolLog lib eta ix line ↔ Complaint lib ix (splitSpaces line) text := by
  match hs : splitSpaces line with
  | [] => exact absurd hs (splitSpaces_ne_nil line)
  | c :: l =>
    unfold toolLog
    rw [hs]
    dsimp only [List.headD]
    split
    · rename_i hc; rw [withError_iff (tagLog_noErrors _ _ _)]; exact tag_complaint hc text
    rename_i h1
    split
    · rename_i hc; rw [withError_iff (setLog_noErrors _ _ _)]; exact set_complaint hc text
    rename_i h2
    split
    · rename_i hc; rw [withError_iff (nodeLog_noErrors _ _)]; exact node_complaint hr hc text
    rename_i h3
    split
    · rename_i hc; rw [withError_iff (varLog_noErrors _ _ _)]; exact var_complaint hc text
    rename_i h4
    have no : ¬ Complaint lib ix (c :: l) text := by
      intro hc
      obtain ⟨c', l', he, hc⟩ := hc.command
      obtain ⟨rfl, -⟩ := List.cons.inj he
      tauto
    constructor
    · intro hm
      exfalso
      split at hm
      · simp at hm
      split at hm
      · simp at hm
      · unfold searchLog at hm
        split at hm
        · split at hm
          · split at hm
            · simp at hm
            · rename_i L _ _
              obtain ⟨i, hi, he⟩ := List.mem_iff_getElem.1 hm
              obtain ⟨h1, h2⟩ := readingMessages_spec eta L 0
              have := h2 i _ (List.getElem?_eq_getElem (by omega))
              rw [List.getElem?_eq_getElem hi, he] at this
              cases this
          · cases hm
        · split at hm
          · simp at hm
          · cases hm
        · cases hm
        · cases hm
    · intro hc
      exact absurd hc no

/-! ## What is logged beside a printed answer -/

/-- The names of the tags with these numbers. -/
def numbered (ix : Index) (ts : List UInt8) : List (Option Str) := ts.map fun t => (ix.tags[t.toNat]?).map (·.name)

theorem numbered_shown (ix : Index) (ts : List UInt8) : shownTags ix ts = numbered ix ts := by
  unfold shownTags numbered
  simp only [tagsGet_eq]

/-- Which command prints such an answer. -/
def Reply.by : Reply → Nat
  | .tagSet _ => 1
  | .variants _ => 2
  | .node _ _ _ _ _ => 3
  | _ => 0

theorem bind_reply {α : Type} {x : Out α} {f : α → Reply} {r : Reply} (h : (x.bind fun a => .ok (f a)) = .ok r) :
    ∃ a, x = .ok a ∧ f a = r := by
  cases x with
  | ok a => exact ⟨a, rfl, Out.ok.inj h⟩
  | err e => cases h
  | panic => cases h
  | diverge => cases h

theorem processTag_by {lib : Lib} {ix : Index} {items : List Str} {r : Reply} (h : processTag lib ix items = .ok r) : r.by = 0 := by
  unfold processTag at h
  repeat' split at h
  all_goals first
    | (obtain rfl := Out.ok.inj h; rfl)
    | (obtain ⟨a, -, rfl⟩ := bind_reply h; rfl)

theorem processSet_by {lib : Lib} {ix : Index} {items : List Str} {r : Reply} (h : processSet lib ix items = .ok r) :
    r.by = 0 ∨ r.by = 1 := by
  unfold processSet at h
  repeat' split at h
  all_goals first
    | (obtain rfl := Out.ok.inj h; first | exact .inl rfl | exact .inr rfl)
    | (obtain ⟨a, -, rfl⟩ := bind_reply h; exact .inl rfl)

theorem processVar_by {lib : Lib} {ix : Index} {items : List Str} {r : Reply} (h : processVar lib ix items = .ok r) :
    r.by = 0 ∨ r.by = 2 := by
  unfold processVar at h
  repeat' split at h
  all_goals first
    | (obtain rfl := Out.ok.inj h; exact .inl rfl)
    | (obtain ⟨a, -, rfl⟩ := bind_reply h; exact .inr rfl)

theorem showNode_by {ix : Index} {id : ID} {r : Reply} (h : (showNode ix id).2 = .ok r) :
    r.by = 3 ∧ ∃ w it L m, r = .node id w it L m := by
  unfold showNode at h
  repeat' split at h
  all_goals first
    | (obtain rfl := Out.ok.inj h; exact ⟨rfl, _, _, _, _, rfl⟩)
    | cases h

theorem processNode_by {ix : Index} {items : List Str} {r : Reply} (h : (processNode ix items).2 = .ok r) :
    r.by = 0 ∨ r.by = 3 := by
  unfold processNode at h
  repeat' split at h
  all_goals first
    | (cases h; done)
    | exact .inr (showNode_by h).1
    | (obtain rfl := Out.ok.inj h; exact .inl rfl)

theorem processSearch_by {ix : Index} {line : Str} {r : Reply} (h : (processSearch ix line).2 = .ok r) : r.by = 0 := by
  unfold processSearch at h
  repeat' split at h
  all_goals first
    | (cases h; done)
    | (obtain rfl := Out.ok.inj h; rfl)
    | (obtain ⟨a, -, rfl⟩ := bind_reply h; split <;> rfl)

/-- An answer of a kind only one command prints comes from this command. -/
theorem processInput_by {lib : Lib} {disk : Option Index} {ix : Index} (eta : Nat → Str) {line : Str} {r : Reply}
    (h : (processInput lib disk ix line).2 = .ok r) :
    (r.by = 1 → processSet lib ix (splitSpaces line) = .ok r ∧
      toolLog lib eta ix line = withError (setLog lib ix (splitSpaces line))) ∧
    (r.by = 2 → processVar lib ix (splitSpaces line) = .ok r ∧
      toolLog lib eta ix line = withError (varLog lib ix (splitSpaces line))) ∧
    (r.by = 3 → (processNode ix (splitSpaces line)).2 = .ok r ∧
      toolLog lib eta ix line = withError (nodeLog ix (splitSpaces line))) := by
  unfold processInput at h
  unfold toolLog
  simp only at h ⊢
  split at h
  · have := processTag_by h
    refine ⟨?_, ?_, ?_⟩ <;> intro hb <;> omega
  rename_i hc; rw [if_neg hc]
  split at h
  · rename_i hc; rw [if_pos hc]
    have := processSet_by h
    exact ⟨fun _ => ⟨h, rfl⟩, fun _ => by omega, fun _ => by omega⟩
  rename_i hc; rw [if_neg hc]
  split at h
  · rename_i hc; rw [if_pos hc]
    have := processNode_by h
    exact ⟨fun _ => by omega, fun _ => by omega, fun _ => ⟨h, rfl⟩⟩
  rename_i hc; rw [if_neg hc]
  split at h
  · rename_i hc; rw [if_pos hc]
    have := processVar_by h
    exact ⟨fun _ => by omega, fun _ => ⟨h, rfl⟩, fun _ => by omega⟩
  have z : r.by = 0 := by
    split at h
    · split at h <;> (obtain rfl := Out.ok.inj h; rfl)
    · split at h
      · obtain rfl := Out.ok.inj h; rfl
      · exact processSearch_by h
  refine ⟨?_, ?_, ?_⟩ <;> intro hb <;> omega

/-- C117: with a tag set printed, four messages are logged: what was typed, the number it stands for, the numbers of exactly
the tags printed, and how many they are. -/
theorem C117_set {ix ix' : Index} (lib : Lib) (eta : Nat → Str) (disk : Option Index) (line : Str) (names : List (Option Str))
    (hx : processInput lib disk ix line = (ix', .ok (.tagSet names))) :
    ∃ typed n ts head, lib.parseInt typed = some n ∧ names = numbered ix ts ∧
      head = str "set." ++ (intText n ++ (str "(0x" ++ (intHex n ++ str "): "))) ∧
      toolLog lib eta ix line = [(.info, str "set." ++ (typed ++ (str ": looking tag set " ++ typed))),
        (.info, head ++ str "load tag set"),
        (.info, head ++ (str "tag set TS(" ++ (joinComma (ts.map fun t => itoa t.toNat) ++ str ") loaded ok true"))),
        (.info, head ++ (str "tag set TS(" ++ (joinComma (ts.map fun t => itoa t.toNat) ++ (str ") len " ++ itoa names.length))))] := by
  obtain ⟨hx, hlog⟩ := (processInput_by eta (congrArg Prod.snd hx)).1 rfl
  rw [hlog]
  clear hlog
  generalize splitSpaces line = items at hx ⊢
  unfold processSet at hx
  unfold setLog
  split at hx
  · rename_i sub rest
    simp only
    split at hx
    · cases hx
    rename_i h1; rw [if_neg h1]
    split at hx
    · exfalso
      repeat' split at hx
      all_goals first
        | (cases hx; done)
        | (obtain ⟨a, -, h⟩ := bind_reply hx; cases h)
    rename_i h2; rw [if_neg h2]
    split at hx
    · cases hx
    rename_i n hn
    rw [hn]
    simp only
    split at hx
    · cases hx
    rename_i ts hts
    rw [hts]
    simp only
    have e : shownTags ix ts = names := by injection hx with hx; injection hx
    refine ⟨sub, n, ts, setHead n, hn, by rw [← e, numbered_shown], rfl, ?_⟩
    have e2 : ts.length = names.length := by rw [← e]; unfold shownTags; simp
    unfold withError tagSetText
    rw [e2]
    have e3 : str "tag set TS(" = str "tag set " ++ (str "TS" ++ str "(") := by decide
    have e4 : str ") len " = str ")" ++ str " len " := by decide
    have e5 : str ") loaded ok true" = str ")" ++ str " loaded ok true" := by decide
    rw [e3, e4, e5]
    simp
  · cases hx

/-- C117: with a list of variants printed, three messages come first: what was typed, the number it stands for, the numbers of
the sets; then two about
each set in turn, the second with the numbers of exactly the tags printed. -/
theorem C117_var {ix ix' : Index} (lib : Lib) (eta : Nat → Str) (disk : Option Index) (line : Str)
    (sets : List (TagSetID × Option (List (Option Str))))
    (hx : processInput lib disk ix line = (ix', .ok (.variants sets))) :
    ∃ typed v rest, lib.parseUint typed = some v ∧
      toolLog lib eta ix line = (.info, str "looking for var " ++ typed) ::
        (.info, str "looking for ID " ++ (itoa v.toNat ++ (str "(0x" ++ (hexText v.toNat ++ str ")")))) ::
        (.info, str "loaded variants [" ++ (joinWith (str " ") (sets.map fun e => itoa e.1.toNat) ++ str "]")) :: rest ∧
      rest.length = 2 * sets.length ∧
      ∀ i id names, sets[i]? = some (id, names) → ∃ ts,
        (∀ l, names = some l → l = numbered ix ts) ∧ (names = none → ts = []) ∧
        rest[2 * i]? = some (.info, str "unpack tagset " ++ (itoa id.toNat ++ (str "(" ++ (hexUpper id.toNat ++ str ")")))) ∧
        rest[2 * i + 1]? = some (.info, str "tagset " ++ (itoa id.toNat ++ (str ": TS(" ++
          (joinComma (ts.map fun t => itoa t.toNat) ++ str ")")))) := by
  obtain ⟨hx, hlog⟩ := (processInput_by eta (congrArg Prod.snd hx)).2.1 rfl
  rw [hlog]
  clear hlog
  generalize splitSpaces line = items at hx ⊢
  unfold processVar at hx
  unfold varLog
  split at hx
  · rename_i sub rest
    simp only
    split at hx
    · cases hx
    rename_i v hv
    obtain ⟨c, hc, he⟩ := bind_reply hx
    injection he with he
    subst he
    rw [hv]
    simp only
    rw [hc]
    simp only
    refine ⟨sub, v, collMessages ix c, hv, ?_, ?_, ?_⟩
    · unfold withError
      simp
      rfl
    · clear hc hx
      unfold collMessages
      induction c with
      | nil => rfl
      | cons id c ih => simp [List.flatMap_cons] at ih ⊢; omega
    · clear hc hx
      intro i id names hi
      have key : ∀ (c : Coll) i id, c[i]? = some id →
          (collMessages ix c)[2 * i]? = some (.info, str "unpack tagset " ++ (itoa id.toNat ++ (str "(" ++ (hexUpper id.toNat ++ str ")")))) ∧
          (collMessages ix c)[2 * i + 1]? = some (.info, str "tagset " ++ (itoa id.toNat ++ (str ": " ++ tagSetText ((ix.tagSets.get id).getD [])))) := by
        intro c
        induction c with
        | nil => intro i id h; cases h
        | cons x c ih =>
          intro i id h
          cases i with
          | zero =>
            obtain rfl := Option.some.inj h
            exact ⟨rfl, rfl⟩
          | succ i =>
            have := ih i id h
            exact this
      rw [List.getElem?_map] at hi
      cases hci : c[i]? with
      | none => rw [hci] at hi; cases hi
      | some id2 =>
        rw [hci] at hi
        simp at hi
        obtain ⟨rfl, rfl⟩ := hi
        obtain ⟨k1, k2⟩ := key c i id2 hci
        refine ⟨(ix.tagSets.get id2).getD [], ?_, ?_, k1, ?_⟩
        · intro l hl
          cases hg : ix.tagSets.get id2 with
          | none => rw [hg] at hl; cases hl
          | some ts =>
            rw [hg] at hl
            simp at hl
            rw [← hl, numbered_shown]
            rfl
        · intro hl
          cases hg : ix.tagSets.get id2 with
          | none => rfl
          | some ts => rw [hg] at hl; cases hl
        · rw [k2]
          unfold tagSetText
          have e3 : str ": TS(" = str ": " ++ (str "TS" ++ str "(") := by decide
          rw [e3]
          simp
  · cases hx

/-- C117: with a node printed, one message is logged, with the number of this node. -/
theorem C117_node {ix ix' : Index} (lib : Lib) (eta : Nat → Str) (disk : Option Index) (line : Str) (id : ID) (w : Str) (it : Item)
    (L : List (List Tag)) (m : IdMap) (hx : processInput lib disk ix line = (ix', .ok (.node id w it L m))) :
    ∃ how, toolLog lib eta ix line = [(.debug, str "node " ++ (itoa id.toNat ++ (str " taken by " ++ how)))] := by
  obtain ⟨hx, hlog⟩ := (processInput_by eta (congrArg Prod.snd hx)).2.2 rfl
  rw [hlog]
  clear hlog
  generalize splitSpaces line = items at hx ⊢
  have e1 : str " taken by string `" = str " taken by " ++ str "string `" := by decide
  have e2 : str " taken by id " = str " taken by " ++ str "id " := by decide
  unfold processNode at hx
  unfold nodeLog
  split at hx
  · rename_i sub rest
    simp only
    split at hx
    · cases hx
    rename_i h1; rw [if_neg h1]
    split at hx
    · cases hx
    rename_i h2; rw [if_neg h2]
    split at hx
    · rename_i ha
      rw [ha]
      simp only
      split at hx
      · rename_i ix2 j hf
        rw [hf]
        simp only
        split at hx
        · rename_i k hk
          rw [hk]
          have ek : k = j := by
            unfold Index.get at hk
            split at hk
            · cases hk
            · exact (Out.ok.inj hk).symm
          obtain ⟨-, _, _, _, _, e⟩ := showNode_by hx
          injection e with e
          subst e
          subst ek
          refine ⟨str "string `" ++ (sub ++ str "`"), ?_⟩
          unfold withError
          rw [e1]
          simp
        · cases hx
      · cases hx
      · cases hx
      · cases hx
    · rename_i n ha
      rw [ha]
      simp only
      split at hx
      · cases hx
      rename_i h3; rw [if_neg h3]
      split at hx
      · rename_i k hk
        rw [hk]
        obtain ⟨-, _, _, _, _, e⟩ := showNode_by hx
        injection e with e
        subst e
        refine ⟨str "id ", ?_⟩
        unfold withError
        rw [e2]
        simp
      · cases hx
  · cases hx

set_option maxRecDepth 8000 in
example : let ix := execAll sampleHistory; let lib := goLib fun a b => a == b; let eta := fun _ : Nat => str "12ms"
    toolLog lib eta ix (str "tag x") = [(.error, str "tag: expected int id: `x`")] ∧
    toolLog lib eta ix (str "set 77777777") = [(.info, str "set.77777777: looking tag set 77777777"),
      (.info, str "set.77777777(0x4A2CB71): load tag set"),
      (.info, str "set.77777777(0x4A2CB71): tag set TS() loaded ok false"),
      (.error, str "set.77777777: tag set not found")] ∧
    toolLog lib eta ix (str "node -1") = [(.error, str "node.info: `-1`: get node: index: no such node: 4294967295")] := by
  decide +kernel

set_option maxRecDepth 8000 in
example : let ix := execAll sampleHistory; let lib := goLib fun a b => a == b; let eta := fun _ : Nat => str "12ms"
    toolLog lib eta ix (str "s 0x10000") = [(.info, str "set.0x10000: looking tag set 0x10000"),
      (.info, str "set.65536(0x10000): load tag set"), (.info, str "set.65536(0x10000): tag set TS(0,1) loaded ok true"),
      (.info, str "set.65536(0x10000): tag set TS(0,1) len 2")] ∧
    toolLog lib eta ix (str "var 131072") = [(.info, str "looking for var 131072"),
      (.info, str "looking for ID 131072(0x20000)"), (.info, str "loaded variants [0 65536]"),
      (.info, str "unpack tagset 0(0)"), (.info, str "tagset 0: TS(0)"), (.info, str "unpack tagset 65536(10000)"),
      (.info, str "tagset 65536: TS(0,1)")] := by
  decide +kernel

set_option maxRecDepth 8000 in
example : ∃ a b c id w it L m,
    (processInput (goLib fun a b => a == b) none (execAll sampleHistory) (str "s 0x10000")) = (a, .ok (.tagSet [some (str "NOUN"), some (str "VERB")])) ∧
    (processInput (goLib fun a b => a == b) none (execAll sampleHistory) (str "var 131072")) = (b, .ok (.variants
      [(0, some [some (str "NOUN")]), (65536, some [some (str "NOUN"), some (str "VERB")])])) ∧
    (processInput (goLib fun a b => a == b) none (execAll sampleHistory) (str "node ab")) = (c, .ok (.node id w it L m)) :=
  ⟨_, _, _, _, _, _, _, _, rfl, rfl, rfl⟩

end Verif
