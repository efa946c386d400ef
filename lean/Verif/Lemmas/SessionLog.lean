import Verif.Props.ToolComplaints
import Verif.Props.NumbersPrinted
import Mathlib.Data.List.SplitBy

/-! # Helper lemmas: where the messages about one line end in the log of a session -/

namespace Verif

theorem toolLog_congr {ix ix' : Index} (h : Index.Obs ix ix') (lib : Lib) (eta : Nat → Str) (line : Str) :
    toolLog lib eta ix' line = toolLog lib eta ix line := by
  have e1 : tagLog lib ix' = tagLog lib ix := by funext items; unfold tagLog; rw [h.tags]
  have e3 : setLog lib ix' = setLog lib ix := by funext items; unfold setLog; rw [h.tagSets]
  have e4 : varLog lib ix' = varLog lib ix := by
    funext items; unfold varLog Index.variants collMessages; rw [h.tagSets, h.collectionIdx]
  have gg : ∀ {a b : Index}, Index.Obs a b → ∀ id, (MemCall.get id).goError b = (MemCall.get id).goError a := by
    intro a b hab id
    unfold MemCall.goError
    show ((b.get id).error).bind _ = ((a.get id).error).bind _
    rw [get_obs hab]
  have e5 : nodeLog ix' = nodeLog ix := by
    funext items
    have hnc := (SameAnswers.of_obs h).nodesCount
    unfold nodeLog
    split
    · rename_i sub rest
      rw [hnc]
      split
      · rfl
      · split
        · rfl
        · split
          · have o := fetchItemFromParent_obs ix 0 (decodeRunes sub)
            have o' := fetchItemFromParent_obs ix' 0 (decodeRunes sub)
            have e := fetchItemFromParent_congr h 0 (decodeRunes sub)
            generalize ix.fetchItemFromParent 0 (decodeRunes sub) = x at *
            generalize ix'.fetchItemFromParent 0 (decodeRunes sub) = x' at *
            obtain ⟨a, b⟩ := x
            obtain ⟨a', b'⟩ := x'
            simp only at e o o'
            subst e
            cases b' <;> try rfl
            rename_i id
            simp only
            rw [get_obs o, get_obs o', get_obs h, gg o, gg o', gg h]
          · split
            · rfl
            · rw [get_obs h, gg h]
    · rfl
  have e6 : searchLog eta ix' line = searchLog eta ix line := by
    have o := fetchFromItem_obs ix 0 (decodeRunes line)
    have o' := fetchFromItem_obs ix' 0 (decodeRunes line)
    have e := fetchFromItem_congr h 0 (decodeRunes line)
    have eg : (MemCall.fetchString line).goError ix' = (MemCall.fetchString line).goError ix := by
      unfold MemCall.goError
      show ((ix'.fetchFromItem 0 (decodeRunes line)).2.error).bind _ = ((ix.fetchFromItem 0 (decodeRunes line)).2.error).bind _
      rw [e]
    unfold searchLog
    rw [eg]
    unfold Index.fetchString Index.fetchRunes
    generalize ix.fetchFromItem 0 (decodeRunes line) = x at *
    generalize ix'.fetchFromItem 0 (decodeRunes line) = x' at *
    obtain ⟨a, b⟩ := x
    obtain ⟨a', b'⟩ := x'
    simp only at e o o'
    subst e
    cases b' <;> try rfl
    rename_i id
    simp only
    rw [(SameAnswers.of_obs o).tagSets, (SameAnswers.of_obs o').tagSets, (SameAnswers.of_obs h).tagSets]
  unfold toolLog
  rw [e1, e3, e4, e5, e6]

/-! ## Prefixes -/

theorem prefix_no (p q x : Str) (h : p.take q.length ≠ q.take p.length) : p.isPrefixOf (q ++ x) = false := by
  rw [Bool.eq_false_iff]
  intro hp
  obtain ⟨t, ht⟩ := List.isPrefixOf_iff_prefix.1 hp
  apply h
  have := congrArg (List.take (min p.length q.length)) ht
  rw [List.take_append_of_le_length (Nat.min_le_left _ _), List.take_append_of_le_length (Nat.min_le_right _ _)] at this
  rcases Nat.le_total p.length q.length with hl | hl
  · rw [Nat.min_eq_left hl, List.take_of_length_le (Nat.le_refl _)] at this
    rw [List.take_of_length_le hl]
    exact this
  · rw [Nat.min_eq_right hl, List.take_of_length_le (Nat.le_refl q.length)] at this
    rw [List.take_of_length_le (l := q) hl]
    exact this

theorem prefix_yes (p x : Str) : p.isPrefixOf (p ++ x) = true := List.isPrefixOf_iff_prefix.2 (List.prefix_append _ _)

/-- What comes after the first space. -/
def afterSpace (t : Str) : Str := (t.dropWhile (· != 0x20)).drop 1

theorem afterSpace_eq {a : Str} (b : Str) (h : (0x20 : UInt8) ∉ a) : afterSpace (a ++ 0x20 :: b) = b := by
  unfold afterSpace
  rw [List.dropWhile_append_of_pos (by
    intro x hx
    have : x ≠ 0x20 := fun e => h (e ▸ hx)
    simpa using this)]
  rw [List.dropWhile_cons_of_neg (by simp)]
  rfl

/-- A message, not an error, that continues what was said before. -/
def laterText (t : Str) : Bool :=
  ((str "< ").isPrefixOf t && ((t.drop 2).takeWhile isDigit != [] && (t.drop 2).takeWhile isDigit != str "00"))
  || ((str "set.tables: ").isPrefixOf t &&
      (!(str "total ").isPrefixOf (afterSpace t) && ((afterSpace t).dropWhile isDigit).head? != some 0x3a))
  || ((str "set.").isPrefixOf t &&
      ((str "load tag set").isPrefixOf (afterSpace t) || (str "tag set TS(").isPrefixOf (afterSpace t)))
  || (str "looking for ID ").isPrefixOf t || (str "loaded variants [").isPrefixOf t || (str "unpack tagset ").isPrefixOf t
  || (str "tagset ").isPrefixOf t

/-- A message that may be followed by an error. -/
def awaitsError (t : Str) : Bool :=
  (str "looking for var ").isPrefixOf t ||
  ((str "set.").isPrefixOf t &&
    ((str "looking tag set ").isPrefixOf (afterSpace t) || (str "tag set TS() loaded ok false").isPrefixOf (afterSpace t)))

/-- The second message is about the same line as the first. -/
def goesOn (a b : LogLevel × Str) : Bool :=
  if b.1 = .error then (a.1 != .error && awaitsError a.2) || (a.2 == str "reloading index" && (str "load index: ").isPrefixOf b.2)
  else laterText b.2

/-- The message can be the first about a line. -/
def Opens (m : LogLevel × Str) : Prop :=
  if m.1 = .error then (str "load index: ").isPrefixOf m.2 = false else laterText m.2 = false

/-- The message can be the last about a line. -/
def Finishes (m : LogLevel × Str) : Prop := m.1 = .error ∨ awaitsError m.2 = false

theorem goesOn_false {a b : LogLevel × Str} (ha : Finishes a) (hb : Opens b) : goesOn a b = false := by
  unfold goesOn
  unfold Opens at hb
  split
  · rename_i h
    rw [if_pos h] at hb
    rw [hb]
    rcases ha with ha | ha
    · simp [ha]
    · simp [ha]
  · rename_i h
    rwa [if_neg h] at hb

/-- The messages about a line belong together and can be told from what comes before and after. -/
structure BlockOK (b : List (LogLevel × Str)) : Prop where
  chain : b.IsChain fun x y => goesOn x y
  head : ∀ m ∈ b.head?, Opens m
  last : ∀ m ∈ b.getLast?, Finishes m

theorem BlockOK.nil : BlockOK [] := ⟨.nil, by simp, by simp⟩

theorem BlockOK.single {m : LogLevel × Str} (h1 : Opens m) (h2 : Finishes m) : BlockOK [m] :=
  ⟨.singleton _, by simpa using h1, by simpa using h2⟩

def laterPrefixes : List Str := [str "< ", str "set.", str "looking for ID ", str "loaded variants [", str "unpack tagset ", str "tagset "]

theorem laterText_no (q x : Str) (h : ∀ p ∈ laterPrefixes, p.take q.length ≠ q.take p.length)
    (ht : (str "set.tables: ").take q.length ≠ q.take (str "set.tables: ").length) : laterText (q ++ x) = false := by
  unfold laterText
  rw [prefix_no (str "< ") q x (h _ (by decide)), prefix_no (str "set.tables: ") q x ht, prefix_no (str "set.") q x (h _ (by decide)),
    prefix_no (str "looking for ID ") q x (h _ (by decide)), prefix_no (str "loaded variants [") q x (h _ (by decide)),
    prefix_no (str "unpack tagset ") q x (h _ (by decide)), prefix_no (str "tagset ") q x (h _ (by decide))]
  rfl

theorem awaits_no (q x : Str) (h : (str "looking for var ").take q.length ≠ q.take (str "looking for var ").length)
    (h2 : (str "set.").take q.length ≠ q.take (str "set.").length) : awaitsError (q ++ x) = false := by
  unfold awaitsError
  rw [prefix_no _ q x h, prefix_no _ q x h2]
  rfl

/-- A message that has nothing to do with the others. -/
theorem BlockOK.plain (l : LogLevel) (hl : l ≠ .error) (q x : Str)
    (h : (∀ p ∈ laterPrefixes, p.take q.length ≠ q.take p.length) ∧
      (str "set.tables: ").take q.length ≠ q.take (str "set.tables: ").length ∧
      (str "looking for var ").take q.length ≠ q.take (str "looking for var ").length) : BlockOK [(l, q ++ x)] := by
  refine .single ?_ (.inr ?_)
  · unfold Opens
    rw [if_neg hl]
    exact laterText_no q x h.1 h.2.1
  · exact awaits_no q x h.2.2 (h.1 _ (by decide))

theorem BlockOK.error (q x : Str) (h : (str "load index: ").take q.length ≠ q.take (str "load index: ").length) :
    BlockOK [(.error, q ++ x)] := by
  refine .single ?_ (.inl rfl)
  unfold Opens
  rw [if_pos rfl]
  exact prefix_no _ _ _ h

theorem BlockOK.error0 (q : Str) (h : (str "load index: ").take q.length ≠ q.take (str "load index: ").length) :
    BlockOK [(.error, q)] := by
  have := BlockOK.error q [] h
  simpa using this

/-! ## The commands -/

theorem tagLog_block (lib : Lib) (ix : Index) (items : List Str) : BlockOK (withError (tagLog lib ix items)) := by
  unfold tagLog
  repeat' split
  all_goals
    unfold withError
    simp only [List.nil_append, List.append_nil]
    first
      | exact .nil
      | exact .error0 _ (by decide)
      | exact .error _ _ (by decide)
      | exact .plain .info (by decide) (str "tag.count: ") _ (by decide)
      | exact .plain .info (by decide) (str "tag[") _ (by decide)

theorem itoa_cons (n : Nat) : ∃ c t, itoa n = c :: t ∧ isDigit c = true := by
  obtain ⟨c, t, e, -, -⟩ := itoa_head n
  refine ⟨c, t, e, ?_⟩
  have := List.all_eq_true.1 (itoa_isDigit n) c (by rw [e]; simp)
  exact this

theorem digit_prefix (p : Str) (a : UInt8) (hp : p.head? = some a) (ha : isDigit a = false) {c : UInt8} (hc : isDigit c = true) (t : Str) :
    p.isPrefixOf (c :: t) = false := by
  cases p with
  | nil => cases hp
  | cons b p =>
    obtain rfl := Option.some.inj hp
    rw [List.isPrefixOf_cons_cons]
    have : (b == c) = false := by
      rw [beq_eq_false_iff_ne]
      rintro rfl
      rw [ha] at hc
      cases hc
    rw [this]
    rfl

theorem dropDigits (d t : Str) (hd : d.all isDigit = true) (c : UInt8) (hc : isDigit c = false) :
    (d ++ c :: t).dropWhile isDigit = c :: t ∧ (d ++ c :: t).takeWhile isDigit = d := by
  have h1 : ∀ x ∈ d, isDigit x = true := List.all_eq_true.1 hd
  constructor
  · rw [List.dropWhile_append_of_pos h1, List.dropWhile_cons_of_neg (by simp [hc])]
  · rw [List.takeWhile_append_of_pos h1, List.takeWhile_cons_of_neg (by simp [hc])]
    simp

theorem pad2_all (n : Nat) : (pad2 n).all isDigit = true := by
  unfold pad2
  rw [List.all_append, itoa_isDigit, Bool.and_true, List.all_eq_true]
  intro x hx
  rw [(List.mem_replicate.1 hx).2]
  decide

theorem pad2_zero {n : Nat} (h : pad2 n = str "00") : n = 0 := by
  by_cases hn : n < 10
  · have : ∀ n < 10, pad2 n = str "00" → n = 0 := by decide
    exact this n hn h
  · have h1 := itoa_length n
    rw [if_neg hn] at h1
    have h2 : 0 < (itoa (n / 10)).length := List.length_pos_iff.2 (itoa_ne_nil _)
    have h3 : pad2 n = itoa n := by
      unfold pad2
      rw [show 2 - (itoa n).length = 0 by omega]
      rfl
    rw [h3] at h
    have hv : digitsValue (itoa n) = n := by rw [itoa_eq]; exact digitsValue_numText n
    rw [h] at hv
    have : digitsValue (str "00") = 0 := by decide
    omega

theorem chain_of_later : ∀ (l : List (LogLevel × Str)) (a : LogLevel × Str), (∀ m ∈ l, m.1 ≠ .error ∧ laterText m.2 = true) →
    (a :: l).IsChain fun x y => goesOn x y
  | [], _, _ => .singleton _
  | b :: l, a, h => by
    rw [List.isChain_cons_cons]
    refine ⟨?_, chain_of_later l b fun m hm => h m (List.mem_cons_of_mem _ hm)⟩
    obtain ⟨h1, h2⟩ := h b List.mem_cons_self
    unfold goesOn
    rw [if_neg h1]
    exact h2

theorem chain_error {a : LogLevel × Str} {t : Str} (ha : a.1 ≠ .error) (h : awaitsError a.2 = true) : goesOn a (.error, t) = true := by
  unfold goesOn
  rw [if_pos rfl, h]
  have : (a.1 != .error) = true := by simpa using ha
  rw [this]
  rfl

/-! ### `set` -/

theorem setHead_space (n : Int) : ∃ a : Str, setHead n = str "set." ++ (a ++ [0x20]) ∧ (0x20 : UInt8) ∉ a := by
  refine ⟨intText n ++ (str "(0x" ++ (intHex n ++ str "):")), ?_, ?_⟩
  · unfold setHead
    have e : str "): " = str "):" ++ [0x20] := by decide
    rw [e]
    simp
  · have h1 : (0x20 : UInt8) ∉ intText n := intText_no n (by decide) (by decide)
    have h2 : (0x20 : UInt8) ∉ intHex n := intHex_no n (by decide) (by decide)
    have h3 : (0x20 : UInt8) ∉ str "(0x" := by decide
    have h4 : (0x20 : UInt8) ∉ str "):" := by decide
    simp only [List.mem_append, not_or]
    exact ⟨h1, h3, h2, h4⟩

theorem afterSpace_set {a : Str} (b : Str) (h : (0x20 : UInt8) ∉ a) : afterSpace (str "set." ++ (a ++ 0x20 :: b)) = b := by
  rw [← List.append_assoc]
  refine afterSpace_eq b ?_
  rw [List.mem_append, not_or]
  exact ⟨by decide, h⟩

theorem afterSpace_head (n : Int) (b : Str) : afterSpace (setHead n ++ b) = b := by
  obtain ⟨a, e, h⟩ := setHead_space n
  rw [e]
  simp only [List.append_assoc, List.cons_append, List.nil_append]
  exact afterSpace_set b h

theorem setHead_prefix (n : Int) (b : Str) : (str "set.").isPrefixOf (setHead n ++ b) = true := by
  unfold setHead
  rw [List.append_assoc]
  exact prefix_yes _ _

theorem later_set {n : Int} {b : Str} (h : (str "load tag set").isPrefixOf b = true ∨ (str "tag set TS(").isPrefixOf b = true) :
    laterText (setHead n ++ b) = true := by
  unfold laterText
  rw [setHead_prefix, afterSpace_head]
  rcases h with h | h <;> rw [h] <;> simp

theorem tagSetText_prefix (ts : TagSet) (x : Str) : (str "tag set TS(").isPrefixOf (str "tag set " ++ (tagSetText ts ++ x)) = true := by
  unfold tagSetText
  have e : str "tag set TS(" = str "tag set " ++ (str "TS" ++ str "(") := by decide
  have : str "tag set " ++ (str "TS" ++ str "(" ++ joinComma (ts.map fun t => itoa t.toNat) ++ str ")" ++ x) =
      str "tag set TS(" ++ (joinComma (ts.map fun t => itoa t.toNat) ++ (str ")" ++ x)) := by rw [e]; simp
  rw [this]
  exact prefix_yes _ _

theorem looking_texts {sub : Str} (hs : (0x20 : UInt8) ∉ sub) (ht : sub ≠ str "tables") (l : LogLevel) (hl : l ≠ .error) :
    Opens (l, str "set." ++ (sub ++ (str ": looking tag set " ++ sub))) ∧
    awaitsError (str "set." ++ (sub ++ (str ": looking tag set " ++ sub))) = true := by
  have ha : afterSpace (str "set." ++ (sub ++ (str ": looking tag set " ++ sub))) = str "looking tag set " ++ sub := by
    have e : str ": looking tag set " = [0x3a] ++ 0x20 :: str "looking tag set " := by decide
    have : str "set." ++ (sub ++ (str ": looking tag set " ++ sub)) =
        str "set." ++ ((sub ++ [0x3a]) ++ 0x20 :: (str "looking tag set " ++ sub)) := by rw [e]; simp
    rw [this]
    exact afterSpace_set _ (by simp [hs])
  constructor
  · unfold Opens
    rw [if_neg hl]
    unfold laterText
    simp only
    rw [ha, prefix_no (str "< ") (str "set.") _ (by decide), prefix_no (str "load tag set") (str "looking tag set ") _ (by decide),
      prefix_no (str "tag set TS(") (str "looking tag set ") _ (by decide), prefix_no (str "looking for ID ") (str "set.") _ (by decide),
      prefix_no (str "loaded variants [") (str "set.") _ (by decide), prefix_no (str "unpack tagset ") (str "set.") _ (by decide),
      prefix_no (str "tagset ") (str "set.") _ (by decide)]
    have : (str "set.tables: ").isPrefixOf (str "set." ++ (sub ++ (str ": looking tag set " ++ sub))) = false := by
      rw [Bool.eq_false_iff]
      intro hp
      obtain ⟨u, hu⟩ := List.isPrefixOf_iff_prefix.1 hp
      exact setLooking_apart hs ht hu.symm
    rw [this]
    simp
  · unfold awaitsError
    rw [ha, prefix_yes, prefix_yes]
    simp

theorem joinComma_digits (l : List Nat) : joinComma (l.map itoa) = [] ∨ ∃ c t, joinComma (l.map itoa) = c :: t ∧ isDigit c = true := by
  match l with
  | [] => exact .inl rfl
  | [a] =>
    obtain ⟨c, t, e, hc⟩ := itoa_cons a
    refine .inr ⟨c, t, ?_, hc⟩
    show itoa a = _
    exact e
  | a :: b :: l =>
    obtain ⟨c, t, e, hc⟩ := itoa_cons a
    refine .inr ⟨c, t ++ (str "," ++ joinComma ((b :: l).map itoa)), ?_, hc⟩
    show itoa a ++ str "," ++ joinComma ((b :: l).map itoa) = _
    rw [e]
    simp

theorem setLen_finishes (n : Int) (ts : TagSet) :
    awaitsError (setHead n ++ (str "tag set " ++ (tagSetText ts ++ (str " len " ++ itoa ts.length)))) = false := by
  unfold awaitsError
  rw [setHead_prefix, afterSpace_head, prefix_no (str "looking tag set ") (str "tag set ") _ (by decide)]
  have h1 : (str "looking for var ").isPrefixOf
      (setHead n ++ (str "tag set " ++ (tagSetText ts ++ (str " len " ++ itoa ts.length)))) = false := by
    unfold setHead
    rw [List.append_assoc]
    exact prefix_no _ _ _ (by decide)
  have h2 : (str "tag set TS() loaded ok false").isPrefixOf (str "tag set " ++ (tagSetText ts ++ (str " len " ++ itoa ts.length))) = false := by
    unfold tagSetText
    have e : str "tag set TS(" = str "tag set " ++ (str "TS" ++ str "(") := by decide
    have : str "tag set " ++ (str "TS" ++ str "(" ++ joinComma (ts.map fun t => itoa t.toNat) ++ str ")" ++ (str " len " ++ itoa ts.length)) =
        str "tag set TS(" ++ (joinComma (ts.map fun t => itoa t.toNat) ++ (str ")" ++ (str " len " ++ itoa ts.length))) := by rw [e]; simp
    rw [this]
    have hd := joinComma_digits (ts.map (·.toNat))
    rw [List.map_map] at hd
    have hm : (ts.map fun t => itoa t.toNat) = ts.map (itoa ∘ (·.toNat)) := rfl
    rw [hm]
    rcases hd with hd | ⟨c, t, hd, hc⟩
    · rw [hd]
      have : str "tag set TS(" ++ ([] ++ (str ")" ++ (str " len " ++ itoa ts.length))) = str "tag set TS() len " ++ itoa ts.length := by
        have e : str "tag set TS() len " = str "tag set TS(" ++ (str ")" ++ str " len ") := by decide
        rw [e]; simp
      rw [this]
      exact prefix_no _ _ _ (by decide)
    · rw [hd]
      have : str "tag set TS(" ++ (c :: t ++ (str ")" ++ (str " len " ++ itoa ts.length))) =
          (str "tag set TS(" ++ [c]) ++ (t ++ (str ")" ++ (str " len " ++ itoa ts.length))) := by simp
      rw [this]
      refine prefix_no _ _ _ ?_
      intro h
      have : (str "tag set TS() loaded ok false").take (str "tag set TS(" ++ [c]).length = str "tag set TS(" ++ [0x29] := by
        rw [List.length_append, List.length_singleton]; decide
      rw [this] at h
      have e2 : (str "tag set TS(" ++ [c]).take (str "tag set TS() loaded ok false").length = str "tag set TS(" ++ [c] := by
        rw [List.take_of_length_le]
        rw [List.length_append, List.length_singleton]
        decide
      rw [e2] at h
      have := List.append_cancel_left h
      obtain rfl : c = 0x29 := by injection this with h1; exact h1.symm
      revert hc
      decide
  rw [h1, h2]
  rfl

theorem tableSizes_text (l : List Nat) : joinWith (str ", ") (tableSizes 0 l) = [] ∨
    ∃ t, joinWith (str ", ") (tableSizes 0 l) = str "00(" ++ t := by
  have e : pad2 0 ++ str "(" = str "00(" := by decide
  match l with
  | [] => exact .inl rfl
  | [a] =>
    refine .inr ⟨itoa a ++ str ")", ?_⟩
    rw [← e, List.append_assoc]
    rfl
  | a :: b :: l =>
    refine .inr ⟨itoa a ++ str ")" ++ (str ", " ++ joinWith (str ", ") (tableSizes 1 (b :: l))), ?_⟩
    rw [← e]
    show tableSize 0 a ++ (str ", " ++ joinWith (str ", ") (tableSizes 1 (b :: l))) = _
    unfold tableSize
    simp

theorem afterSpace_tables (x : Str) : afterSpace (str "set.tables: " ++ x) = x := by
  have e : str "set.tables: " = str "set.tables:" ++ [0x20] := by decide
  rw [e, List.append_assoc]
  exact afterSpace_eq x (by decide)

theorem tables_prefix (x : Str) : (str "set.").isPrefixOf (str "set.tables: " ++ x) = true := by
  have e : str "set.tables: " = str "set." ++ str "tables: " := by decide
  rw [e, List.append_assoc]
  exact prefix_yes _ _

theorem later_list (l : List Nat) : laterText (str "set.tables: " ++ joinWith (str ", ") (tableSizes 0 l)) = true := by
  unfold laterText
  rw [prefix_yes, afterSpace_tables]
  rcases tableSizes_text l with h | ⟨t, h⟩
  · rw [h]
    have : ((!(str "total ").isPrefixOf [] && (List.dropWhile isDigit []).head? != some 0x3a) : Bool) = true := by decide
    rw [this]
    simp
  · rw [h, prefix_no (str "total ") (str "00(") t (by decide)]
    have e : str "00(" ++ t = str "00" ++ 0x28 :: t := by
      have e : str "00(" = str "00" ++ [0x28] := by decide
      rw [e]; simp
    rw [e, (dropDigits (str "00") t (by decide) 0x28 (by decide)).1]
    have : (((0x28 : UInt8) :: t).head? != some 0x3a) = true := by rw [List.head?_cons]; decide
    rw [this]
    simp

theorem awaits_tables (x : Str) (h1 : (str "looking tag set ").isPrefixOf x = false) (h2 : (str "tag set TS() loaded ok false").isPrefixOf x = false) :
    awaitsError (str "set.tables: " ++ x) = false := by
  unfold awaitsError
  rw [prefix_no (str "looking for var ") (str "set.tables: ") x (by decide), afterSpace_tables, h1, h2]
  simp

theorem awaits_list (l : List Nat) : awaitsError (str "set.tables: " ++ joinWith (str ", ") (tableSizes 0 l)) = false := by
  rcases tableSizes_text l with h | ⟨t, h⟩
  · rw [h]; decide
  · rw [h]
    exact awaits_tables _ (prefix_no _ _ _ (by decide)) (prefix_no _ _ _ (by decide))

theorem opens_total (n : Nat) : laterText (str "set.tables: total " ++ itoa n) = false := by
  have e : str "set.tables: total " ++ itoa n = str "set.tables: " ++ (str "total " ++ itoa n) := by
    have e : str "set.tables: total " = str "set.tables: " ++ str "total " := by decide
    rw [e, List.append_assoc]
  rw [e]
  unfold laterText
  rw [prefix_no (str "< ") (str "set.tables: ") _ (by decide), afterSpace_tables, prefix_yes (str "total "),
    prefix_no (str "load tag set") (str "total ") _ (by decide), prefix_no (str "tag set TS(") (str "total ") _ (by decide),
    prefix_no (str "looking for ID ") (str "set.tables: ") _ (by decide), prefix_no (str "loaded variants [") (str "set.tables: ") _ (by decide),
    prefix_no (str "unpack tagset ") (str "set.tables: ") _ (by decide), prefix_no (str "tagset ") (str "set.tables: ") _ (by decide)]
  simp

theorem table_texts (n : Nat) (x : Str) : laterText (str "set.tables: " ++ (itoa n ++ (str ": " ++ x))) = false ∧
    awaitsError (str "set.tables: " ++ (itoa n ++ (str ": " ++ x))) = false := by
  obtain ⟨c, t, e, hc⟩ := itoa_cons n
  have hp : ∀ (p : Str) (a : UInt8), p.head? = some a → isDigit a = false → p.isPrefixOf (itoa n ++ (str ": " ++ x)) = false := by
    intro p a h1 h2
    rw [e]
    exact digit_prefix p a h1 h2 hc _
  constructor
  · unfold laterText
    rw [prefix_no (str "< ") (str "set.tables: ") _ (by decide), afterSpace_tables, hp (str "total ") 0x74 (by decide) (by decide),
      hp (str "load tag set") 0x6c (by decide) (by decide), hp (str "tag set TS(") 0x74 (by decide) (by decide),
      prefix_no (str "looking for ID ") (str "set.tables: ") _ (by decide), prefix_no (str "loaded variants [") (str "set.tables: ") _ (by decide),
      prefix_no (str "unpack tagset ") (str "set.tables: ") _ (by decide), prefix_no (str "tagset ") (str "set.tables: ") _ (by decide)]
    have e2 : str ": " ++ x = 0x3a :: (0x20 :: x) := by
      have e : str ": " = [0x3a, 0x20] := by decide
      rw [e]; rfl
    rw [e2, (dropDigits (itoa n) (0x20 :: x) (itoa_isDigit n) 0x3a (by decide)).1]
    simp
  · exact awaits_tables _ (hp _ 0x6c (by decide) (by decide)) (hp _ 0x74 (by decide) (by decide))

theorem setLog_block (lib : Lib) (ix : Index) (items : List Str) (hsp : ∀ a ∈ items, (0x20 : UInt8) ∉ a) :
    BlockOK (withError (setLog lib ix items)) := by
  unfold setLog
  split
  · rename_i c sub rest
    have hs : (0x20 : UInt8) ∉ sub := hsp sub (by simp)
    split
    · refine ⟨?_, ?_, ?_⟩
      · refine chain_of_later _ _ ?_
        intro m hm
        obtain rfl := List.mem_singleton.1 hm
        exact ⟨by simp, later_list _⟩
      · intro m hm
        obtain rfl := Option.some.inj hm
        show Opens (.info, _)
        unfold Opens
        rw [if_neg (by simp)]
        exact opens_total _
      · intro m hm
        obtain rfl := Option.some.inj hm
        exact .inr (awaits_list _)
    · rename_i ht
      split
      · split
        · split
          · exact .error _ _ (by decide)
          · rename_i n ha
            split
            · exact .error _ _ (by decide)
            · split
              · rename_i t hsl
                obtain ⟨h0, -⟩ := sliceAt_ok hsl
                have hi : intText n = itoa n.toNat := by unfold intText; rw [if_pos h0]
                refine .single ?_ (.inr ?_)
                · unfold Opens
                  rw [if_neg (by simp)]
                  show laterText (tableMessage n t) = false
                  unfold tableMessage
                  rw [hi]
                  exact (table_texts _ _).1
                · show awaitsError (tableMessage n t) = false
                  unfold tableMessage
                  rw [hi]
                  exact (table_texts _ _).2
              · exact .nil
        · exact .error0 _ (by decide)
      · obtain ⟨ho, hw⟩ := looking_texts hs ht .info (by decide)
        simp only
        split
        · refine ⟨?_, ?_, ?_⟩
          · show List.IsChain _ [_, _]
            rw [List.isChain_cons_cons]
            exact ⟨chain_error (by simp) hw, .singleton _⟩
          · intro m hm
            obtain rfl := Option.some.inj hm
            exact ho
          · intro m hm
            obtain rfl := Option.some.inj hm
            exact .inl rfl
        · rename_i n hn
          split
          · refine ⟨?_, ?_, ?_⟩
            · show List.IsChain _ [_, _, _, _]
              have h1 : ∀ a b, goesOn (a, b) (.info, setHead n ++ str "load tag set") = true := by
                intro a b
                unfold goesOn
                rw [if_neg (by simp)]
                exact later_set (.inl (by decide))
              have h2 : ∀ a b, goesOn (a, b) (.info, setHead n ++ (str "tag set " ++ (tagSetText [] ++ str " loaded ok false"))) = true := by
                intro a b
                unfold goesOn
                rw [if_neg (by simp)]
                exact later_set (.inr (tagSetText_prefix _ _))
              rw [List.isChain_cons_cons, List.isChain_cons_cons, List.isChain_cons_cons]
              refine ⟨h1 _ _, h2 _ _, chain_error (by simp) ?_, .singleton _⟩
              unfold awaitsError
              rw [setHead_prefix, afterSpace_head]
              have : (str "tag set TS() loaded ok false").isPrefixOf (str "tag set " ++ (tagSetText [] ++ str " loaded ok false")) = true := by
                decide
              rw [this]
              simp
            · intro m hm
              obtain rfl := Option.some.inj hm
              exact ho
            · intro m hm
              obtain rfl := Option.some.inj hm
              exact .inl rfl
          · rename_i ts hts
            refine ⟨?_, ?_, ?_⟩
            · refine chain_of_later [_, _, _] _ ?_
              intro m hm
              simp only [List.mem_cons, List.not_mem_nil, or_false] at hm
              rcases hm with rfl | rfl | rfl
              · exact ⟨by simp, later_set (.inl (by decide))⟩
              · exact ⟨by simp, later_set (.inr (tagSetText_prefix _ _))⟩
              · exact ⟨by simp, later_set (.inr (tagSetText_prefix _ _))⟩
            · intro m hm
              obtain rfl := Option.some.inj hm
              exact ho
            · intro m hm
              obtain rfl := Option.some.inj hm
              exact .inr (setLen_finishes n ts)
  · exact .error0 _ (by decide)

/-! ### `var` -/

theorem later_var (q x : Str) (hq : q = str "looking for ID " ∨ q = str "loaded variants [" ∨ q = str "unpack tagset " ∨ q = str "tagset ") :
    laterText (q ++ x) = true ∧ awaitsError (q ++ x) = false := by
  constructor
  · unfold laterText
    rcases hq with rfl | rfl | rfl | rfl <;> rw [prefix_yes] <;> simp
  · rcases hq with rfl | rfl | rfl | rfl <;> exact awaits_no _ _ (by decide) (by decide)

theorem varTail_block (sub : Str) (l : List (LogLevel × Str)) (hne : l ≠ [])
    (h : ∀ m ∈ l, ∃ q x, m = (.info, q ++ x) ∧
      (q = str "looking for ID " ∨ q = str "loaded variants [" ∨ q = str "unpack tagset " ∨ q = str "tagset ")) :
    BlockOK ((.info, str "looking for var " ++ sub) :: l) := by
  refine ⟨chain_of_later _ _ ?_, ?_, ?_⟩
  · intro m hm
    obtain ⟨q, x, rfl, hq⟩ := h m hm
    exact ⟨by simp, (later_var q x hq).1⟩
  · intro m hm
    obtain rfl := Option.some.inj hm
    unfold Opens
    rw [if_neg (by simp)]
    exact laterText_no _ _ (by decide) (by decide)
  · intro m hm
    have : m ∈ l := by
      rw [List.getLast?_cons] at hm
      cases hl : l.getLast? with
      | none => exact absurd (List.getLast?_eq_none_iff.1 hl) hne
      | some a =>
        rw [hl] at hm
        obtain rfl : a = m := by simpa using hm
        exact List.mem_of_getLast? hl
    obtain ⟨q, x, rfl, hq⟩ := h m this
    exact .inr (later_var q x hq).2

theorem varLog_block (lib : Lib) (ix : Index) (items : List Str) : BlockOK (withError (varLog lib ix items)) := by
  unfold varLog
  split
  · rename_i c sub rest
    simp only
    split
    · refine ⟨?_, ?_, ?_⟩
      · show List.IsChain _ [_, _]
        rw [List.isChain_cons_cons]
        refine ⟨chain_error (by simp) ?_, .singleton _⟩
        unfold awaitsError
        rw [prefix_yes]
        rfl
      · intro m hm
        obtain rfl := Option.some.inj hm
        unfold Opens
        rw [if_neg (by simp)]
        exact laterText_no _ _ (by decide) (by decide)
      · intro m hm
        obtain rfl := Option.some.inj hm
        exact .inl rfl
    · rename_i v hv
      split
      · rename_i cc hc
        unfold withError
        rw [List.append_nil]
        refine varTail_block _ _ (by simp) ?_
        intro m hm
        rcases List.mem_cons.1 hm with rfl | hm
        · exact ⟨_, _, rfl, .inl rfl⟩
        rcases List.mem_cons.1 hm with rfl | hm
        · exact ⟨_, _, rfl, .inr (.inl rfl)⟩
        unfold collMessages at hm
        obtain ⟨id, -, hm⟩ := List.mem_flatMap.1 hm
        simp only [List.mem_cons, List.not_mem_nil, or_false] at hm
        rcases hm with rfl | rfl
        · exact ⟨_, _, rfl, .inr (.inr (.inl rfl))⟩
        · exact ⟨_, _, rfl, .inr (.inr (.inr rfl))⟩
      · unfold withError
        rw [List.append_nil]
        refine varTail_block _ _ (by simp) ?_
        intro m hm
        obtain rfl := List.mem_singleton.1 hm
        exact ⟨_, _, rfl, .inl rfl⟩
  · exact .error0 _ (by decide)

/-! ### `node` and the search -/

theorem found_get {h : List Op} {ix ix' : Index} (r : Run h ix) {w : List Rune} {id : ID}
    (hf : ix.fetchItemFromParent 0 w = (ix', .ok id)) : ix'.get id = .ok id := by
  have hT := r.trie
  have h2 := congrArg Prod.snd hf
  rw [fetchItemFromParent_same hT] at h2
  have h3 := (hT.fetchRoot_iff _ id).1 h2
  have h4 := hT.get_ok h3.2
  have h5 := (fetchItemFromParent_obs ix 0 w).items
  rw [hf] at h5
  unfold Index.get at h4 ⊢
  rw [h5]
  exact h4

theorem nodeLog_block {h : List Op} {ix : Index} (r : Run h ix) (items : List Str) : BlockOK (withError (nodeLog ix items)) := by
  unfold nodeLog
  split
  · rename_i c sub rest
    split
    · exact .plain .info (by decide) (str "node.count: total ") _ (by decide)
    split
    · exact .error0 _ (by decide)
    split
    · split
      · rename_i ix' id hf
        simp only [found_get r hf]
        exact .plain .debug (by decide) (str "node ") _ (by decide)
      · exact .error _ _ (by decide)
      · exact .nil
    · split
      · exact .error _ _ (by decide)
      · split
        · exact .plain .debug (by decide) (str "node ") _ (by decide)
        · exact .error _ _ (by decide)
  · exact .error0 _ (by decide)

theorem later_reading {i : Nat} (hi : 0 < i) (x : Str) : laterText (str "< " ++ (pad2 i ++ (str ": " ++ x))) = true := by
  unfold laterText
  rw [prefix_yes]
  have e : (str "< " ++ (pad2 i ++ (str ": " ++ x))).drop 2 = pad2 i ++ 0x3a :: (0x20 :: x) := by
    have e : str "< " = [0x3c, 0x20] := by decide
    have e2 : str ": " = [0x3a, 0x20] := by decide
    rw [e, e2]
    rfl
  rw [e, (dropDigits (pad2 i) (0x20 :: x) (pad2_all i) 0x3a (by decide)).2]
  have h1 : (pad2 i != []) = true := by
    rw [bne_iff_ne]
    intro h0
    unfold pad2 at h0
    exact itoa_ne_nil _ (List.append_eq_nil_iff.1 h0).2
  have h2 : (pad2 i != str "00") = true := by
    rw [bne_iff_ne]
    intro h0
    have := pad2_zero h0
    omega
  rw [h1, h2]
  rfl

theorem laterText_search (x : Str) (h : ((x.takeWhile isDigit != [] && x.takeWhile isDigit != str "00") : Bool) = false) :
    laterText (str "< " ++ x) = false := by
  unfold laterText
  have e : (str "< " ++ x).drop 2 = x := by
    have e : str "< " = [0x3c, 0x20] := by decide
    rw [e]; rfl
  rw [e, h, prefix_no (str "set.tables: ") (str "< ") _ (by decide), prefix_no (str "set.") (str "< ") _ (by decide),
    prefix_no (str "looking for ID ") (str "< ") _ (by decide), prefix_no (str "loaded variants [") (str "< ") _ (by decide),
    prefix_no (str "unpack tagset ") (str "< ") _ (by decide), prefix_no (str "tagset ") (str "< ") _ (by decide)]
  simp

theorem awaits_search (x : Str) : awaitsError (str "< " ++ x) = false := awaits_no _ _ (by decide) (by decide)

theorem readingMessages_later (eta : Nat → Str) : ∀ (L : List (List Tag)) (k : Nat), 0 < k →
    ∀ m ∈ readingMessages eta k L, m.1 ≠ .error ∧ laterText m.2 = true
  | [], _, _, m, hm => by cases hm
  | t :: L, k, hk, m, hm => by
    rcases List.mem_cons.1 hm with rfl | hm
    · refine ⟨by simp, ?_⟩
      unfold withEta
      simp only [List.append_assoc]
      exact later_reading hk _
    · exact readingMessages_later eta L (k + 1) (by omega) m hm

theorem readingMessages_finish (eta : Nat → Str) : ∀ (L : List (List Tag)) (k : Nat), ∀ m ∈ readingMessages eta k L, awaitsError m.2 = false
  | [], _, m, hm => by cases hm
  | t :: L, k, m, hm => by
    rcases List.mem_cons.1 hm with rfl | hm
    · exact awaits_search _
    · exact readingMessages_finish eta L (k + 1) m hm

theorem searchLog_block (eta : Nat → Str) (ix : Index) (line : Str) : BlockOK (searchLog eta ix line) := by
  have one : ∀ x : Str, ((x.takeWhile isDigit != [] && x.takeWhile isDigit != str "00") : Bool) = false →
      BlockOK [(.info, str "< " ++ x)] := by
    intro x h
    refine .single ?_ (.inr (awaits_search x))
    unfold Opens
    rw [if_neg (by simp)]
    exact laterText_search x h
  unfold searchLog
  split
  · rename_i ix' id hf
    split
    · rename_i L hL
      split
      · refine one _ ?_
        have e : ∀ x, str "empty" ++ x = 0x65 :: (str "mpty" ++ x) := by
          intro x
          have e : str "empty" = 0x65 :: str "mpty" := by decide
          rw [e]; rfl
        rw [e, List.takeWhile_cons_of_neg (by decide)]
        rfl
      · rename_i hne
        cases L with
        | nil => exact absurd rfl hne
        | cons t L =>
          refine ⟨chain_of_later _ _ (readingMessages_later eta L 1 (by omega)), ?_, ?_⟩
          · intro m hm
            obtain rfl := Option.some.inj hm
            unfold Opens
            rw [if_neg (by simp)]
            refine laterText_search _ ?_
            have e : ∀ x, (pad2 0 ++ (str ": " ++ x)) = str "00" ++ 0x3a :: (0x20 :: x) := by
              intro x
              have e : pad2 0 = str "00" := by decide
              have e2 : str ": " = [0x3a, 0x20] := by decide
              rw [e, e2]
              rfl
            simp only [List.append_assoc]
            rw [e, (dropDigits (str "00") _ (by decide) 0x3a (by decide)).2]
            decide
          · intro m hm
            exact .inr (readingMessages_finish eta (t :: L) 0 m (List.mem_of_getLast? hm))
    · exact .nil
  · rename_i ix' e hf
    obtain ⟨g, reason, hg, ht⟩ := lookup_text hf
    simp only [hg]
    refine one _ ?_
    rw [ht]
    have e : str "index: " ++ reason ++ (str ", eta " ++ eta 0) = 0x69 :: (str "ndex: " ++ (reason ++ (str ", eta " ++ eta 0))) := by
      have e : str "index: " = 0x69 :: str "ndex: " := by decide
      rw [e]; simp
    rw [e, List.takeWhile_cons_of_neg (by decide)]
    rfl
  · exact .nil
  · exact .nil

theorem toolLog_block {h : List Op} {ix : Index} (r : Run h ix) (lib : Lib) (eta : Nat → Str) (line : Str) :
    BlockOK (toolLog lib eta ix line) := by
  unfold toolLog
  simp only
  split
  · exact tagLog_block _ _ _
  split
  · exact setLog_block _ _ _ (splitSpaces_noSpace line)
  split
  · exact nodeLog_block r _
  split
  · exact varLog_block _ _ _
  split
  · have := BlockOK.plain .info (by decide) (str "reloading index") [] (by decide)
    simpa using this
  split
  · have := BlockOK.plain .info (by decide) (str "exiting") [] (by decide)
    simpa using this
  · exact searchLog_block _ _ _

/-! ## Lines that crash the tool -/

/-- The messages of a line that crashed the tool. -/
def crashBlock : List (LogLevel × Str) → Bool
  | [] => true
  | [(.debug, t)] => (str "node 0 ").isPrefixOf t
  | [_, (.info, t)] => (str "looking for ID ").isPrefixOf t
  | _ => false

/-- The log tells whether the line crashed the tool. -/
structure CrashTold (x : Out Reply) (log : List (LogLevel × Str)) : Prop where
  ok : ∀ r, x = .ok r → crashBlock log = false
  panic : x = .panic → crashBlock log = true

theorem CrashTold.good {r : Reply} {log : List (LogLevel × Str)} (h : crashBlock log = false) : CrashTold (.ok r) log :=
  ⟨fun _ _ => h, nofun⟩

theorem CrashTold.bad {log : List (LogLevel × Str)} (h : crashBlock log = true) : CrashTold .panic log :=
  ⟨nofun, fun _ => h⟩

theorem tagLog_crash (lib : Lib) (ix : Index) (items : List Str) : CrashTold (processTag lib ix items) (withError (tagLog lib ix items)) := by
  unfold processTag tagLog
  split
  · rename_i c arg
    by_cases hc : arg = str "count"
    · simp only [if_pos hc]
      exact .good rfl
    · simp only [if_neg hc]
      cases ha : atoi arg with
      | none =>
        simp only
        cases ix.tags.zipIdx.find? (fun e => lib.equalFold e.1.name arg) with
        | none => exact .good rfl
        | some e => exact .good rfl
      | some n =>
        simp only
        by_cases hn : n ≥ ix.tags.length
        · simp only [if_pos hn]
          exact .good rfl
        · simp only [if_neg hn]
          cases sliceAt ix.tags n with
          | ok t => exact .good rfl
          | err e => exact ⟨nofun, nofun⟩
          | panic => exact .bad rfl
          | diverge => exact ⟨nofun, nofun⟩
  · rename_i hne
    split
    · exact absurd rfl (hne _ _)
    · exact .good rfl

theorem setLog_crash (lib : Lib) (ix : Index) (items : List Str) : CrashTold (processSet lib ix items) (withError (setLog lib ix items)) := by
  unfold processSet setLog
  split
  · rename_i c sub rest
    by_cases hc : sub = str "tables"
    · simp only [if_pos hc]
      refine .good ?_
      exact prefix_no (str "looking for ID ") (str "set.tables: ") _ (by decide)
    · simp only [if_neg hc]
      by_cases hc2 : sub = str "table"
      · simp only [if_pos hc2]
        match rest with
        | [] => exact .good rfl
        | [arg] =>
          simp only
          cases ha : atoi arg with
          | none => exact .good rfl
          | some n =>
            simp only
            by_cases hn : n ≥ ix.tagSets.length
            · simp only [if_pos hn]
              exact .good rfl
            · simp only [if_neg hn]
              cases sliceAt ix.tagSets n with
              | ok t => exact .good rfl
              | err e => exact ⟨nofun, nofun⟩
              | panic => exact .bad rfl
              | diverge => exact ⟨nofun, nofun⟩
        | _ :: _ :: _ => exact .good rfl
      · simp only [if_neg hc2]
        cases lib.parseInt sub with
        | none => exact .good rfl
        | some n =>
          simp only
          cases ix.tagSets.get (toU32 n) with
          | none => exact .good rfl
          | some ts => exact .good rfl
  · rename_i hne
    split
    · exact absurd rfl (hne _ _ _)
    · exact .good rfl

theorem varLog_crash (lib : Lib) (ix : Index) (items : List Str) : CrashTold (processVar lib ix items) (withError (varLog lib ix items)) := by
  unfold processVar varLog
  split
  · rename_i c sub rest
    simp only
    cases lib.parseUint sub with
    | none => exact .good rfl
    | some v =>
      simp only
      cases hc : ix.variants v with
      | ok c => exact .good rfl
      | err e => exact ⟨nofun, nofun⟩
      | panic =>
        refine .bad ?_
        exact prefix_yes _ _
      | diverge => exact ⟨nofun, nofun⟩
  · rename_i hne
    split
    · exact absurd rfl (hne _ _ _)
    · exact .good rfl

theorem showNode_crash {h : List Op} {ix ix' : Index} (r : Run h ix) (ho : Index.Obs ix ix') {id : ID} (hid : id.toNat ≤ ix.nodesCount) (x : Str) :
    CrashTold (showNode ix' id).2 [(.debug, str "node " ++ (itoa id.toNat ++ (0x20 :: x)))] := by
  rw [showNode_congr ho]
  by_cases h0 : id.toNat = 0
  · obtain rfl : id = 0 := UInt32.toNat_inj.1 h0
    rw [showNode_root]
    refine .bad ?_
    have e : str "node " ++ (itoa (0 : ID).toNat ++ (0x20 :: x)) = str "node 0 " ++ x := by
      have e : str "node 0 " = str "node " ++ (itoa (0 : ID).toNat ++ [0x20]) := by decide
      rw [e]; simp
    rw [e]
    exact prefix_yes _ _
  · obtain ⟨w, L, it, -, -, -, hs⟩ := showNode_ok r (id := id) (by omega) hid
    rw [hs]
    refine .good ?_
    show (str "node 0 ").isPrefixOf _ = false
    rw [Bool.eq_false_iff]
    intro hp
    obtain ⟨u, hu⟩ := List.isPrefixOf_iff_prefix.1 hp
    have e : str "node 0 " = str "node " ++ (itoa 0 ++ [0x20]) := by decide
    rw [e] at hu
    simp only [List.append_assoc] at hu
    have hu := List.append_cancel_left hu
    obtain ⟨h1, -⟩ := stop_split (t := 0x20) (itoa_noSpace 0) (itoa_noSpace id.toNat) hu
    exact h0 (itoa_inj h1).symm

theorem nodeLog_crash {h : List Op} {ix : Index} (r : Run h ix) (items : List Str) :
    CrashTold (processNode ix items).2 (withError (nodeLog ix items)) := by
  have hle : ∀ {id j : ID}, ix.get id = .ok j → j.toNat ≤ ix.nodesCount := by
    intro id j hg
    have hpos := r.trie.length_pos
    have hnext := r.trie.next
    rw [r.trie.nodesCount]
    unfold Index.get at hg
    split at hg
    · cases hg
    · obtain rfl := Out.ok.inj hg
      omega
  unfold processNode nodeLog
  split
  · rename_i c sub rest
    by_cases hc : sub = str "count"
    · simp only [if_pos hc]
      exact .good rfl
    · simp only [if_neg hc]
      by_cases hr : rest ≠ []
      · simp only [if_pos hr]
        exact .good rfl
      · simp only [if_neg hr]
        cases ha : atoi sub with
        | none =>
          simp only
          have ho := fetchItemFromParent_obs ix 0 (decodeRunes sub)
          cases hf : ix.fetchItemFromParent 0 (decodeRunes sub) with
          | mk ix' x =>
            rw [hf] at ho
            cases x with
            | ok id =>
              have hg := found_get r hf
              simp only [hg]
              have hb := hg
              rw [get_obs ho] at hb
              have := showNode_crash r ho (hle hb) (str "taken by string `" ++ (sub ++ str "`"))
              have e : str " taken by string `" = 0x20 :: str "taken by string `" := by decide
              unfold withError
              simp only [List.append_nil]
              rw [e]
              exact this
            | err e => exact .good rfl
            | panic => exact .bad rfl
            | diverge => exact ⟨nofun, nofun⟩
        | some n =>
          simp only
          by_cases hn : n ≥ ix.nodesCount
          · simp only [if_pos hn]
            exact .good rfl
          · simp only [if_neg hn]
            cases hg : ix.get (toU32 n) with
            | ok id =>
              have := showNode_crash r (.refl ix) (hle hg) (str "taken by id ")
              have e : str " taken by id " = 0x20 :: str "taken by id " := by decide
              unfold withError
              simp only [List.append_nil]
              rw [e]
              exact this
            | err e => exact .good rfl
            | panic => exact .good rfl
            | diverge => exact .good rfl
  · rename_i hne
    split
    · exact absurd rfl (hne _ _ _)
    · exact .good rfl

theorem searchLog_crash (eta : Nat → Str) (ix : Index) (line : Str) : CrashTold (processSearch ix line).2 (searchLog eta ix line) := by
  unfold processSearch searchLog
  cases hf : ix.fetchString line with
  | mk ix' x =>
    cases x with
    | ok id =>
      simp only
      cases ix'.tagSetsOf id with
      | ok L =>
        refine .good ?_
        simp only
        split
        · rfl
        · rename_i hne
          match L with
          | [] => exact absurd rfl hne
          | [_] => rfl
          | [_, _] =>
            refine prefix_no (str "looking for ID ") (str "< ") _ (by decide)
          | _ :: _ :: _ :: _ => rfl
      | err e => exact ⟨nofun, nofun⟩
      | panic => exact .bad rfl
      | diverge => exact ⟨nofun, nofun⟩
    | err e =>
      obtain ⟨g, reason, hg, ht⟩ := lookup_text hf
      simp only [hg]
      exact .good rfl
    | panic => exact .bad rfl
    | diverge => exact ⟨nofun, nofun⟩

theorem toolLog_crash {h : List Op} {ix : Index} (r : Run h ix) (lib : Lib) (eta : Nat → Str) (disk : Option Index) (line : Str) :
    CrashTold (processInput lib disk ix line).2 (toolLog lib eta ix line) := by
  unfold processInput toolLog
  simp only
  split
  · exact tagLog_crash _ _ _
  split
  · exact setLog_crash _ _ _
  split
  · exact nodeLog_crash r _
  split
  · exact varLog_crash _ _ _
  split
  · cases disk <;> exact .good rfl
  split
  · exact .good rfl
  · exact searchLog_crash _ _ _

/-! ## The whole session -/

/-- The blocks of a log with the answers they give. -/
inductive Tells : List (List (LogLevel × Str)) → List ToolAnswer → Prop
  | nil : Tells [] []
  | crash (b : List (LogLevel × Str)) (h : crashBlock b = true) : Tells [b] []
  | answer (b : List (LogLevel × Str)) (a : ToolAnswer) (bs : List (List (LogLevel × Str))) (as : List ToolAnswer)
      (hc : crashBlock b = false) (h : LogSays b a) (hf : a.FourBytes) (ht : Tells bs as) : Tells (b :: bs) (a :: as)

theorem Tells.unique {bs : List (List (LogLevel × Str))} {as as' : List ToolAnswer} (h : Tells bs as) (h' : Tells bs as') : as = as' := by
  induction h generalizing as' with
  | nil => cases h'; rfl
  | crash b hb =>
    cases h' with
    | crash _ _ => rfl
    | answer _ _ _ _ hc _ _ _ => rw [hb] at hc; cases hc
  | answer b a bs as hc h hf ht ih =>
    cases h' with
    | crash _ hb => rw [hb] at hc; cases hc
    | answer _ a' _ as' hc' h' hf' ht' => rw [C117_tells_partial h h' hf hf', ih ht']

/-- A log split into the messages about the single lines. -/
structure Blocks (bs : List (List (LogLevel × Str))) : Prop where
  ne : ∀ b ∈ bs, b ≠ []
  ok : ∀ b ∈ bs, BlockOK b

theorem Blocks.split {bs : List (List (LogLevel × Str))} (h : Blocks bs) : bs.flatten.splitBy goesOn = bs := by
  refine List.splitBy_flatten (fun hm => h.ne _ hm rfl) (fun b hb => (h.ok b hb).chain) ?_
  induction bs with
  | nil => exact .nil
  | cons b bs ih =>
    cases bs with
    | nil => exact .singleton _
    | cons c bs =>
      rw [List.isChain_cons_cons]
      refine ⟨?_, ih ⟨fun b hb => h.ne b (List.mem_cons_of_mem _ hb), fun b hb => h.ok b (List.mem_cons_of_mem _ hb)⟩⟩
      have hb := h.ne b (by simp)
      have hc := h.ne c (by simp)
      refine ⟨hb, hc, goesOn_false ?_ ?_⟩
      · exact (h.ok b (by simp)).last _ (List.getLast?_eq_getLast_of_ne_nil hb)
      · exact (h.ok c (by simp)).head _ (List.head?_eq_some_head hc)

theorem Blocks.unique {bs bs' : List (List (LogLevel × Str))} (h : Blocks bs) (h' : Blocks bs') (e : bs.flatten = bs'.flatten) : bs = bs' := by
  rw [← h.split, e, h'.split]

/-- The states of a session: an index as it was loaded, perhaps after lookups. -/
def Sound (ix : Index) : Prop := ∃ base h, Run h base ∧ (∀ t ∈ base.tags, t.name.length = 4) ∧ Index.Obs base ix

theorem FourByteIndex.sound {ix : Index} (h : FourByteIndex ix) : Sound ix := by
  obtain ⟨hs, hr, hn⟩ := h
  exact ⟨ix, hs, hr, hn, .refl ix⟩

theorem reload_block {b : List (LogLevel × Str)} (hb : b = [(.info, str "reloading index")]) (reason : Str) :
    BlockOK (b ++ [(.error, str "load index: " ++ reason)]) := by
  subst hb
  refine ⟨?_, ?_, ?_⟩
  · show List.IsChain _ [_, _]
    rw [List.isChain_cons_cons]
    refine ⟨?_, .singleton _⟩
    unfold goesOn
    rw [if_pos rfl, prefix_yes]
    simp
  · intro m hm
    obtain rfl := Option.some.inj hm
    show Opens (.info, str "reloading index")
    unfold Opens
    rw [if_neg (by simp)]
    decide
  · intro m hm
    obtain rfl := Option.some.inj hm
    exact .inl rfl

theorem exit_log {lib : Lib} {disk : Option Index} {ix : Index} (eta : Nat → Str) {line : Str} {c : Nat}
    (h : (processInput lib disk ix line).2 = .ok (.exit c)) (hc : c ≠ 0) : toolLog lib eta ix line = [(.info, str "reloading index")] := by
  have ht : ∀ items, processTag lib ix items ≠ .ok (.exit c) := by
    intro items h
    unfold processTag at h
    repeat' split at h
    all_goals first
      | (cases h; done)
      | (obtain ⟨a, -, h⟩ := bind_reply h; cases h)
  have hs : ∀ items, processSet lib ix items ≠ .ok (.exit c) := by
    intro items h
    unfold processSet at h
    repeat' split at h
    all_goals first
      | (cases h; done)
      | (obtain ⟨a, -, h⟩ := bind_reply h; cases h)
  have hv : ∀ items, processVar lib ix items ≠ .ok (.exit c) := by
    intro items h
    unfold processVar at h
    repeat' split at h
    all_goals first
      | (cases h; done)
      | (obtain ⟨a, -, h⟩ := bind_reply h; cases h)
  have hn : ∀ items, (processNode ix items).2 ≠ .ok (.exit c) := by
    intro items h
    unfold processNode at h
    repeat' split at h
    all_goals first
      | (cases h; done)
      | (have := (showNode_by h).1; cases this)
  have hq : (processSearch ix line).2 ≠ .ok (.exit c) := by
    intro h
    unfold processSearch at h
    repeat' split at h
    all_goals first
      | (cases h; done)
      | (obtain ⟨a, -, h⟩ := bind_reply h; split at h <;> cases h)
  unfold processInput at h
  unfold toolLog
  simp only at h ⊢
  split at h
  · exact absurd h (ht _)
  rename_i h1
  split at h
  · exact absurd h (hs _)
  rename_i h2
  split at h
  · exact absurd h (hn _)
  rename_i h3
  split at h
  · exact absurd h (hv _)
  rename_i h4
  split at h
  · rename_i h5
    rw [if_neg h1, if_neg h2, if_neg h3, if_neg h4, if_pos h5]
  split at h
  · cases h
    exact absurd rfl hc
  · exact absurd h hq

theorem session_blocks (lib : Lib) : ∀ (lines : List TypedLine) (ix : Index), Sound ix → (∀ e ∈ lines, ∀ d, e.disk = some d → Sound d) →
    ∃ bs, Blocks bs ∧ bs.flatten = sessionLog lib ix lines ∧ Tells bs (sessionAnswers lib ix lines)
  | [], ix, _, _ => ⟨[], ⟨by simp, by simp⟩, rfl, .nil⟩
  | e :: rest, ix, ⟨base, h, hr, hn, ho⟩, hd => by
    have hlog := toolLog_congr ho lib e.eta e.line
    have hblock := toolLog_block hr lib e.eta e.line
    have hcrash := toolLog_crash hr lib e.eta e.disk e.line
    have hp := processInput_congr ho lib e.disk e.line
    have hobs := processInput_obs lib e.disk ix e.line
    rw [← hlog] at hblock hcrash
    rw [← hp] at hcrash
    have hex := C49_exact hr lib e.disk e.line
    rw [← hp] at hex
    have hsay := C117_says (ix' := (processInput lib e.disk base e.line).1) hr lib e.eta e.disk e.line
    have hfour := fun r => answer_fourBytes (ix' := (processInput lib e.disk base e.line).1) hr hn (lib := lib) (disk := e.disk) (line := e.line) (r := r)
    rw [← hlog] at hsay
    have hexit := fun c => exit_log (lib := lib) (disk := e.disk) (ix := ix) e.eta (line := e.line) (c := c)
    have hsound : Sound (processInput lib e.disk ix e.line).1 := by
      rcases hobs with h1 | h1
      · exact ⟨base, h, hr, hn, ho.trans h1⟩
      · exact hd e (by simp) _ h1.symm
    unfold sessionLog sessionAnswers
    generalize hpi : processInput lib e.disk ix e.line = x at *
    obtain ⟨nx, x⟩ := x
    simp only at hcrash hex hp hexit hsound
    generalize toolLog lib e.eta ix e.line = b at *
    have ne_of : crashBlock b = false → b ≠ [] := by rintro hb rfl; cases hb
    have tl := session_blocks lib rest nx hsound fun e' he => hd e' (List.mem_cons_of_mem _ he)
    cases x with
    | ok r =>
      have hc := hcrash.ok r rfl
      have hpb : processInput lib e.disk base e.line = ((processInput lib e.disk base e.line).1, .ok r) := Prod.ext rfl hp.symm
      have go : r ≠ .exit 1 → LogSays b r.answer := hsay r hpb
      have four := hfour r hpb
      obtain ⟨bs, hbs, hfl, ht⟩ := tl
      by_cases hre : ∃ c, r = .exit c
      · obtain ⟨c, rfl⟩ := hre
        cases c with
        | zero =>
          refine ⟨[b], ⟨by simpa using ne_of hc, by simpa using hblock⟩, by simp, ?_⟩
          exact .answer _ _ _ _ hc (go (by simp)) four .nil
        | succ c =>
          have hb := hexit (c + 1) rfl (by omega)
          refine ⟨[b ++ [(.error, str "load index: " ++ e.reason)]], ⟨by simp, by simpa using reload_block hb _⟩, by simp, ?_⟩
          refine .answer _ _ _ _ ?_ (.failed b _ ?_) trivial .nil
          · rw [hb]; rfl
          · rw [hb]; intro m hm; obtain rfl := List.mem_singleton.1 hm; simp
      · have hne : r ≠ .exit 1 := fun h1 => hre ⟨1, h1⟩
        refine ⟨b :: bs, ⟨?_, ?_⟩, ?_, ?_⟩
        · intro c hm
          rcases List.mem_cons.1 hm with rfl | hm
          · exact ne_of hc
          · exact hbs.ne c hm
        · intro c hm
          rcases List.mem_cons.1 hm with rfl | hm
          · exact hblock
          · exact hbs.ok c hm
        · rw [List.flatten_cons, hfl]
          cases r with
          | exit c => exact absurd ⟨c, rfl⟩ hre
          | _ => rfl
        · have := Tells.answer b _ _ _ hc (go hne) four ht
          cases r with
          | exit c => exact absurd ⟨c, rfl⟩ hre
          | _ => exact this
    | panic =>
      have hc := hcrash.panic rfl
      by_cases hb : b = []
      · subst hb
        exact ⟨[], ⟨by simp, by simp⟩, rfl, .nil⟩
      · exact ⟨[b], ⟨by simpa using hb, by simpa using hblock⟩, by simp, .crash b hc⟩
    | err e => rcases hex with ⟨-, h1⟩ | ⟨-, p, h1⟩ <;> cases h1
    | diverge => rcases hex with ⟨-, h1⟩ | ⟨-, p, h1⟩ <;> cases h1

end Verif
