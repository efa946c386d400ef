import Verif.Lemmas.ToolLog
import Verif.Props.Errors
import Verif.Props.Output
import Verif.Props.Delivery

/-!
# C117 — what the interactive tool logs about a line
-/

namespace Verif

/-- The names in the answer have four bytes, as those of OpenCorpora. -/
def ToolAnswer.FourBytes : ToolAnswer → Prop
  | .readings L => ∀ names ∈ L, ∀ n ∈ names, n.length = 4
  | .tag _ name _ => name.length = 4
  | _ => True

/-- A rough kind of an answer. -/
def ToolAnswer.kind : ToolAnswer → Nat
  | .readings _ => 1
  | .empty => 1
  | .notFound => 1
  | .tagCount _ => 2
  | .tag _ _ _ => 3
  | .tables _ => 4
  | .table _ => 4
  | .nodesCount _ => 5
  | .failed => 9
  | .reloaded => 6
  | .exiting => 7
  | .printed => 8

/-- The same, read from the log: from the level and the first bytes of the first message, with "set." left open. -/
def logKind (log : List (LogLevel × Str)) : Nat :=
  if log.any (fun m => m.1 = .error) then 9
  else match log with
    | (.info, 0x3c :: _) :: _ => 1
    | (.info, 0x74 :: 0x61 :: 0x67 :: 0x2e :: _) :: _ => 2
    | (.info, 0x74 :: 0x61 :: 0x67 :: 0x5b :: _) :: _ => 3
    | (.info, 0x73 :: _) :: _ => 4
    | (.info, 0x6e :: _) :: _ => 5
    | (.info, 0x72 :: _) :: _ => 6
    | (.info, 0x65 :: _) :: _ => 7
    | _ => 8

theorem noErrors_any {log : List (LogLevel × Str)} (h : NoErrors log) : log.any (fun m => m.1 = .error) = false := by
  rw [List.any_eq_false]
  intro m hm
  simpa using h m hm

theorem readings_info {log : List (LogLevel × Str)} {L : List (List Str)} (hl : log.length = L.length)
    (h : ∀ i names, L[i]? = some names →
        ∃ eta, log[i]? = some (.info, str "< " ++ (pad2 i ++ (str ": " ++ (joinComma names ++ (str ", eta " ++ eta)))))) :
    NoErrors log := by
  intro m hm
  obtain ⟨i, hi, rfl⟩ := List.mem_iff_getElem.1 hm
  obtain ⟨eta, he⟩ := h i _ (List.getElem?_eq_getElem (by omega))
  rw [List.getElem?_eq_getElem hi] at he
  rw [Option.some.inj he]
  simp

theorem LogSays.logKind {log : List (LogLevel × Str)} {a : ToolAnswer} (h : LogSays log a) :
    Verif.logKind log = a.kind ∨ (Verif.logKind log = 4 ∧ a = .printed ∧ ∃ typed rest, (0x20 : UInt8) ∉ typed ∧ typed ≠ str "tables" ∧
      log = (.info, str "set." ++ (typed ++ (str ": looking tag set " ++ typed))) :: rest) := by
  cases h with
  | readings log L hne hl h =>
    left
    unfold Verif.logKind
    rw [noErrors_any (readings_info hl h)]
    cases L with
    | nil => exact absurd rfl hne
    | cons x L =>
      obtain ⟨eta, he⟩ := h 0 x rfl
      cases log with
      | nil => cases he
      | cons m log =>
        obtain rfl : m = _ := Option.some.inj he
        have e : str "< " = 0x3c :: [0x20] := by decide
        rw [e]
        rfl
  | empty eta =>
    left
    have e : str "< empty, eta " = 0x3c :: str " empty, eta " := by decide
    rw [e]; rfl
  | notFound reason eta =>
    left
    have e : str "< index: " = 0x3c :: str " index: " := by decide
    rw [e]; rfl
  | tagCount n =>
    left
    have e : str "tag.count: " = 0x74 :: 0x61 :: 0x67 :: 0x2e :: str "count: " := by decide
    rw [e]; rfl
  | tag number i name parent h hf =>
    left
    have e : str "tag[" = 0x74 :: 0x61 :: 0x67 :: 0x5b :: [] := by decide
    rw [e]; rfl
  | tables sizes items hl h =>
    left
    have e : str "set.tables: total " = 0x73 :: str "et.tables: total " := by decide
    rw [e]; rfl
  | table i sets =>
    left
    have e : str "set.tables: " = 0x73 :: str "et.tables: " := by decide
    rw [e]; rfl
  | nodesCount n =>
    left
    have e : str "node.count: total " = 0x6e :: str "ode.count: total " := by decide
    rw [e]; rfl
  | failed log text h =>
    left
    unfold Verif.logKind
    rw [if_pos (by simp)]
    rfl
  | reloaded =>
    left
    have e : str "reloading index" = 0x72 :: str "eloading index" := by decide
    rw [e]; rfl
  | exiting =>
    left
    have e : str "exiting" = 0x65 :: str "xiting" := by decide
    rw [e]; rfl
  | node text => left; rfl
  | set typed rest hs ht h =>
    right
    refine ⟨?_, rfl, typed, rest, hs, ht, rfl⟩
    unfold Verif.logKind
    have e : str "set." = 0x73 :: str "et." := by decide
    rw [noErrors_any (log := _ :: rest) (by
      intro m hm
      rcases List.mem_cons.1 hm with rfl | hm
      · simp
      · exact h m hm), e]
    rfl
  | var typed rest h =>
    left
    unfold Verif.logKind
    have e : str "looking for var " = 0x6c :: str "ooking for var " := by decide
    rw [noErrors_any (log := _ :: rest) (by
      intro m hm
      rcases List.mem_cons.1 hm with rfl | hm
      · simp
      · exact h m hm), e]
    rfl

/-- The log of the lookup of a set differs from the logs about the tables. -/
theorem setLooking_apart {typed t u : Str} (hs : (0x20 : UInt8) ∉ typed) (ht : typed ≠ str "tables")
    (h : str "set." ++ (typed ++ (str ": looking tag set " ++ t)) = str "set.tables: " ++ u) : False := by
  have e : str "set.tables: " ++ u = str "set." ++ (str "tables:" ++ 0x20 :: u) := by
    have e : str "set.tables: " = str "set." ++ (str "tables:" ++ [0x20]) := by decide
    rw [e]; simp
  have e2 : str ": looking tag set " = [0x3a] ++ 0x20 :: str "looking tag set " := by decide
  rw [e, e2] at h
  have h := List.append_cancel_left h
  have h : (typed ++ [0x3a]) ++ 0x20 :: (str "looking tag set " ++ t) = str "tables:" ++ 0x20 :: u := by
    rw [← h]; simp
  obtain ⟨h1, -⟩ := stop_split (t := 0x20) (a := typed ++ [0x3a]) (b := str "tables:") (by simp [hs]) (by decide) h
  have e3 : str "tables:" = str "tables" ++ [0x3a] := by decide
  rw [e3] at h1
  exact ht (List.append_cancel_right h1)

/-- C117: the answer can be read from the log: a log says at most one thing. (For names of four bytes.) -/
theorem C117_tells_partial {log : List (LogLevel × Str)} {a b : ToolAnswer} (ha : LogSays log a) (hb : LogSays log b)
    (ha4 : a.FourBytes) (hb4 : b.FourBytes) : a = b := by
  have kk : a.kind = b.kind ∨ (a.kind = 4 ∧ b = .printed) ∨ (b.kind = 4 ∧ a = .printed) ∨ (a = .printed ∧ b = .printed) := by
    rcases ha.logKind with h1 | ⟨h1, h2, -⟩ <;> rcases hb.logKind with h3 | ⟨h3, h4, -⟩
    · left; omega
    · right; left; exact ⟨by omega, h4⟩
    · right; right; left; exact ⟨by omega, h2⟩
    · right; right; right; exact ⟨h2, h4⟩
  have look : ∀ {log : List (LogLevel × Str)} {a : ToolAnswer}, LogSays log a → a.kind = 4 → ¬ LogSays log .printed := by
    intro log a h hk hp
    have hl : Verif.logKind log = 4 := by
      rcases h.logKind with h1 | ⟨h1, -⟩
      · omega
      · exact h1
    rcases hp.logKind with h1 | ⟨-, -, typed, rest, hs, ht, he⟩
    · rw [hl] at h1; cases h1
    · cases h with
      | tables sizes items hl h =>
        have he := (Prod.mk.inj (List.cons.inj he).1).2
        have e : str "set.tables: total " = str "set.tables: " ++ str "total " := by decide
        rw [e, List.append_assoc] at he
        exact setLooking_apart hs ht he.symm
      | table i sets => exact setLooking_apart hs ht (Prod.mk.inj (List.cons.inj he).1).2.symm
      | _ => cases hk
  rcases kk with kk | ⟨k1, k2⟩ | ⟨k1, k2⟩ | ⟨k1, k2⟩
  rotate_left
  · subst k2; exact absurd hb (look ha k1)
  · subst k2; exact absurd ha (look hb k1)
  · rw [k1, k2]
  have e0 : str "< " = [0x3c, 0x20] := by decide
  have e1 : str "< empty, eta " = str "< " ++ 0x65 :: str "mpty, eta " := by decide
  have e2 : str "< index: " = str "< " ++ 0x69 :: str "ndex: " := by decide
  -- the first byte of the line about a reading is a digit
  have dig : ∀ {i : Nat} {u : Str} {c : UInt8} {v : Str}, str "< " ++ (pad2 i ++ u) = str "< " ++ c :: v →
      0x30 ≤ c.toNat ∧ c.toNat ≤ 0x39 := by
    intro i u c v h
    have h := List.append_cancel_left h
    cases hp : pad2 i with
    | nil => exact absurd hp (pad2_ne_nil i)
    | cons d p =>
      rw [hp] at h
      obtain rfl := (List.cons.inj h).1
      exact pad2_digit (n := i) (by rw [hp]; exact List.mem_cons_self)
  have search : ∀ {log : List (LogLevel × Str)} {L : List (List Str)} {c : UInt8} {v : Str} , LogSays log (.readings L) →
      log = [(.info, str "< " ++ c :: v)] → ¬ (0x30 ≤ c.toNat ∧ c.toNat ≤ 0x39) → False := by
    intro log L c v h hl hc
    cases h with
    | readings _ _ hne hl' h =>
      cases L with
      | nil => exact hne rfl
      | cons x L =>
        obtain ⟨eta, he⟩ := h 0 x rfl
        rw [hl] at he
        exact hc (dig (Prod.mk.inj (Option.some.inj he)).2.symm)
  cases a with
  | readings L =>
    cases b with
    | readings L' =>
      cases ha with
      | readings _ _ hne hl h =>
        cases hb with
        | readings _ _ hne' hl' h' =>
          congr 1
          apply List.ext_getElem (by omega)
          intro i h1 h2
          obtain ⟨eta, he⟩ := h i _ (List.getElem?_eq_getElem h1)
          obtain ⟨eta', he'⟩ := h' i _ (List.getElem?_eq_getElem h2)
          rw [he] at he'
          have he := (Prod.mk.inj (Option.some.inj he')).2
          have he := List.append_cancel_left (List.append_cancel_left (List.append_cancel_left he))
          exact (etaNames_split _ _ _ _ (ha4 _ (List.getElem_mem h1)) (hb4 _ (List.getElem_mem h2)) he).1
    | empty =>
      exfalso
      cases hb with
      | empty eta => exact search ha (by rw [e1, List.append_assoc, List.cons_append]) (by decide)
    | notFound =>
      exfalso
      cases hb with
      | notFound reason eta => exact search ha (by rw [e2, List.append_assoc, List.cons_append]) (by decide)
    | _ => cases kk
  | empty =>
    cases b with
    | readings L =>
      exfalso
      cases ha with
      | empty eta => exact search hb (by rw [e1, List.append_assoc, List.cons_append]) (by decide)
    | empty => rfl
    | notFound =>
      exfalso
      generalize hlog : log = log' at ha
      cases ha with
      | empty eta =>
        cases hb with
        | notFound reason eta' =>
          have he := (Prod.mk.inj (List.cons.inj hlog).1).2
          rw [e1, e2, List.append_assoc, List.append_assoc] at he
          have he := List.append_cancel_left he
          simp at he
    | _ => cases kk
  | notFound =>
    cases b with
    | readings L =>
      exfalso
      cases ha with
      | notFound reason eta => exact search hb (by rw [e2, List.append_assoc, List.cons_append]) (by decide)
    | empty =>
      exfalso
      generalize hlog : log = log' at ha
      cases ha with
      | notFound reason eta =>
        cases hb with
        | empty eta' =>
          have he := (Prod.mk.inj (List.cons.inj hlog).1).2
          rw [e1, e2, List.append_assoc, List.append_assoc] at he
          have he := List.append_cancel_left he
          simp at he
    | notFound => rfl
    | _ => cases kk
  | tagCount n =>
    cases b with
    | tagCount m =>
      generalize hlog : log = log' at ha
      cases ha
      cases hb
      have he := (Prod.mk.inj (List.cons.inj hlog).1).2
      rw [itoa_inj (List.append_cancel_left he)]
    | _ => cases kk
  | tag i name parent =>
    cases b with
    | tag j name' parent' =>
      generalize hlog : log = log' at ha
      cases ha with
      | tag number _ _ _ h hf =>
        cases hb with
        | tag number' _ _ _ h' hf' =>
          have he := List.append_cancel_left (Prod.mk.inj (List.cons.inj hlog).1).2
          have a1 := (atoi_iff _ _).2 ⟨h, hf⟩
          have a2 := (atoi_iff _ _).2 ⟨h', hf'⟩
          have e : str "] " = 0x5d :: [0x20] := by decide
          rw [e] at he
          obtain ⟨rfl, he2⟩ := stop_split (atoi_noBracket a2) (atoi_noBracket a1) he
          have hij : i = j := by
            have := Option.some.inj (a1.symm.trans a2)
            omega
          have ha4 : name.length = 4 := ha4
          have hb4 : name'.length = 4 := hb4
          obtain ⟨rfl, he3⟩ := List.append_inj (List.append_cancel_left (as := [0x20]) he2) (hb4.trans ha4.symm)
          rw [hij, List.append_cancel_right (List.append_cancel_left he3)]
    | _ => cases kk
  | tables sizes =>
    cases b with
    | tables sizes' =>
      generalize hlog : log = log' at ha
      cases ha with
      | tables _ items hl h =>
        cases hb with
        | tables _ items' hl' h' =>
          have he := (Prod.mk.inj (List.cons.inj (List.cons.inj hlog).2).1).2
          rw [sizes_inj hl hl' h h' (List.append_cancel_left he).symm]
    | table sets =>
      generalize hlog : log = log' at ha
      cases ha
      cases hb
      cases (List.cons.inj hlog).2
    | _ => cases kk
  | table sets =>
    cases b with
    | tables sizes' =>
      generalize hlog : log = log' at ha
      cases ha
      cases hb
      cases (List.cons.inj hlog).2
    | table sets' =>
      generalize hlog : log = log' at ha
      cases ha with
      | table i _ =>
        cases hb with
        | table j _ =>
          have he := List.append_cancel_left (Prod.mk.inj (List.cons.inj hlog).1).2
          have e : str ": " = 0x3a :: [0x20] := by decide
          rw [e] at he
          obtain ⟨-, he⟩ := stop_split (itoa_no (by decide)) (itoa_no (by decide)) he
          rw [tableSets_inj (List.append_cancel_left (as := [0x20]) he)]
    | _ => cases kk
  | nodesCount n =>
    cases b with
    | nodesCount m =>
      generalize hlog : log = log' at ha
      cases ha
      cases hb
      have he := (Prod.mk.inj (List.cons.inj hlog).1).2
      rw [itoa_inj (List.append_cancel_left he)]
    | _ => cases kk
  | failed => cases b with | failed => rfl | _ => cases kk
  | reloaded => cases b with | reloaded => rfl | _ => cases kk
  | exiting => cases b with | exiting => rfl | _ => cases kk
  | printed => cases b with | printed => rfl | _ => cases kk

/-! ## What the log of a line says -/

theorem splitSpaces_noSpace (s : Str) : ∀ a ∈ splitSpaces s, (0x20 : UInt8) ∉ a := by
  induction s with
  | nil => simp [splitSpaces]
  | cons c s ih =>
    unfold splitSpaces
    split
    · intro a ha
      rcases List.mem_cons.1 ha with rfl | ha
      · simp
      · exact ih a ha
    · rename_i hc
      split
      · simp [Ne.symm hc]
      · rename_i w ws e
        rw [e] at ih
        intro a ha
        rcases List.mem_cons.1 ha with rfl | ha
        · simp [Ne.symm hc, ih w List.mem_cons_self]
        · exact ih a (List.mem_cons_of_mem _ ha)

theorem LogSays.error (text : Str) (l : List (LogLevel × Str)) (h : NoErrors l) :
    LogSays (withError (l, some text)) Reply.message.answer := .failed l text h

theorem LogSays.error0 (text : Str) : LogSays (withError ([], some text)) Reply.message.answer :=
  .failed [] text (by intro m hm; cases hm)

theorem sliceAt_ok {α : Type} {l : List α} {n : Int} {a : α} (h : sliceAt l n = .ok a) : 0 ≤ n ∧ l[n.toNat]? = some a := by
  unfold sliceAt at h
  split at h
  · cases h
  · split at h
    · rename_i h1 _ h2
      obtain rfl := Out.ok.inj h
      exact ⟨by omega, h2⟩
    · cases h

theorem tagLog_says {lib : Lib} {ix : Index} (hl : ix.tags.length ≤ 256) {items : List Str} {r : Reply}
    (h : processTag lib ix items = .ok r) : LogSays (withError (tagLog lib ix items)) r.answer := by
  unfold processTag at h
  unfold tagLog
  split at h
  · rename_i x arg
    simp only
    split at h
    · rename_i hc
      rw [if_pos hc]
      obtain rfl := Out.ok.inj h
      exact .tagCount _
    · rename_i hc
      rw [if_neg hc]
      split at h
      · rename_i ha
        simp only [ha]
        split at h
        · rename_i t i hf
          simp only [hf]
          obtain rfl := Out.ok.inj h
          have hm := List.mem_of_find?_eq_some hf
          have hi : i < ix.tags.length := by
            have := List.snd_lt_of_mem_zipIdx hm
            simpa using this
          have := (atoi_iff _ _).1 (atoi_itoa (n := i) (by omega))
          exact .tag _ i _ _ this.1 this.2
        · rename_i hf
          simp only [hf]
          obtain rfl := Out.ok.inj h
          exact .error0 _
      · rename_i n ha
        simp only [ha]
        split at h
        · rename_i hn
          rw [if_pos hn]
          obtain rfl := Out.ok.inj h
          exact .error0 _
        · rename_i hn
          rw [if_neg hn]
          cases hs : sliceAt ix.tags n with
          | ok t =>
            rw [hs] at h
            obtain rfl := Out.ok.inj h
            have h0 := (sliceAt_ok hs).1
            obtain ⟨a1, a2⟩ := (atoi_iff _ _).1 ha
            have e : ((n.toNat : Nat) : Int) = n := by omega
            exact .tag arg n.toNat _ _ (by rw [e]; exact a1) (by rw [e]; exact a2)
          | err e => rw [hs] at h; cases h
          | panic => rw [hs] at h; cases h
          | diverge => rw [hs] at h; cases h
  · obtain rfl := Out.ok.inj h
    rename_i hne
    split
    · exact absurd rfl (hne _ _)
    · exact .error0 _

theorem tableSizes_spec : ∀ (l : List Nat) (k : Nat), (tableSizes k l).length = l.length ∧
    ∀ i n, l[i]? = some n → (tableSizes k l)[i]? = some (pad2 (k + i) ++ (str "(" ++ (itoa n ++ str ")")))
  | [], _ => ⟨rfl, by intro i n h; cases h⟩
  | x :: l, k => by
    obtain ⟨h1, h2⟩ := tableSizes_spec l (k + 1)
    refine ⟨by unfold tableSizes; simp [h1], ?_⟩
    intro i n h
    cases i with
    | zero =>
      obtain rfl := Option.some.inj h
      rfl
    | succ i =>
      have := h2 i n h
      rw [show k + 1 + i = k + (i + 1) by omega] at this
      exact this

theorem setLog_says {lib : Lib} {ix : Index} {items : List Str} (hsp : ∀ a ∈ items, (0x20 : UInt8) ∉ a) {r : Reply}
    (h : processSet lib ix items = .ok r) : LogSays (withError (setLog lib ix items)) r.answer := by
  unfold processSet at h
  unfold setLog
  split at h
  · rename_i x sub rest
    simp only
    split at h
    · rename_i hc
      rw [if_pos hc]
      obtain rfl := Out.ok.inj h
      obtain ⟨h1, h2⟩ := tableSizes_spec (ix.tagSets.map List.length) 0
      have := LogSays.tables (ix.tagSets.map List.length) _ h1 (by simpa using h2)
      rw [List.length_map] at this
      exact this
    · rename_i hc
      rw [if_neg hc]
      split at h
      · rename_i hc2
        rw [if_pos hc2]
        split at h
        · rename_i arg
          simp only
          split at h
          · rename_i ha
            simp only [ha]
            obtain rfl := Out.ok.inj h
            exact .error0 _
          · rename_i n ha
            simp only [ha]
            split at h
            · rename_i hn
              rw [if_pos hn]
              obtain rfl := Out.ok.inj h
              exact .error0 _
            · rename_i hn
              rw [if_neg hn]
              cases hs : sliceAt ix.tagSets n with
              | ok t =>
                rw [hs] at h
                obtain rfl := Out.ok.inj h
                have h0 := (sliceAt_ok hs).1
                have := LogSays.table n.toNat t
                have e : intText n = itoa n.toNat := by unfold intText; rw [if_pos h0]
                show LogSays [(.info, tableMessage n t)] _
                unfold tableMessage
                rw [e]
                exact this
              | err e => rw [hs] at h; cases h
              | panic => rw [hs] at h; cases h
              | diverge => rw [hs] at h; cases h
        · rename_i hne
          obtain rfl := Out.ok.inj h
          split
          · exact absurd rfl (hne _)
          · exact .error0 _
      · rename_i hc2
        rw [if_neg hc2]
        have hno := hsp sub (by simp)
        split at h
        · rename_i ha
          simp only [ha]
          obtain rfl := Out.ok.inj h
          exact .error _ _ (by intro m hm; simp at hm; rw [hm]; simp)
        · rename_i n ha
          simp only [ha]
          split at h
          · rename_i hg
            simp only [hg]
            obtain rfl := Out.ok.inj h
            exact .error _ _ (by intro m hm; simp at hm; rcases hm with rfl | rfl | rfl <;> simp)
          · rename_i ts hg
            simp only [hg]
            obtain rfl := Out.ok.inj h
            exact .set sub _ hno hc (by intro m hm; simp at hm; rcases hm with rfl | rfl | rfl <;> simp)
  · rename_i hne
    obtain rfl := Out.ok.inj h
    split
    · exact absurd rfl (hne _ _ _)
    · exact .error0 _

theorem collMessages_noErrors (ix : Index) (c : Coll) : NoErrors (collMessages ix c) := by
  intro m hm
  unfold collMessages at hm
  obtain ⟨id, -, hm⟩ := List.mem_flatMap.1 hm
  simp at hm
  rcases hm with rfl | rfl <;> simp

theorem varLog_says {lib : Lib} {ix : Index} {items : List Str} {r : Reply}
    (h : processVar lib ix items = .ok r) : LogSays (withError (varLog lib ix items)) r.answer := by
  unfold processVar at h
  unfold varLog
  split at h
  · rename_i x sub rest
    simp only
    split at h
    · rename_i ha
      simp only [ha]
      obtain rfl := Out.ok.inj h
      exact .error _ _ (by intro m hm; simp at hm; rw [hm]; simp)
    · rename_i v ha
      simp only [ha]
      cases hv : ix.variants v with
      | ok c =>
        rw [hv] at h
        obtain rfl := Out.ok.inj h
        unfold withError
        simp only [List.append_nil]
        refine .var sub _ ?_
        intro m hm
        simp only [List.mem_cons] at hm
        rcases hm with rfl | rfl | hm
        · simp
        · simp
        · exact collMessages_noErrors ix c m hm
      | err e => rw [hv] at h; cases h
      | panic => rw [hv] at h; cases h
      | diverge => rw [hv] at h; cases h
  · rename_i hne
    obtain rfl := Out.ok.inj h
    split
    · exact absurd rfl (hne _ _ _)
    · exact .error0 _

theorem showNode_printed {ix : Index} {id : ID} {r : Reply} (h : (showNode ix id).2 = .ok r) : r.answer = .printed := by
  unfold showNode at h
  split at h
  · split at h
    · split at h
      · obtain rfl := Out.ok.inj h; rfl
      · cases h
    · cases h
  · cases h
  · cases h

theorem nodeLog_says {ix : Index} {items : List Str} {r : Reply}
    (h : (processNode ix items).2 = .ok r) : LogSays (withError (nodeLog ix items)) r.answer := by
  unfold processNode at h
  unfold nodeLog
  split at h
  · rename_i x sub rest
    simp only
    split at h
    · rename_i hc
      rw [if_pos hc]
      obtain rfl := Out.ok.inj h
      exact .nodesCount _
    · rename_i hc
      rw [if_neg hc]
      split at h
      · rename_i hc2
        rw [if_pos hc2]
        obtain rfl := Out.ok.inj h
        exact .error0 _
      · rename_i hc2
        rw [if_neg hc2]
        split at h
        · rename_i ha
          simp only [ha]
          split at h
          · rename_i ix' id hf
            simp only [hf]
            split at h
            · rename_i id' hg
              simp only [hg]
              rw [showNode_printed h]
              exact .node _
            · rename_i hg
              obtain rfl := Out.ok.inj h
              split
              · rename_i id' hg'
                exact absurd hg' (hg _)
              · exact .error _ _ (by intro m hm; simp at hm; rw [hm]; simp)
          · rename_i hf
            simp only [hf]
            obtain rfl := Out.ok.inj h
            exact .error0 _
          · cases h
          · cases h
        · rename_i n ha
          simp only [ha]
          split at h
          · rename_i hn
            rw [if_pos hn]
            obtain rfl := Out.ok.inj h
            exact .error0 _
          · rename_i hn
            rw [if_neg hn]
            split at h
            · rename_i id' hg
              simp only [hg]
              rw [showNode_printed h]
              exact .node _
            · rename_i hg
              obtain rfl := Out.ok.inj h
              split
              · rename_i id' hg'
                exact absurd hg' (hg _)
              · exact .error0 _
  · rename_i hne
    obtain rfl := Out.ok.inj h
    split
    · exact absurd rfl (hne _ _ _)
    · exact .error0 _

theorem readingMessages_spec (eta : Nat → Str) : ∀ (L : List (List Tag)) (k : Nat), (readingMessages eta k L).length = L.length ∧
    ∀ i t, L[i]? = some t → (readingMessages eta k L)[i]? = some (.info, str "< " ++ (pad2 (k + i) ++ (str ": " ++
      (joinComma (t.map (·.name)) ++ (str ", eta " ++ eta (k + i))))))
  | [], _ => ⟨rfl, by intro i n h; cases h⟩
  | x :: L, k => by
    obtain ⟨h1, h2⟩ := readingMessages_spec eta L (k + 1)
    refine ⟨by unfold readingMessages; simp [h1], ?_⟩
    intro i t h
    cases i with
    | zero =>
      obtain rfl := Option.some.inj h
      unfold readingMessages withEta readingText
      simp
    | succ i =>
      have := h2 i t h
      rw [show k + 1 + i = k + (i + 1) by omega] at this
      exact this

/-- The error of a lookup is one of the index, and says so. -/
theorem lookup_text {ix : Index} {w : Str} {e : Err} {ix' : Index} (h : ix.fetchString w = (ix', .err e)) :
    ∃ g reason, (MemCall.fetchString w).goError ix = some g ∧ g.text = str "index: " ++ reason := by
  have he : (MemCall.fetchString w).err ix = some e := by
    show (ix.fetchString w).2.error = some e
    rw [h]
    rfl
  have hk : e.OfLookup := fetchFromItem_error _ _ _ he
  unfold MemCall.goError
  rw [he]
  cases e with
  | emptyRunes => exact ⟨_, str "empty runes", rfl, by simp [errorf, Piece.text, indexError, str, MemCall.adds]⟩
  | notFound word r =>
    refine ⟨_, str "fetch: not found: `" ++ (word ++ (0x5b :: encodeRune r)) ++ str "]`", rfl, ?_⟩
    simp [errorf, Piece.text, indexError, str]
  | noSuchNode id =>
    refine ⟨_, str "no such node: " ++ itoa id.toNat, rfl, ?_⟩
    simp [errorf, Piece.text, indexError, str]
  | _ => exact False.elim hk

theorem searchLog_says (eta : Nat → Str) {ix : Index} {line : Str} {r : Reply}
    (h : (processSearch ix line).2 = .ok r) : LogSays (searchLog eta ix line) r.answer := by
  unfold processSearch at h
  unfold searchLog
  split at h
  · rename_i ix' id hf
    simp only [hf]
    cases hL : ix'.tagSetsOf id with
    | ok L =>
      simp only [hL, Out.bind] at h
      simp only
      obtain rfl := Out.ok.inj h
      by_cases hl : L.length = 0
      · rw [if_pos hl, if_pos hl]
        have := LogSays.empty (eta 0)
        unfold withEta
        have e : str "< empty, eta " = str "< " ++ (str "empty" ++ str ", eta ") := by decide
        rw [e] at this
        simpa [Reply.answer] using this
      · rw [if_neg hl, if_neg hl]
        obtain ⟨h1, h2⟩ := readingMessages_spec eta L 0
        refine .readings _ _ ?_ (by rw [h1, List.length_map]) ?_
        · intro h0
          rw [List.map_eq_nil_iff] at h0
          rw [h0] at hl
          exact hl rfl
        · intro i names hi
          rw [List.getElem?_map] at hi
          cases ht : L[i]? with
          | none => rw [ht] at hi; cases hi
          | some t =>
            rw [ht] at hi
            obtain rfl := Option.some.inj hi
            have := h2 i t ht
            rw [Nat.zero_add] at this
            exact ⟨eta i, this⟩
    | err e => rw [hL] at h; cases h
    | panic => rw [hL] at h; cases h
    | diverge => rw [hL] at h; cases h
  · rename_i ix' e hf
    simp only [hf]
    obtain ⟨g, reason, hg, ht⟩ := lookup_text hf
    simp only [hg]
    obtain rfl := Out.ok.inj h
    have := LogSays.notFound reason (eta 0)
    unfold withEta
    rw [ht]
    have e : str "< index: " = str "< " ++ str "index: " := by decide
    rw [e] at this
    simpa [Reply.answer] using this
  · cases h
  · cases h

/-- C117: whatever the index and whatever is typed, the log of the line says what the answer is: the readings of the word
one by one, that it has none or is not known; the number of tags, of tables of tag sets, of nodes; the tag; the sets of the
table; or that the command failed. (If a reload fails the tool ends, with a message about that.) -/
theorem C117_says {h : List Op} {ix ix' : Index} (hr : Run h ix) (lib : Lib) (eta : Nat → Str) (disk : Option Index) (line : Str)
    (r : Reply) (hx : processInput lib disk ix line = (ix', .ok r)) (hne : r ≠ .exit 1) :
    LogSays (toolLog lib eta ix line) r.answer := by
  have hl : ix.tags.length ≤ 256 := by rw [hr.tag.tags]; exact hr.refines.2.tags
  have hx := congrArg Prod.snd hx
  unfold processInput at hx
  unfold toolLog
  simp only at hx ⊢
  split at hx
  · rename_i hc; rw [if_pos hc]; exact tagLog_says hl hx
  rename_i hc; rw [if_neg hc]
  split at hx
  · rename_i hc; rw [if_pos hc]; exact setLog_says (splitSpaces_noSpace line) hx
  rename_i hc; rw [if_neg hc]
  split at hx
  · rename_i hc; rw [if_pos hc]; exact nodeLog_says hx
  rename_i hc; rw [if_neg hc]
  split at hx
  · rename_i hc; rw [if_pos hc]; exact varLog_says hx
  rename_i hc; rw [if_neg hc]
  split at hx
  · rename_i hc; rw [if_pos hc]
    split at hx
    · obtain rfl := Out.ok.inj hx; exact .reloaded
    · obtain rfl := Out.ok.inj hx; exact absurd rfl hne
  rename_i hc; rw [if_neg hc]
  split at hx
  · rename_i hc; rw [if_pos hc]
    obtain rfl := Out.ok.inj hx
    exact .exiting
  rename_i hc; rw [if_neg hc]
  exact searchLog_says eta hx

/-- The names in an answer are names of tags of the index. -/
theorem answer_fourBytes {h : List Op} {ix ix' : Index} (hr : Run h ix) (hn : ∀ t ∈ ix.tags, t.name.length = 4) {lib : Lib}
    {disk : Option Index} {line : Str} {r : Reply} (hx : processInput lib disk ix line = (ix', .ok r)) : r.answer.FourBytes := by
  have hx := congrArg Prod.snd hx
  unfold processInput at hx
  simp only at hx
  split at hx
  · unfold processTag at hx
    split at hx
    · split at hx
      · obtain rfl := Out.ok.inj hx; trivial
      · split at hx
        · split at hx
          · rename_i t i hf
            obtain rfl := Out.ok.inj hx
            have hm := List.fst_mem_of_mem_zipIdx (List.mem_of_find?_eq_some hf)
            exact hn t hm
          · obtain rfl := Out.ok.inj hx; trivial
        · split at hx
          · obtain rfl := Out.ok.inj hx; trivial
          · rename_i n _ _
            cases hs : sliceAt ix.tags n with
            | ok t =>
              rw [hs] at hx
              obtain rfl := Out.ok.inj hx
              exact hn t (List.mem_of_getElem? (sliceAt_ok hs).2)
            | err e => rw [hs] at hx; cases hx
            | panic => rw [hs] at hx; cases hx
            | diverge => rw [hs] at hx; cases hx
    · obtain rfl := Out.ok.inj hx; trivial
  split at hx
  · unfold processSet at hx
    split at hx
    · split at hx
      · obtain rfl := Out.ok.inj hx; trivial
      · split at hx
        · split at hx
          · split at hx
            · obtain rfl := Out.ok.inj hx; trivial
            · split at hx
              · obtain rfl := Out.ok.inj hx; trivial
              · rename_i n _ _
                cases hs : sliceAt ix.tagSets n with
                | ok t => rw [hs] at hx; obtain rfl := Out.ok.inj hx; trivial
                | err e => rw [hs] at hx; cases hx
                | panic => rw [hs] at hx; cases hx
                | diverge => rw [hs] at hx; cases hx
          · obtain rfl := Out.ok.inj hx; trivial
        · split at hx
          · obtain rfl := Out.ok.inj hx; trivial
          · split at hx
            · obtain rfl := Out.ok.inj hx; trivial
            · obtain rfl := Out.ok.inj hx; trivial
    · obtain rfl := Out.ok.inj hx; trivial
  split at hx
  · cases r with
    | readings L => exact absurd (nodeLog_says hx) (fun hs => by
        unfold processNode at hx
        repeat' split at hx
        all_goals first
          | (cases hx; done)
          | (have := showNode_printed hx; cases this))
    | tag i t => exact absurd (nodeLog_says hx) (fun hs => by
        unfold processNode at hx
        repeat' split at hx
        all_goals first
          | (cases hx; done)
          | (have := showNode_printed hx; cases this))
    | _ => trivial
  split at hx
  · unfold processVar at hx
    split at hx
    · split at hx
      · obtain rfl := Out.ok.inj hx; trivial
      · rename_i v _
        cases hs : ix.variants v with
        | ok t => rw [hs] at hx; obtain rfl := Out.ok.inj hx; trivial
        | err e => rw [hs] at hx; cases hx
        | panic => rw [hs] at hx; cases hx
        | diverge => rw [hs] at hx; cases hx
    · obtain rfl := Out.ok.inj hx; trivial
  split at hx
  · split at hx
    · obtain rfl := Out.ok.inj hx; trivial
    · obtain rfl := Out.ok.inj hx; trivial
  split at hx
  · obtain rfl := Out.ok.inj hx; trivial
  unfold processSearch at hx
  split at hx
  · rename_i ix2 id hf
    have o : Index.Obs ix ix2 := by
      have := fetchFromItem_obs ix 0 (decodeRunes line)
      have e : (ix.fetchFromItem 0 (decodeRunes line)).1 = ix2 := congrArg Prod.fst hf
      rw [e] at this
      exact this
    have r' := hr.refines.1.obs o
    cases hL : ix2.tagSetsOf id with
    | ok L =>
      rw [hL] at hx
      obtain rfl := Out.ok.inj hx
      split
      · trivial
      · intro names hnm n hn'
        obtain ⟨t, ht, rfl⟩ := List.mem_map.1 hnm
        obtain ⟨x, hxt, rfl⟩ := List.mem_map.1 hn'
        apply hn x
        unfold Index.tagSetsOf at hL
        split at hL
        · cases hL
        · rename_i item hg
          cases hcoll : ix2.collectionIdx.get item.variants with
          | ok coll =>
            rw [hcoll] at hL
            obtain rfl := Out.ok.inj hL
            rw [← o.tags]
            exact tagSetsLoop_tags r' coll t ht x hxt
          | err e => rw [hcoll] at hL; cases hL
          | panic => rw [hcoll] at hL; cases hL
          | diverge => rw [hcoll] at hL; cases hL
    | err e => rw [hL] at hx; cases hx
    | panic => rw [hL] at hx; cases hx
    | diverge => rw [hL] at hx; cases hx
  · obtain rfl := Out.ok.inj hx; trivial
  · cases hx
  · cases hx

/-- C117: two lines typed, in whatever states of the tool and taking whatever time, are logged in the same way only if the
answers are the same. -/
theorem C117_answers_partial {h h' : List Op} {ix ix' nx nx' : Index} (hr : Run h ix) (hr' : Run h' ix')
    (hn : ∀ t ∈ ix.tags, t.name.length = 4) (hn' : ∀ t ∈ ix'.tags, t.name.length = 4) (lib lib' : Lib) (eta eta' : Nat → Str)
    (disk disk' : Option Index) (line line' : Str) (r r' : Reply) (hx : processInput lib disk ix line = (nx, .ok r))
    (hx' : processInput lib' disk' ix' line' = (nx', .ok r')) (h1 : r ≠ .exit 1) (h1' : r' ≠ .exit 1)
    (he : toolLog lib eta ix line = toolLog lib' eta' ix' line') : r.answer = r'.answer := by
  have a := C117_says hr lib eta disk line r hx h1
  have b := C117_says hr' lib' eta' disk' line' r' hx' h1'
  rw [← he] at b
  exact C117_tells_partial a b (answer_fourBytes hr hn hx) (answer_fourBytes hr' hn' hx')

theorem LogSays.ne_nil {log : List (LogLevel × Str)} {a : ToolAnswer} (h : LogSays log a) : log ≠ [] := by
  intro h0
  cases h with
  | readings log L hne hl h =>
    rw [h0] at hl
    exact hne (List.length_eq_zero_iff.1 hl.symm)
  | failed log text h => simp at h0
  | _ => cases h0

theorem LogSays.error_iff {log : List (LogLevel × Str)} {a : ToolAnswer} (h : LogSays log a) :
    (∃ text, (.error, text) ∈ log) ↔ a = .failed := by
  have key : (∃ text, (.error, text) ∈ log) ↔ Verif.logKind log = 9 := by
    unfold Verif.logKind
    constructor
    · rintro ⟨text, ht⟩
      rw [if_pos (List.any_eq_true.2 ⟨_, ht, by simp⟩)]
    · intro hk
      split at hk
      · rename_i ha
        obtain ⟨⟨l, t⟩, hm, hl⟩ := List.any_eq_true.1 ha
        have hl : l = .error := by simpa using hl
        exact ⟨t, by rw [← hl]; exact hm⟩
      · split at hk <;> cases hk
  rw [key]
  rcases h.logKind with h1 | ⟨h1, h2, -⟩
  · rw [h1]
    cases a <;> simp [ToolAnswer.kind]
  · rw [h1, h2]
    simp

/-- C117: every line that does not end or crash the tool is answered: something is logged; and an error message is logged
exactly if the command failed, as the only one and the last. -/
theorem C117_error {h : List Op} {ix ix' : Index} (hr : Run h ix) (lib : Lib) (eta : Nat → Str) (disk : Option Index)
    (line : Str) (r : Reply) (hx : processInput lib disk ix line = (ix', .ok r)) (hne : r ≠ .exit 1) :
    toolLog lib eta ix line ≠ [] ∧ ((∃ text, (.error, text) ∈ toolLog lib eta ix line) ↔ r = .message) ∧
    (r = .message → ∃ l text, toolLog lib eta ix line = l ++ [(.error, text)] ∧ NoErrors l) := by
  have a := C117_says hr lib eta disk line r hx hne
  refine ⟨a.ne_nil, ?_, ?_⟩
  · rw [a.error_iff]
    cases r <;> simp [Reply.answer]
  · rintro rfl
    generalize he : toolLog lib eta ix line = log at a
    cases a with
    | failed l text h => exact ⟨l, text, rfl, h⟩

/-! ## The name of the command in an error message -/

theorem withError_mem {l : List (LogLevel × Str)} {e : Option Str} {text : Str} (h : (.error, text) ∈ withError (l, e))
    (hl : NoErrors l) : e = some text := by
  unfold withError at h
  rcases List.mem_append.1 h with h | h
  · exact absurd rfl (hl _ h)
  · cases e with
    | none => cases h
    | some t => simp at h; rw [h]

theorem splitSpaces_single : ∀ {s w : Str}, splitSpaces s = [w] → s = w
  | [], w, h => by simpa [splitSpaces] using h
  | c :: s, w, h => by
    unfold splitSpaces at h
    split at h
    · exact absurd (List.cons.inj h).2 (splitSpaces_ne_nil s)
    · split at h
      · rename_i e
        exact absurd e (splitSpaces_ne_nil s)
      · rename_i v vs e
        obtain ⟨h1, h2⟩ := List.cons.inj h
        subst h2
        rw [splitSpaces_single e, ← h1]

theorem errorNamed (c : String) {l : List (LogLevel × Str)} {e : Option Str} (hl : NoErrors l)
    (he : ∀ t, e = some t → str c <+: t) : ∀ text, (.error, text) ∈ withError (l, e) → str c <+: text :=
  fun text h => he text (withError_mem h hl)

theorem noErrors_nil : NoErrors [] := by intro m hm; cases hm

theorem tagLog_named (lib : Lib) (ix : Index) (items : List Str) :
    ∀ text, (.error, text) ∈ withError (tagLog lib ix items) → str "tag" <+: text := by
  have lit : ∀ (s : String) (u : Str), str "tag" <+: str s → str "tag" <+: str s ++ u :=
    fun s u h => h.trans (List.prefix_append _ _)
  unfold tagLog
  repeat' split
  all_goals
    apply errorNamed "tag"
    · intro m hm
      simp at hm
      try (rw [hm]; simp)
    · intro t ht
      first
        | (cases ht; done)
        | (obtain rfl := Option.some.inj ht
           first
            | exact lit _ _ (by decide)
            | decide)

theorem setLog_named (lib : Lib) (ix : Index) (items : List Str) :
    ∀ text, (.error, text) ∈ withError (setLog lib ix items) → str "set" <+: text := by
  have lit : ∀ (s : String) (u : Str), str "set" <+: str s → str "set" <+: str s ++ u :=
    fun s u h => h.trans (List.prefix_append _ _)
  unfold setLog
  dsimp only
  repeat' split
  all_goals
    apply errorNamed "set"
    · intro m hm
      simp at hm
      try (first | (rw [hm]; simp; done) | (rcases hm with rfl | rfl <;> simp; done) | (rcases hm with rfl | rfl | rfl <;> simp; done) | (rcases hm with rfl | rfl | rfl | rfl <;> simp; done))
    · intro t ht
      first
        | (cases ht; done)
        | (obtain rfl := Option.some.inj ht
           first
            | exact lit _ _ (by decide)
            | decide)

theorem varLog_named (lib : Lib) (ix : Index) (items : List Str) (hi : 2 ≤ items.length) :
    ∀ text, (.error, text) ∈ withError (varLog lib ix items) → str "var" <+: text := by
  have lit : ∀ (s : String) (u : Str), str "var" <+: str s → str "var" <+: str s ++ u :=
    fun s u h => h.trans (List.prefix_append _ _)
  unfold varLog
  dsimp only
  split
  · split
    · apply errorNamed "var"
      · intro m hm
        simp at hm
        rw [hm]; simp
      · intro t ht
        obtain rfl := Option.some.inj ht
        exact lit _ _ (by decide)
    · split
      · apply errorNamed "var"
        · intro m hm
          simp only [List.mem_cons] at hm
          rcases hm with rfl | rfl | rfl | hm
          · simp
          · simp
          · simp
          · exact collMessages_noErrors _ _ m hm
        · intro t ht; cases ht
      · apply errorNamed "var"
        · intro m hm
          simp at hm
          rcases hm with rfl | rfl <;> simp
        · intro t ht; cases ht
  · rename_i hne
    match items, hi with
    | a :: b :: l, _ => exact absurd rfl (hne _ _ _)

theorem nodeLog_named (ix : Index) (items : List Str) (hi : 2 ≤ items.length) :
    ∀ text, (.error, text) ∈ withError (nodeLog ix items) → str "node" <+: text := by
  have lit : ∀ (s : String) (u : Str), str "node" <+: str s → str "node" <+: str s ++ u :=
    fun s u h => h.trans (List.prefix_append _ _)
  match items, hi with
  | a :: b :: l, _ =>
    unfold nodeLog
    dsimp only
    repeat' split
    all_goals
      apply errorNamed "node"
      · intro m hm
        simp at hm
        try (rw [hm]; simp)
      · intro t ht
        first
          | (cases ht; done)
          | (obtain rfl := Option.some.inj ht
             first
              | exact lit _ _ (by decide)
              | decide)

/-- The lines whose error message names another command. -/
def bareWords : List Str := [str "var", str "v", str "node", str "n"]

/-- C117: an error message begins with the name of the command that was typed, written out, exactly if the line is not just
the word `var` or `node` (or `v`, `n`); then it is the message of `set`. -/
theorem C117_names_partial (lib : Lib) (eta : Nat → Str) (ix : Index) (line text : Str)
    (h : (.error, text) ∈ toolLog lib eta ix line) :
    (line ∉ bareWords → commandName line ≠ [] ∧ commandName line <+: text) ∧
    (line ∈ bareWords → text = str "set: at least 2 items required" ∧ ¬ commandName line <+: text) := by
  have bare : line ∈ bareWords → line = str "var" ∨ line = str "v" ∨ line = str "node" ∨ line = str "n" := by
    unfold bareWords; simp
  constructor
  · intro hb
    have two : ∀ w, (splitSpaces line).headD [] = w → w ∈ bareWords → 2 ≤ (splitSpaces line).length := by
      intro w hw hm
      match hs : splitSpaces line with
      | [] => exact absurd hs (splitSpaces_ne_nil line)
      | [x] =>
        rw [hs] at hw
        obtain rfl : x = w := hw
        rw [splitSpaces_single hs] at hb
        exact absurd hm hb
      | x :: y :: l => simp
    unfold toolLog at h
    unfold commandName
    simp only at h ⊢
    split at h
    · rename_i hc; rw [if_pos hc]; exact ⟨by decide, tagLog_named _ _ _ _ h⟩
    rename_i hc; rw [if_neg hc]
    split at h
    · rename_i hc; rw [if_pos hc]; exact ⟨by decide, setLog_named _ _ _ _ h⟩
    rename_i hc; rw [if_neg hc]
    split at h
    · rename_i hc; rw [if_pos hc]
      exact ⟨by decide, nodeLog_named _ _ (by rcases hc with hc | hc <;> exact two _ hc (by decide)) _ h⟩
    rename_i hc; rw [if_neg hc]
    split at h
    · rename_i hc; rw [if_pos hc]
      exact ⟨by decide, varLog_named _ _ _ (by rcases hc with hc | hc <;> exact two _ hc (by decide)) _ h⟩
    rename_i hc; rw [if_neg hc]
    split at h
    · simp at h
    split at h
    · simp at h
    · exfalso
      unfold searchLog at h
      split at h
      · split at h
        · split at h
          · simp at h
          · rename_i L _ _
            obtain ⟨i, hi, he⟩ := List.mem_iff_getElem.1 h
            obtain ⟨h1, h2⟩ := readingMessages_spec eta L 0
            have := h2 i _ (List.getElem?_eq_getElem (by omega))
            rw [List.getElem?_eq_getElem hi, he] at this
            cases this
        · cases h
      · split at h
        · simp at h
        · cases h
      · cases h
      · cases h
  · intro hb
    have e : text = str "set: at least 2 items required" := by
      rcases bare hb with rfl | rfl | rfl | rfl <;>
      · have e2 : ∀ w ∈ bareWords, splitSpaces w = [w] := by decide
        unfold toolLog at h
        rw [e2 _ (by decide)] at h
        dsimp only [List.headD] at h
        repeat (first | rw [if_neg (by decide)] at h | rw [if_pos (by decide)] at h)
        exact (Option.some.inj (withError_mem h noErrors_nil)).symm
    refine ⟨e, ?_⟩
    rw [e]
    rcases bare hb with rfl | rfl | rfl | rfl <;> decide

/-! ## The reason of a failed search -/

/-- A text, a comma and a text without one. -/
theorem lastComma_split {a b u v : Str} (hu : (0x2c : UInt8) ∉ u) (hv : (0x2c : UInt8) ∉ v)
    (h : a ++ 0x2c :: u = b ++ 0x2c :: v) : a = b ∧ u = v := by
  have h := congrArg List.reverse h
  simp only [List.reverse_append, List.reverse_cons, List.append_assoc, List.singleton_append] at h
  obtain ⟨h1, h2⟩ := stop_split (by simpa using hu) (by simpa using hv) h
  exact ⟨List.reverse_injective h2, List.reverse_injective h1⟩

/-- C117, exactly: two failed searches, which show durations without a comma, are logged in the same way if and only if
they took the same time and both words are empty or both stop at the same character after the same known text. -/
theorem C117_notFound {h h' : List Op} {ix ix' nx nx' : Index} (hr : Run h ix) (hr' : Run h' ix') (lib lib' : Lib)
    (eta eta' : Nat → Str) (disk disk' : Option Index) (w w' : Str) (hs : IsSearch w) (hs' : IsSearch w')
    (hx : processInput lib disk ix w = (nx, .ok .notFound)) (hx' : processInput lib' disk' ix' w' = (nx', .ok .notFound))
    (he : (0x2c : UInt8) ∉ eta 0) (he' : (0x2c : UInt8) ∉ eta' 0)
    (hz : NoReload h ∨ NoLeadingNul (decodeRunes w)) (hz' : NoReload h' ∨ NoLeadingNul (decodeRunes w')) :
    toolLog lib eta ix w = toolLog lib' eta' ix' w' ↔ eta 0 = eta' 0 ∧ ((w = [] ∧ w' = []) ∨
      ∃ pre c, StopsAt ix (decodeRunes w) pre c ∧ StopsAt ix' (decodeRunes w') pre c) := by
  have key : ∀ {ix nx : Index} {lib : Lib} {eta : Nat → Str} {disk : Option Index} {w : Str}, IsSearch w →
      processInput lib disk ix w = (nx, .ok .notFound) → ∃ g, (MemCall.fetchString w).goError ix = some g ∧
        toolLog lib eta ix w = [(.info, str "< " ++ (g.text ++ (0x2c :: (str " eta " ++ eta 0))))] := by
    intro ix nx lib eta disk w hs hx
    unfold IsSearch firstWord commands at hs
    simp only [List.mem_cons, List.not_mem_nil, or_false, not_or] at hs
    have hx := congrArg Prod.snd hx
    unfold processInput at hx
    unfold toolLog
    simp only [hs, or_self, if_false] at hx ⊢
    unfold processSearch at hx
    unfold searchLog
    split at hx
    · exfalso
      rename_i ix2 id _
      cases hL : ix2.tagSetsOf id with
      | ok L => simp only [hL, Out.bind] at hx; split at hx <;> cases hx
      | err e => rw [hL] at hx; cases hx
      | panic => rw [hL] at hx; cases hx
      | diverge => rw [hL] at hx; cases hx
    · rename_i ix2 e hf
      obtain ⟨g, reason, hg, ht⟩ := lookup_text hf
      simp only [hf, hg]
      have e : str ", eta " = 0x2c :: str " eta " := by decide
      exact ⟨g, rfl, by unfold withEta; rw [e]; rfl⟩
    · cases hx
    · cases hx
  obtain ⟨g, hg, e1⟩ := key (eta := eta) hs hx
  obtain ⟨g', hg', e2⟩ := key (eta := eta') hs' hx'
  rw [e1, e2, ← C95_lookup hr hr' w w' hz hz' hg hg']
  have c : (0x2c : UInt8) ∉ str " eta " := by decide
  constructor
  · intro h
    have h := List.append_cancel_left (Prod.mk.inj (List.cons.inj h).1).2
    obtain ⟨h1, h2⟩ := lastComma_split (by simp [c, he]) (by simp [c, he']) h
    exact ⟨List.append_cancel_left h2, h1⟩
  · rintro ⟨h1, h2⟩
    rw [h1, h2]

/-! ## Examples and what does not hold -/

/-- The hypotheses are met, and what the log looks like: a word with two readings, one that is known and has none, one that
is not known, and commands. -/
example : let ix := execAll sampleHistory; let lib := goLib fun a b => a == b; let eta := fun _ : Nat => str "12ms"
    toolLog lib eta ix (str "ab") = [(.info, str "< 00: NOUN, eta 12ms"), (.info, str "< 01: NOUN,VERB, eta 12ms")] ∧
    toolLog lib eta ix (str "a") = [(.info, str "< empty, eta 12ms")] ∧
    toolLog lib eta ix (str "axe") = [(.info, str "< index: fetch: not found: `a[x]`, eta 12ms")] ∧
    toolLog lib eta ix (str "tag count") = [(.info, str "tag.count: 2")] ∧
    toolLog lib eta ix (str "t 01") = [(.info, str "tag[01] VERB(NOUN)")] ∧
    toolLog lib eta ix (str "t 9") = [(.error, str "tag: no such tag id: `9`")] ∧
    toolLog lib eta ix (str "set tables") = [(.info, str "set.tables: total 2"), (.info, str "set.tables: 00(2), 01(1)")] ∧
    toolLog lib eta ix (str "n count") = [(.info, str "node.count: total 6")] ∧
    toolLog lib eta ix (str "node ab") = [(.debug, str "node 2 taken by string `ab`")] := by decide +kernel

set_option maxRecDepth 8000 in
example : IsSearch (str "axe") ∧ ∃ nx, processInput (goLib fun a b => a == b) none (execAll sampleHistory) (str "axe") =
    (nx, .ok .notFound) := ⟨by unfold IsSearch; decide, _, rfl⟩

/-- The message about one table is headed `set.tables`, whatever the table. -/
theorem not_C117_table (lib : Lib) (eta : Nat → Str) (ix : Index) (arg : Str) (ha : (0x20 : UInt8) ∉ arg) (n : Int)
    (hn : atoi arg = some n) (h0 : 0 ≤ n) (hl : n < ix.tagSets.length) :
    ∃ text, toolLog lib eta ix (str "set table " ++ arg) = [(.info, str "set.tables: " ++ text)] := by
  have e : splitSpaces (str "set table " ++ arg) = [str "set", str "table", arg] := by
    have e1 : str "set table " ++ arg = str "set" ++ 0x20 :: (str "table" ++ 0x20 :: arg) := by
      have : str "set table " = str "set" ++ 0x20 :: (str "table" ++ [0x20]) := by decide
      rw [this]; simp
    have e2 : ∀ (c s : Str), (0x20 : UInt8) ∉ c → splitSpaces (c ++ 0x20 :: s) = c :: splitSpaces s := by
      intro c s hc
      induction c with
      | nil => rw [List.nil_append, splitSpaces, if_pos rfl]
      | cons x c ih =>
        rw [List.cons_append, splitSpaces, if_neg (fun h => hc (by rw [h]; exact List.mem_cons_self)),
          ih fun h => hc (List.mem_cons_of_mem _ h)]
    rw [e1, e2 _ _ (by decide), e2 _ _ (by decide), splitSpaces_one ha]
  have hlt : n.toNat < ix.tagSets.length := by omega
  have hs : sliceAt ix.tagSets n = .ok ix.tagSets[n.toNat] := by
    unfold sliceAt
    rw [if_neg (by omega), List.getElem?_eq_getElem hlt]
  unfold toolLog
  rw [e]
  dsimp only [List.headD]
  rw [if_neg (by decide), if_pos (by decide)]
  unfold setLog
  dsimp only
  rw [if_neg (by decide), if_pos (by decide), hn]
  dsimp only
  rw [if_neg (by omega), hs]
  exact ⟨_, rfl⟩

/-- Without the hypothesis on the names the log may be ambiguous: a word with the tags `A` and `B` and one with the one tag
`A,B` are answered by the same message. -/
theorem not_C117_answers : ∃ h ix h' ix' nx nx' L L', Run h ix ∧ Run h' ix' ∧
    (∀ lib eta, toolLog lib eta ix (str "x") = toolLog lib eta ix' (str "x")) ∧
    (∀ lib disk, processInput lib disk ix (str "x") = (nx, .ok (.readings L))) ∧
    (∀ lib disk, processInput lib disk ix' (str "x") = (nx', .ok (.readings L'))) ∧
    L.map List.length ≠ L'.map List.length := by
  have f : ∀ (ix : Index) (d : Dict), d.nodes.length ≤ 2 → d.tags.length ≤ 3 → ix.tagSets.length ≤ 2 →
      (∀ t ∈ ix.tagSets, t.length ≤ 1) → ix.collectionIdx.length ≤ 2 → (∀ t ∈ ix.collectionIdx, t.length ≤ 1) →
      Fits ix d := fun ix d h1 h2 h3 h4 h5 h6 =>
    ⟨by omega, by omega, by omega, fun t ht => by have := h4 t ht; omega, by omega, fun t ht => by have := h6 t ht; omega⟩
  have r1 := Run.step (.tagID (str "a,b") []) Run.nil trivial (f _ _ (by decide) (by decide) (by decide) (by decide) (by decide) (by decide))
  have r2 := Run.step (.addString (str "x")) r1 trivial (f _ _ (by decide) (by decide) (by decide) (by decide) (by decide) (by decide))
  have r3 := Run.step (.addTagSet 1 [str "a,b"]) r2 trivial (f _ _ (by decide) (by decide) (by decide) (by decide) (by decide) (by decide))
  have s1 := Run.step (.tagID (str "a") []) Run.nil trivial (f _ _ (by decide) (by decide) (by decide) (by decide) (by decide) (by decide))
  have s2 := Run.step (.tagID (str "b") []) s1 trivial (f _ _ (by decide) (by decide) (by decide) (by decide) (by decide) (by decide))
  have s3 := Run.step (.addString (str "x")) s2 trivial (f _ _ (by decide) (by decide) (by decide) (by decide) (by decide) (by decide))
  have s4 := Run.step (.addTagSet 1 [str "a", str "b"]) s3 trivial (f _ _ (by decide) (by decide) (by decide) (by decide) (by decide) (by decide))
  exact ⟨_, _, _, _, _, _, [[⟨str "----", str "a,b"⟩]], [[⟨str "----", str "a"⟩, ⟨str "----", str "b"⟩]], r3, s4, fun _ _ => rfl,
    fun _ _ => rfl, fun _ _ => rfl, by decide⟩

end Verif
