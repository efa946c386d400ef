import Verif.Spec.Cli
import Verif.Props.ById
import Verif.Props.Reload

/-!
# The commands of the interactive tool, one by one
-/

namespace Verif

open Index

theorem splitSpaces_ne_nil (s : Str) : splitSpaces s ≠ [] := by
  induction s with
  | nil => simp [splitSpaces]
  | cons c s ih =>
    unfold splitSpaces
    split
    · simp
    · split <;> simp

theorem dropNul_eq_nil (q : List Rune) : q.dropWhile (· == 0) = [] ↔ ∀ c ∈ q, c = 0 := by
  induction q with
  | nil => simp
  | cons c q ih =>
    rw [List.dropWhile_cons]
    by_cases hc : c = 0
    · simp [hc, ih]
    · simp [hc]

/-- The root is found by the non-empty strings of NULs, in an index that was loaded. -/
theorem found_root_iff {h : List Op} {ix : Index} (r : Run h ix) (q : List Rune) :
    (ix.fetchRunes q).2 = .ok 0 ↔ q ≠ [] ∧ (dictOf h).nul = true ∧ ∀ c ∈ q, c = 0 := by
  rw [r.trie.fetchRoot_iff, zero_toNat, r.trie.root]
  refine and_congr_right fun hq => ?_
  unfold Dict.join
  by_cases hn : (dictOf h).nul = true
  · rw [if_pos ⟨rfl, hn⟩]
    simp only [Option.some.injEq, hn, true_and]
    rw [eq_comm, dropNul_eq_nil]
  · rw [if_neg (fun h => hn h.2)]
    simp only [List.nil_append, Option.some.injEq]
    exact ⟨fun e => absurd e.symm hq, fun e => absurd e.1 hn⟩

theorem fetchString_cases {h : List Op} {ix : Index} (r : Run h ix) (w : Str) :
    (∃ id : ID, (ix.fetchString w).2 = .ok id ∧ id.toNat ≤ ix.nodesCount) ∨ ∃ e, (ix.fetchString w).2 = .err e := by
  have hpos := r.trie.length_pos
  rcases r.trie.fetch_err 0 (decodeRunes w) with ⟨id, hid⟩ | ⟨e, he⟩
  · refine .inl ⟨id, hid, ?_⟩
    have := (r.trie.fetchRoot_iff _ _).1 hid
    have := (List.getElem?_eq_some_iff.1 this.2).1
    rw [r.trie.nodesCount]
    omega
  · exact .inr ⟨e, he⟩


theorem showNode_ok {h : List Op} {ix : Index} (r : Run h ix) {id : ID} (h1 : 1 ≤ id.toNat)
    (h2 : id.toNat ≤ ix.nodesCount) :
    ∃ w L it, ix.word id = .ok w ∧ ix.tagSetsOf id = .ok L ∧ ix.items.items[id.toNat]? = some it ∧
      (showNode ix id).2 = .ok (.node id w it L (ix.getChildrenMap id)) := by
  obtain ⟨_, hp⟩ := C34_partial r id
  obtain ⟨_, ⟨w, hw⟩, ⟨L, hL⟩, _⟩ := hp h1 h2
  have hpos := r.trie.length_pos
  rw [r.trie.nodesCount] at h2
  obtain ⟨it, _, hit, _⟩ := r.trie.item id.toNat h1 (by omega)
  refine ⟨w, L, it, hw, hL, hit, ?_⟩
  unfold showNode Index.nodeItem
  rw [hw, hL, hit]
  simp only
  rw [getChildrenIDMap_snd]

theorem showNode_root (ix : Index) : (showNode ix 0).2 = .panic := by
  have h1 : ix.word 0 = .ok [] := rfl
  have h2 : ix.tagSetsOf 0 = .panic := rfl
  unfold showNode
  rw [h1, h2]

theorem showNode_congr {ix ix' : Index} (h : Index.Obs ix ix') (id : ID) :
    (showNode ix' id).2 = (showNode ix id).2 := by
  have a := SameAnswers.of_obs h
  unfold showNode Index.nodeItem
  rw [a.word, a.tagSets, h.items]
  cases ix.word id <;> try rfl
  cases ix.tagSetsOf id <;> try rfl
  simp only
  cases ix.items.items[id.toNat]? <;> try rfl
  simp only
  rw [getChildrenIDMap_snd, getChildrenIDMap_snd, h.children]

theorem showNode_obs (ix : Index) (id : ID) : Index.Obs ix (showNode ix id).1 := by
  unfold showNode
  split
  · split
    · split
      · exact getChildrenIDMap_obs ix id
      · exact .refl _
    · exact .refl _
  · exact .refl _
  · exact .refl _

theorem get_cases {h : List Op} {ix : Index} (r : Run h ix) (id : ID) :
    (id.toNat ≤ ix.nodesCount ∧ ix.get id = .ok id) ∨ (ix.nodesCount < id.toNat ∧ ∃ e, ix.get id = .err e) := by
  have hn := r.trie.next
  have hpos := r.trie.length_pos
  rw [r.trie.nodesCount]
  unfold Index.get
  split
  · exact .inr ⟨by omega, _, rfl⟩
  · exact .inl ⟨by omega, rfl⟩

theorem processSearch_obs (ix : Index) (line : Str) : Index.Obs ix (processSearch ix line).1 := by
  have := fetchFromItem_obs ix 0 (decodeRunes line)
  unfold processSearch Index.fetchString Index.fetchRunes
  generalize ix.fetchFromItem 0 (decodeRunes line) = x at *
  obtain ⟨a, b⟩ := x
  cases b <;> exact this

theorem processNode_obs (ix : Index) (items : List Str) : Index.Obs ix (processNode ix items).1 := by
  unfold processNode
  split
  · rename_i sub rest
    split
    · exact .refl _
    · split
      · exact .refl _
      · split
        · have := fetchItemFromParent_obs ix 0 (decodeRunes sub)
          generalize ix.fetchItemFromParent 0 (decodeRunes sub) = x at *
          obtain ⟨a, b⟩ := x
          cases b <;> try exact this
          simp only
          split
          · exact this.trans (showNode_obs _ _)
          · exact this
        · split
          · exact .refl _
          · split
            · exact showNode_obs _ _
            · exact .refl _
  · exact .refl _

theorem processSearch_congr {ix ix' : Index} (h : Index.Obs ix ix') (line : Str) :
    (processSearch ix' line).2 = (processSearch ix line).2 := by
  have o := fetchFromItem_obs ix 0 (decodeRunes line)
  have o' := fetchFromItem_obs ix' 0 (decodeRunes line)
  have e := fetchFromItem_congr h 0 (decodeRunes line)
  unfold processSearch Index.fetchString Index.fetchRunes
  generalize ix.fetchFromItem 0 (decodeRunes line) = x at *
  generalize ix'.fetchFromItem 0 (decodeRunes line) = x' at *
  obtain ⟨a, b⟩ := x
  obtain ⟨a', b'⟩ := x'
  simp only at e o o'
  subst e
  cases b' <;> try rfl
  rename_i id
  simp only
  rw [(SameAnswers.of_obs o).tagSets, (SameAnswers.of_obs o').tagSets, (SameAnswers.of_obs h).tagSets]

theorem processNode_congr {ix ix' : Index} (h : Index.Obs ix ix') (items : List Str) :
    (processNode ix' items).2 = (processNode ix items).2 := by
  have hnc := (SameAnswers.of_obs h).nodesCount
  unfold processNode
  split
  · rename_i sub rest
    rw [hnc]
    split
    · rfl
    · split
      · rfl
      · split
        · have o := fetchItemFromParent_obs ix 0 (decodeRunes sub)
          have o' := fetchItemFromParent_obs ix' 0 (decodeRunes sub)
          have e := fetchItemFromParent_congr h 0 (decodeRunes sub)
          generalize ix.fetchItemFromParent 0 (decodeRunes sub) = x at *
          generalize ix'.fetchItemFromParent 0 (decodeRunes sub) = x' at *
          obtain ⟨a, b⟩ := x
          obtain ⟨a', b'⟩ := x'
          simp only at e o o'
          subst e
          cases b' <;> try rfl
          rename_i id
          simp only
          rw [get_obs o, get_obs o', get_obs h]
          split
          · rw [showNode_congr o, showNode_congr o', showNode_congr h]
          · rfl
        · split
          · rfl
          · rw [get_obs h]
            split
            · rw [showNode_congr h]
            · rfl
  · rfl

/-- The reply depends only on what the index answers. -/
theorem processInput_congr {ix ix' : Index} (h : Index.Obs ix ix') (lib : Lib) (disk : Option Index) (line : Str) :
    (processInput lib disk ix' line).2 = (processInput lib disk ix line).2 := by
  have e1 : processTag lib ix' = processTag lib ix := by funext items; unfold processTag; rw [h.tags]
  have e2 : shownTags ix' = shownTags ix := by funext ts; unfold shownTags; rw [h.tags]
  have e3 : processSet lib ix' = processSet lib ix := by funext items; unfold processSet; rw [h.tagSets, e2]
  have e4 : processVar lib ix' = processVar lib ix := by
    funext items; unfold processVar Index.variants; rw [h.tagSets, e2, h.collectionIdx]
  unfold processInput
  simp only
  rw [e1, e3, e4]
  split
  · rfl
  · split
    · rfl
    · split
      · exact processNode_congr h _
      · split
        · rfl
        · split
          · cases disk <;> rfl
          · split
            · rfl
            · exact processSearch_congr h _

/-- Only `reload` changes what the index answers. -/
theorem processInput_obs (lib : Lib) (disk : Option Index) (ix : Index) (line : Str) :
    Index.Obs ix (processInput lib disk ix line).1 ∨ some (processInput lib disk ix line).1 = disk := by
  unfold processInput
  simp only
  split
  · exact .inl (.refl _)
  · split
    · exact .inl (.refl _)
    · split
      · exact .inl (processNode_obs _ _)
      · split
        · exact .inl (.refl _)
        · split
          · cases disk
            · exact .inl (.refl _)
            · exact .inr rfl
          · split
            · exact .inl (.refl _)
            · exact .inl (processSearch_obs _ _)

theorem sliceAt_cases {α : Type} (l : List α) (n : Int) (h : n < l.length) :
    (n < 0 ∧ sliceAt l n = .panic) ∨ (0 ≤ n ∧ ∃ a, l[n.toNat]? = some a ∧ sliceAt l n = .ok a) := by
  unfold sliceAt
  by_cases h0 : n < 0
  · exact .inl ⟨h0, if_pos h0⟩
  · rw [if_neg h0]
    refine .inr ⟨by omega, l[n.toNat]'(by omega), List.getElem?_eq_getElem _, ?_⟩
    rw [List.getElem?_eq_getElem (by omega)]

theorem processSearch_exact {h : List Op} {ix : Index} (r : Run h ix) (line : Str) :
    ((ix.fetchString line).2 = .ok 0 → (processSearch ix line).2 = .panic) ∧
    ((ix.fetchString line).2 ≠ .ok 0 → ∃ p, (processSearch ix line).2 = .ok p) := by
  have o : Index.Obs ix (ix.fetchString line).1 := fetchFromItem_obs ix 0 (decodeRunes line)
  have c := fetchString_cases r line
  unfold processSearch
  generalize ix.fetchString line = x at *
  obtain ⟨a, b⟩ := x
  simp only at o c
  rcases c with ⟨id, rfl, hid⟩ | ⟨e, rfl⟩
  · simp only [Out.ok.injEq]
    rw [(SameAnswers.of_obs o).tagSets]
    refine ⟨?_, ?_⟩
    · rintro rfl
      rfl
    · intro hne
      have h0 : id.toNat ≠ 0 := fun e => hne (congrArg Out.ok (UInt32.toNat_inj.1 e))
      obtain ⟨_, _, ⟨L, hL⟩, _⟩ := (C34_partial r id).2 (by omega) hid
      rw [hL]
      exact ⟨_, rfl⟩
  · simp

theorem processNode_exact {h : List Op} {ix : Index} (r : Run h ix) (items : List Str) :
    ((processNode ix items).2 = .panic ∧ ∃ c a, items = [c, a] ∧
      ((∃ n, atoi a = some n ∧ n ≤ 0 ∧ n % 4294967296 = 0 ∧ n < ix.nodesCount) ∨
       (atoi a = none ∧ (ix.fetchString a).2 = .ok 0))) ∨
    ((∃ p, (processNode ix items).2 = .ok p) ∧ ¬ ∃ c a, items = [c, a] ∧
      ((∃ n, atoi a = some n ∧ n ≤ 0 ∧ n % 4294967296 = 0 ∧ n < ix.nodesCount) ∨
       (atoi a = none ∧ (ix.fetchString a).2 = .ok 0))) := by
  have hcnt : atoi (str "count") = none := by decide
  unfold processNode
  split
  · rename_i c sub rest
    by_cases h1 : sub = str "count"
    · rw [if_pos h1]
      refine .inr ⟨⟨_, rfl⟩, ?_⟩
      rintro ⟨c', a, he, hx⟩
      simp only [List.cons.injEq] at he
      obtain ⟨rfl, rfl, rfl⟩ := he
      subst h1
      rcases hx with ⟨n, hn, _⟩ | ⟨_, hx⟩
      · rw [hcnt] at hn; cases hn
      · have := ((found_root_iff r _).1 hx).2.2
        revert this
        decide
    · rw [if_neg h1]
      by_cases h2 : rest = []
      · rw [if_neg (by simp [h2])]
        subst h2
        have key : ∀ P : Prop, (∃ c' a, [c, sub] = [c', a] ∧ ((∃ n, atoi a = some n ∧ n ≤ 0 ∧ n % 4294967296 = 0 ∧
            n < ix.nodesCount) ∨ (atoi a = none ∧ (ix.fetchString a).2 = .ok 0))) ↔
            ((∃ n, atoi sub = some n ∧ n ≤ 0 ∧ n % 4294967296 = 0 ∧ n < ix.nodesCount) ∨
              (atoi sub = none ∧ (ix.fetchString sub).2 = .ok 0)) := by
          intro _
          constructor
          · rintro ⟨c', a, he, hx⟩
            simp only [List.cons.injEq, and_true] at he
            obtain ⟨rfl, rfl⟩ := he
            exact hx
          · exact fun hx => ⟨c, sub, rfl, hx⟩
        rw [key True]
        cases ha : atoi sub with
        | none =>
          simp only [true_and]
          have same := fetchItemFromParent_same r.trie 0 (decodeRunes sub)
          have o := fetchItemFromParent_obs ix 0 (decodeRunes sub)
          have cs := fetchString_cases r sub
          have hdef : (ix.fetchString sub).2 = (ix.fetchFromItem 0 (decodeRunes sub)).2 := rfl
          rw [hdef] at cs ⊢
          rw [← same] at cs ⊢
          generalize ix.fetchItemFromParent 0 (decodeRunes sub) = x at *
          obtain ⟨b, res⟩ := x
          simp only at o cs ⊢
          rcases cs with ⟨id, rfl, hid⟩ | ⟨e, rfl⟩
          · simp only [Out.ok.injEq]
            rw [get_obs o]
            rcases get_cases r id with ⟨_, hg⟩ | ⟨hl, _⟩
            · rw [hg]
              simp only
              rw [showNode_congr o]
              by_cases h0 : id = 0
              · subst h0
                exact .inl ⟨showNode_root ix, .inr rfl⟩
              · have h0' : id.toNat ≠ 0 := fun e => h0 (UInt32.toNat_inj.1 e)
                obtain ⟨w, L, it, _, _, _, hs⟩ := showNode_ok r (by omega) hid
                exact .inr ⟨⟨_, hs⟩, by simp [h0]⟩
            · omega
          · exact .inr ⟨⟨_, rfl⟩, by simp⟩
        | some n =>
          simp only
          by_cases hk : n ≥ ix.nodesCount
          · rw [if_pos hk]
            refine .inr ⟨⟨_, rfl⟩, ?_⟩
            rintro (⟨m, hm, _, _, hm3⟩ | ⟨hm, _⟩)
            · simp only [Option.some.injEq] at hm
              omega
            · cases hm
          · rw [if_neg hk]
            have hnc : ix.nodesCount < 4294967296 := by
              rw [r.trie.nodesCount]
              have := r.trie.next
              have := ix.items.nextID.toNat_lt
              omega
            have hu : (toU32 n).toNat = (n % 4294967296).toNat := by
              unfold toU32
              rw [UInt32.toNat_ofNat']
              exact Nat.mod_eq_of_lt (by omega)
            rcases get_cases r (toU32 n) with ⟨hl, hg⟩ | ⟨hl, e, hg⟩
            · rw [hg]
              simp only
              by_cases h0 : toU32 n = 0
              · left
                rw [h0]
                refine ⟨showNode_root ix, .inl ⟨n, rfl, ?_, ?_, by omega⟩⟩
                · rw [h0] at hu
                  have : (0 : UInt32).toNat = 0 := rfl
                  omega
                · rw [h0] at hu
                  have : (0 : UInt32).toNat = 0 := rfl
                  omega
              · have h0' : (toU32 n).toNat ≠ 0 := fun e => h0 (UInt32.toNat_inj.1 e)
                obtain ⟨w, L, it, _, _, _, hs⟩ := showNode_ok r (by omega) hl
                refine .inr ⟨⟨_, hs⟩, ?_⟩
                rintro (⟨m, hm, _, hm2, _⟩ | ⟨hm, _⟩)
                · simp only [Option.some.injEq] at hm
                  subst hm
                  omega
                · cases hm
            · rw [hg]
              refine .inr ⟨⟨_, rfl⟩, ?_⟩
              rintro (⟨m, hm, _, hm2, _⟩ | ⟨hm, _⟩)
              · simp only [Option.some.injEq] at hm
                subst hm
                omega
              · cases hm
      · rw [if_pos h2]
        refine .inr ⟨⟨_, rfl⟩, ?_⟩
        rintro ⟨c', a, he, hx⟩
        simp only [List.cons.injEq] at he
        exact h2 he.2.2
  · rename_i hx
    refine .inr ⟨⟨_, rfl⟩, ?_⟩
    rintro ⟨c', a, rfl, _⟩
    exact hx _ _ _ rfl

theorem processTag_exact (lib : Lib) (ix : Index) (items : List Str) :
    (processTag lib ix items = .panic ∧ ∃ c a n, items = [c, a] ∧ atoi a = some n ∧ n < 0) ∨
    ((∃ p, processTag lib ix items = .ok p) ∧ ¬ ∃ c a n, items = [c, a] ∧ atoi a = some n ∧ n < 0) := by
  have hcnt : atoi (str "count") = none := by decide
  unfold processTag
  split
  · rename_i c arg
    have key : (∃ c' a n, [c, arg] = [c', a] ∧ atoi a = some n ∧ n < 0) ↔ ∃ n, atoi arg = some n ∧ n < 0 := by
      constructor
      · rintro ⟨c', a, n, he, hx⟩
        simp only [List.cons.injEq, and_true] at he
        obtain ⟨rfl, rfl⟩ := he
        exact ⟨n, hx⟩
      · exact fun ⟨n, hx⟩ => ⟨c, arg, n, rfl, hx⟩
    rw [key]
    by_cases h1 : arg = str "count"
    · rw [if_pos h1]
      subst h1
      exact .inr ⟨⟨_, rfl⟩, by simp [hcnt]⟩
    · rw [if_neg h1]
      cases ha : atoi arg with
      | none =>
        simp only
        refine .inr ⟨?_, by simp⟩
        split <;> exact ⟨_, rfl⟩
      | some n =>
        simp only [Option.some.injEq, exists_eq_left']
        by_cases hn : n ≥ ix.tags.length
        · rw [if_pos hn]
          exact .inr ⟨⟨_, rfl⟩, by omega⟩
        · rw [if_neg hn]
          rcases sliceAt_cases ix.tags n (by omega) with ⟨h0, hs⟩ | ⟨h0, t, _, hs⟩
          · rw [hs]; exact .inl ⟨rfl, h0⟩
          · rw [hs]; exact .inr ⟨⟨_, rfl⟩, by omega⟩
  · rename_i hx
    refine .inr ⟨⟨_, rfl⟩, ?_⟩
    rintro ⟨c', a, n, rfl, _⟩
    exact hx _ _ rfl

theorem processSet_exact (lib : Lib) (ix : Index) (items : List Str) :
    (processSet lib ix items = .panic ∧ ∃ c a n, items = [c, str "table", a] ∧ atoi a = some n ∧ n < 0) ∨
    ((∃ p, processSet lib ix items = .ok p) ∧
      ¬ ∃ c a n, items = [c, str "table", a] ∧ atoi a = some n ∧ n < 0) := by
  unfold processSet
  split
  · rename_i c sub rest
    by_cases h1 : sub = str "tables"
    · rw [if_pos h1]
      refine .inr ⟨⟨_, rfl⟩, ?_⟩
      rintro ⟨c', a, n, he, _⟩
      simp only [List.cons.injEq] at he
      have := he.2.1
      rw [h1] at this
      exact absurd this (by decide)
    · rw [if_neg h1]
      by_cases h2 : sub = str "table"
      · rw [if_pos h2]
        subst h2
        split
        · rename_i arg
          have key : (∃ c' a n, [c, str "table", arg] = [c', str "table", a] ∧ atoi a = some n ∧ n < 0) ↔
              ∃ n, atoi arg = some n ∧ n < 0 := by
            constructor
            · rintro ⟨c', a, n, he, hx⟩
              simp only [List.cons.injEq, and_true, true_and] at he
              obtain ⟨rfl, rfl⟩ := he
              exact ⟨n, hx⟩
            · exact fun ⟨n, hx⟩ => ⟨c, arg, n, rfl, hx⟩
          rw [key]
          cases ha : atoi arg with
          | none => exact .inr ⟨⟨_, rfl⟩, by simp⟩
          | some n =>
            simp only [Option.some.injEq, exists_eq_left']
            by_cases hn : n ≥ ix.tagSets.length
            · rw [if_pos hn]
              exact .inr ⟨⟨_, rfl⟩, by omega⟩
            · rw [if_neg hn]
              rcases sliceAt_cases ix.tagSets n (by omega) with ⟨h0, hs⟩ | ⟨h0, t, _, hs⟩
              · rw [hs]; exact .inl ⟨rfl, h0⟩
              · rw [hs]; exact .inr ⟨⟨_, rfl⟩, by omega⟩
        · rename_i hx
          refine .inr ⟨⟨_, rfl⟩, ?_⟩
          rintro ⟨c', a, n, he, _⟩
          simp only [List.cons.injEq] at he
          exact hx _ he.2.2
      · rw [if_neg h2]
        refine .inr ⟨?_, ?_⟩
        · split
          · exact ⟨_, rfl⟩
          · split <;> exact ⟨_, rfl⟩
        · rintro ⟨c', a, n, he, _⟩
          simp only [List.cons.injEq] at he
          exact h2 he.2.1
  · rename_i hx
    refine .inr ⟨⟨_, rfl⟩, ?_⟩
    rintro ⟨c', a, n, rfl, _⟩
    exact hx _ _ _ rfl

theorem processVar_exact (lib : Lib) (ix : Index) (items : List Str) :
    (processVar lib ix items = .panic ∧ ∃ c a rest v, items = c :: a :: rest ∧ lib.parseUint a = some v ∧
      1 ≤ (upper16 v).toNat ∧ (ix.collectionIdx.getD ((upper16 v).toNat - 1) []).length ≤ (lower16 v).toNat) ∨
    ((∃ p, processVar lib ix items = .ok p) ∧ ¬ ∃ c a rest v, items = c :: a :: rest ∧ lib.parseUint a = some v ∧
      1 ≤ (upper16 v).toNat ∧ (ix.collectionIdx.getD ((upper16 v).toNat - 1) []).length ≤ (lower16 v).toNat) := by
  unfold processVar
  split
  · rename_i c sub rest
    have key : (∃ c' a rest' v, c :: sub :: rest = c' :: a :: rest' ∧ lib.parseUint a = some v ∧
        1 ≤ (upper16 v).toNat ∧ (ix.collectionIdx.getD ((upper16 v).toNat - 1) []).length ≤ (lower16 v).toNat) ↔
        ∃ v, lib.parseUint sub = some v ∧ 1 ≤ (upper16 v).toNat ∧
          (ix.collectionIdx.getD ((upper16 v).toNat - 1) []).length ≤ (lower16 v).toNat := by
      constructor
      · rintro ⟨c', a, rest', v, he, hx⟩
        simp only [List.cons.injEq] at he
        obtain ⟨rfl, rfl, rfl⟩ := he
        exact ⟨v, hx⟩
      · exact fun ⟨v, hx⟩ => ⟨c, sub, rest, v, rfl, hx⟩
    rw [key]
    cases hv : lib.parseUint sub with
    | none => exact .inr ⟨⟨_, rfl⟩, by simp⟩
    | some v =>
      simp only [Option.some.injEq, exists_eq_left']
      obtain ⟨p1, p2⟩ := C34_variants_exact ix v
      by_cases hp : ix.variants v = .panic
      · rw [hp]
        exact .inl ⟨rfl, p1.1 hp⟩
      · obtain ⟨c', hc⟩ := p2 hp
        rw [hc]
        exact .inr ⟨⟨_, rfl⟩, fun hx => hp (p1.2 hx)⟩
  · rename_i hx
    refine .inr ⟨⟨_, rfl⟩, ?_⟩
    rintro ⟨c', a, rest, v, rfl, _⟩
    exact hx _ _ _ rfl

theorem Crashes.inv {lib : Lib} {ix : Index} {line c : Str} {rest : List Str} (hsp : splitSpaces line = c :: rest) :
    Crashes lib ix line ↔
      ((c = str "tag" ∨ c = str "t") ∧ ∃ c' a n, c :: rest = [c', a] ∧ atoi a = some n ∧ n < 0) ∨
      ((c = str "set" ∨ c = str "s") ∧ ∃ c' a n, c :: rest = [c', str "table", a] ∧ atoi a = some n ∧ n < 0) ∨
      ((c = str "var" ∨ c = str "v") ∧ ∃ c' a rest' v, c :: rest = c' :: a :: rest' ∧ lib.parseUint a = some v ∧
        1 ≤ (upper16 v).toNat ∧ (ix.collectionIdx.getD ((upper16 v).toNat - 1) []).length ≤ (lower16 v).toNat) ∨
      ((c = str "node" ∨ c = str "n") ∧ ∃ c' a, c :: rest = [c', a] ∧
        ((∃ n, atoi a = some n ∧ n ≤ 0 ∧ n % 4294967296 = 0 ∧ n < ix.nodesCount) ∨
         (atoi a = none ∧ (ix.fetchString a).2 = .ok 0))) ∨
      (c ∉ commands ∧ (ix.fetchString line).2 = .ok 0) := by
  constructor
  · intro hc
    rcases hc with ⟨c', a, n, hc, hs, h1, h2⟩ | ⟨c', a, n, hc, hs, h1, h2⟩ | ⟨c', a, rest', v, hc, hs, h1, h2, h3⟩ |
      ⟨c', a, n, hc, hs, h1, h2, h3, h4⟩ | ⟨c', a, hc, hs, h1, h2⟩ | ⟨hc, h1⟩
    · rw [hsp] at hs
      have e := (List.cons.inj hs).1
      exact .inl ⟨e ▸ hc, c', a, n, hs, h1, h2⟩
    · rw [hsp] at hs
      have e := (List.cons.inj hs).1
      exact .inr (.inl ⟨e ▸ hc, c', a, n, hs, h1, h2⟩)
    · rw [hsp] at hs
      have e := (List.cons.inj hs).1
      exact .inr (.inr (.inl ⟨e ▸ hc, c', a, rest', v, hs, h1, h2, h3⟩))
    · rw [hsp] at hs
      have e := (List.cons.inj hs).1
      exact .inr (.inr (.inr (.inl ⟨e ▸ hc, c', a, hs, .inl ⟨n, h1, h2, h3, h4⟩⟩)))
    · rw [hsp] at hs
      have e := (List.cons.inj hs).1
      exact .inr (.inr (.inr (.inl ⟨e ▸ hc, c', a, hs, .inr ⟨h1, h2⟩⟩)))
    · rw [hsp] at hc
      exact .inr (.inr (.inr (.inr ⟨hc, h1⟩)))
  · rintro (⟨hc, c', a, n, hs, h1, h2⟩ | ⟨hc, c', a, n, hs, h1, h2⟩ | ⟨hc, c', a, rest', v, hs, h1, h2, h3⟩ |
      ⟨hc, c', a, hs, ⟨n, h1, h2, h3, h4⟩ | ⟨h1, h2⟩⟩ | ⟨hc, h1⟩)
    · have e := (List.cons.inj hs).1
      exact .tag c' a n (e ▸ hc) (hsp.trans hs) h1 h2
    · have e := (List.cons.inj hs).1
      exact .table c' a n (e ▸ hc) (hsp.trans hs) h1 h2
    · have e := (List.cons.inj hs).1
      exact .var c' a rest' v (e ▸ hc) (hsp.trans hs) h1 h2 h3
    · have e := (List.cons.inj hs).1
      exact .node c' a n (e ▸ hc) (hsp.trans hs) h1 h2 h3 h4
    · have e := (List.cons.inj hs).1
      exact .nodeNul c' a (e ▸ hc) (hsp.trans hs) h1 h2
    · exact .search (by rw [hsp]; exact hc) h1

end Verif
