import Verif.Model.Tagging
import Verif.Lemmas.Threads
import Verif.Lemmas.Basic

/-! # The programs of `Model/Tagging.lean`, run alone, are the methods of the sequential model -/

namespace Verif

/-- The memory with other tag sets. -/
def setSets (m : Cells TLoc TVal) (ts : TagSetIndex) : Cells TLoc TVal
  | .sets => ts.length
  | .setTable k => ts.getD k []
  | .tags => m .tags
  | .variants id => m (.variants id)
  | .colls => m .colls
  | .collTable k => m (.collTable k)
  | .count => m .count
  | .outer => m .outer
  | .kids p => m (.kids p)

/-- The memory with other collections. -/
def setColls (m : Cells TLoc TVal) (ci : VariantsIndex) : Cells TLoc TVal
  | .colls => ci.length
  | .collTable k => ci.getD k []
  | .tags => m .tags
  | .variants id => m (.variants id)
  | .sets => m .sets
  | .setTable k => m (.setTable k)
  | .count => m .count
  | .outer => m .outer
  | .kids p => m (.kids p)

@[simp] theorem Cells.set_apply_same {Loc : Type} {Val : Loc → Type} [DecidableEq Loc] (m : Cells Loc Val) (l : Loc) (v : Val l) :
    m.set l v l = v := Cells.set_same m l v

theorem setSets_self (ix : Index) : setSets (memOf ix) ix.tagSets = memOf ix := by funext l; cases l <;> rfl
theorem setColls_self (ix : Index) : setColls (memOf ix) ix.collectionIdx = memOf ix := by funext l; cases l <;> rfl

namespace TProg

variable {ρ σ : Type}

theorem alone_findAll (names : List Str) (m : Cells TLoc TVal) :
    (findAll names).alone m = (m, Index.findAll (m .tags) names) := by
  induction names with
  | nil => rfl
  | cons n rest ih =>
    show (match tagsFind (m .tags) n with
      | none => Prog.done (Except.error n)
      | some id => (findAll rest).bind fun r => .done (r.map (id :: ·))).alone m = _
    cases hf : tagsFind (m .tags) n with
    | none => simp only [Index.findAll, hf]; rfl
    | some id =>
      simp only [Index.findAll, hf]
      rw [Prog.alone_bind, ih]
      rfl

theorem alone_tagID (ix : Index) (name parent : Str) :
    (tagID name parent).alone (memOf ix) = (memOf (ix.tagID name parent).1, (ix.tagID name parent).2) := by
  show (match tagsFind ix.tags name with
    | some id => Prog.done id
    | none => .read .tags fun ts1 => .read .tags fun ts2 =>
        .write .tags (ts2 ++ [newTag (if parent = [] then emptyTagName else parent) name]) (.done (UInt8.ofNat ts1.length))
      : TProg UInt8).alone (memOf ix) = _
  unfold Index.tagID tagsIndex
  cases hf : tagsFind ix.tags name with
  | some id => rfl
  | none =>
    simp only
    refine Prod.ext ?_ rfl
    funext l
    cases l <;> rfl

theorem alone_collGet {m : Cells TLoc TVal} {ci : VariantsIndex} (hm : m = setColls m ci) (v : VariantID) :
    (collGet v).alone m = (m, ci.get v) := by
  have h1 : m .colls = ci.length := by rw [hm]; rfl
  have h2 : ∀ k, m (.collTable k) = ci.getD k [] := fun k => by rw [hm]; rfl
  unfold collGet
  show (if v = 0 then _ else if _ then _ else if m .colls ≤ _ then _ else _ : TProg (Out Coll)).alone m = _
  unfold VariantsIndex.get
  by_cases hv : v = 0
  · rw [if_pos hv, if_pos hv]; rfl
  rw [if_neg hv, if_neg hv]
  by_cases ht : (variantTableNum v).toNat < 1
  · rw [if_pos ht, if_pos ht]; rfl
  rw [if_neg ht, if_neg ht, h1]
  by_cases hn : ci.length ≤ (variantTableNum v).toNat - 1
  · rw [if_pos hn, List.getElem?_eq_none hn]; rfl
  · rw [if_neg hn]
    show (m, VariantsTable.get (m (.collTable _)) _) = _
    rw [h2, List.getElem?_eq_getElem (by omega), List.getD_eq_getElem?_getD, List.getElem?_eq_getElem (by omega)]
    rfl

theorem alone_extendSets (k : Nat) : ∀ {m : Cells TLoc TVal} {ts : TagSetIndex}, m = setSets m ts →
    (extendSets k).alone m = (setSets m (ts ++ List.replicate k []), ()) := by
  induction k with
  | zero =>
    intro m ts hm
    rw [List.replicate_zero, List.append_nil, ← hm]
    rfl
  | succ k ih =>
    intro m ts hm
    have h1 : m .sets = ts.length := by rw [hm]; rfl
    have e : (m.set (.setTable ts.length) []).set .sets (ts.length + 1) = setSets m (ts ++ [[]]) := by
      funext l
      cases l with
      | sets => simp [setSets]
      | setTable j =>
        rw [Cells.set_other _ _ (by simp)]
        by_cases hj : j = ts.length
        · subst hj
          simp [setSets]
        · rw [Cells.set_other _ _ (by simpa using fun h => hj h.symm), hm]
          show ts.getD j [] = (ts ++ [[]]).getD j []
          rw [List.getD_eq_getElem?_getD, List.getD_eq_getElem?_getD, List.getElem?_append]
          split
          · rfl
          · rw [List.getElem?_eq_none (by omega), List.getElem?_eq_none (by simp; omega)]
      | _ => rw [Cells.set_other _ _ (by simp), Cells.set_other _ _ (by simp)]; rfl
    show (extendSets k).alone ((m.set (.setTable (m .sets)) []).set .sets ((m .sets : Nat) + 1)) = _
    rw [h1]
    rw [e, ih (ts := ts ++ [[]]) (by funext l; cases l <;> rfl), List.append_assoc]
    refine Prod.ext ?_ rfl
    funext l
    cases l <;> rfl

theorem alone_extendColls (k : Nat) : ∀ {m : Cells TLoc TVal} {ts : VariantsIndex}, m = setColls m ts →
    (extendColls k).alone m = (setColls m (ts ++ List.replicate k []), ()) := by
  induction k with
  | zero =>
    intro m ts hm
    rw [List.replicate_zero, List.append_nil, ← hm]
    rfl
  | succ k ih =>
    intro m ts hm
    have h1 : m .colls = ts.length := by rw [hm]; rfl
    have e : (m.set (.collTable ts.length) []).set .colls (ts.length + 1) = setColls m (ts ++ [[]]) := by
      funext l
      cases l with
      | colls => simp [setColls]
      | collTable j =>
        rw [Cells.set_other _ _ (by simp)]
        by_cases hj : j = ts.length
        · subst hj
          simp [setColls]
        · rw [Cells.set_other _ _ (by simpa using fun h => hj h.symm), hm]
          show ts.getD j [] = (ts ++ [[]]).getD j []
          rw [List.getD_eq_getElem?_getD, List.getD_eq_getElem?_getD, List.getElem?_append]
          split
          · rfl
          · rw [List.getElem?_eq_none (by omega), List.getElem?_eq_none (by simp; omega)]
      | _ => rw [Cells.set_other _ _ (by simp), Cells.set_other _ _ (by simp)]; rfl
    show (extendColls k).alone ((m.set (.collTable (m .colls)) []).set .colls ((m .colls : Nat) + 1)) = _
    rw [h1]
    rw [e, ih (ts := ts ++ [[]]) (by funext l; cases l <;> rfl), List.append_assoc]
    refine Prod.ext ?_ rfl
    funext l
    cases l <;> rfl

theorem getD_set_eq {α : Type} (l : List α) (i j : Nat) (x d : α) (hi : i < l.length) :
    (l.set i x).getD j d = if i = j then x else l.getD j d := by
  rw [List.getD_eq_getElem?_getD, List.getElem?_set, List.getD_eq_getElem?_getD]
  by_cases h : i = j
  · subst h; rw [if_pos rfl, if_pos hi, if_pos rfl]; rfl
  · rw [if_neg h, if_neg h]

theorem set_setTable {m : Cells TLoc TVal} {ts : TagSetIndex} (hm : m = setSets m ts) {k : Nat} (hk : k < ts.length)
    (t : TagSetTable) : m.set (.setTable k) t = setSets m (ts.set k t) := by
  funext l
  cases l with
  | sets =>
    rw [Cells.set_other _ _ (by simp), hm]
    simp [setSets]
  | setTable j =>
    show _ = (ts.set k t).getD j []
    rw [getD_set_eq _ _ _ _ _ hk]
    by_cases h : k = j
    · subst h; rw [if_pos rfl, Cells.set_same]
    · rw [if_neg h, Cells.set_other _ _ (by simpa using h), hm]; rfl
  | _ => rw [Cells.set_other _ _ (by simp)]; rfl

theorem set_collTable {m : Cells TLoc TVal} {ts : VariantsIndex} (hm : m = setColls m ts) {k : Nat} (hk : k < ts.length)
    (t : VariantsTable) : m.set (.collTable k) t = setColls m (ts.set k t) := by
  funext l
  cases l with
  | colls =>
    rw [Cells.set_other _ _ (by simp), hm]
    simp [setColls]
  | collTable j =>
    show _ = (ts.set k t).getD j []
    rw [getD_set_eq _ _ _ _ _ hk]
    by_cases h : k = j
    · subst h; rw [if_pos rfl, Cells.set_same]
    · rw [if_neg h, Cells.set_other _ _ (by simpa using h), hm]; rfl
  | _ => rw [Cells.set_other _ _ (by simp)]; rfl

theorem setSets_setSets (m : Cells TLoc TVal) (a b : TagSetIndex) : setSets (setSets m a) b = setSets m b := by
  funext l; cases l <;> rfl

theorem setColls_setColls (m : Cells TLoc TVal) (a b : VariantsIndex) : setColls (setColls m a) b = setColls m b := by
  funext l; cases l <;> rfl

theorem set_getD_self {α : Type} (l : List (List α)) (i : Nat) : l.set i (l.getD i []) = l := by
  apply List.ext_getElem?
  intro j
  rw [List.getElem?_set, List.getD_eq_getElem?_getD]
  by_cases h : i = j
  · subst h
    rw [if_pos rfl]
    split
    · rename_i hi
      rw [List.getElem?_eq_getElem hi]; rfl
    · rename_i hi
      rw [List.getElem?_eq_none (by omega)]
  · rw [if_neg h]

/-- The loop that appends tables, with the test before it. -/
theorem alone_moreSets {m : Cells TLoc TVal} {ts : TagSetIndex} (hm : m = setSets m ts) (col : Nat) :
    (if col ≥ m .sets then .read .sets fun n => extendSets (col + 1 - n) else .done () : TProg Unit).alone m =
      (setSets m (extendTables ts col), ()) := by
  have h1 : m .sets = ts.length := by rw [hm]; rfl
  unfold extendTables
  rw [h1]
  split
  · show (extendSets (col + 1 - m .sets)).alone m = _
    rw [h1, alone_extendSets _ hm]
  · rw [← hm]; rfl

theorem alone_moreColls {m : Cells TLoc TVal} {ts : VariantsIndex} (hm : m = setColls m ts) (col : Nat) :
    (if col ≥ m .colls then .read .colls fun n => extendColls (col + 1 - n) else .done () : TProg Unit).alone m =
      (setColls m (extendTables ts col), ()) := by
  have h1 : m .colls = ts.length := by rw [hm]; rfl
  unfold extendTables
  rw [h1]
  split
  · show (extendColls (col + 1 - m .colls)).alone m = _
    rw [h1, alone_extendColls _ hm]
  · rw [← hm]; rfl

/-- The part of `setIndex` after the tables are there. -/
def setIndexRest (item : TagSet) (col : Nat) : TProg (Out TagSetID) :=
  .read .sets fun n =>
    if n ≤ col then .done .panic
    else .read (.setTable col) fun t => match TagSetTable.find t (sortAsc item) with
      | some sub => .done (.ok (combine16 (UInt16.ofNat col) sub))
      | none => .read (.setTable col) fun t1 => .read (.setTable col) fun t2 =>
          .write (.setTable col) (t2 ++ [sortAsc item])
            (.done (.ok (combine16 (UInt16.ofNat col) (UInt16.ofNat t1.length))))

theorem setIndex_eq {item : TagSet} (h : item.length ≠ 0) : setIndex item = .read .sets fun n =>
      (if item.length - 1 ≥ n then .read .sets fun n => extendSets (item.length - 1 + 1 - n) else .done () : TProg Unit).bind
        fun _ => setIndexRest item (item.length - 1) := by
  unfold setIndex
  rw [if_neg h]
  rfl

theorem alone_setIndexRest {m : Cells TLoc TVal} {ts : TagSetIndex} (hm : m = setSets m ts) (item : TagSet) {col : Nat}
    (hc : col < ts.length) :
    (setIndexRest item col).alone m = match TagSetTable.find (ts.getD col []) (sortAsc item) with
      | some sub => (m, .ok (combine16 (UInt16.ofNat col) sub))
      | none => (setSets m (ts.set col (ts.getD col [] ++ [sortAsc item])),
          .ok (combine16 (UInt16.ofNat col) (UInt16.ofNat (ts.getD col []).length))) := by
  have h1 : m .sets = ts.length := by rw [hm]; rfl
  have h2 : m (.setTable col) = ts.getD col [] := by rw [hm]; rfl
  unfold setIndexRest
  show (if m .sets ≤ col then _ else _ : TProg (Out TagSetID)).alone m = _
  rw [h1, if_neg (Nat.not_le.2 hc)]
  show (match TagSetTable.find (m (.setTable col)) (sortAsc item) with
      | some sub => .done (.ok (combine16 (UInt16.ofNat col) sub))
      | none => .read (.setTable col) fun t1 => .read (.setTable col) fun t2 =>
          .write (.setTable col) (t2 ++ [sortAsc item])
            (.done (.ok (combine16 (UInt16.ofNat col) (UInt16.ofNat t1.length)))) : TProg (Out TagSetID)).alone m = _
  rw [h2]
  cases TagSetTable.find (ts.getD col []) (sortAsc item) with
  | some sub => rfl
  | none =>
    show (m.set (.setTable col) ((m (.setTable col) : TagSetTable) ++ [sortAsc item]),
      Out.ok (combine16 (UInt16.ofNat col) (UInt16.ofNat (m (.setTable col) : TagSetTable).length))) = _
    rw [h2, set_setTable hm hc]

theorem alone_setIndex {m : Cells TLoc TVal} {ts : TagSetIndex} (hm : m = setSets m ts) (item : TagSet) :
    (setIndex item).alone m = (setSets m (ts.index item).1, .ok (ts.index item).2) := by
  by_cases h : item.length = 0
  · unfold setIndex TagSetIndex.index
    rw [if_pos h, if_pos h, ← hm]
    rfl
  rw [setIndex_eq h]
  show ((if item.length - 1 ≥ m .sets then .read .sets fun n => extendSets (item.length - 1 + 1 - n)
    else .done () : TProg Unit).bind fun _ => setIndexRest item (item.length - 1)).alone m = _
  rw [Prog.alone_bind, alone_moreSets hm,
    alone_setIndexRest (ts := extendTables ts (item.length - 1)) (setSets_setSets _ _ _).symm _ (length_extendTables _ _)]
  unfold TagSetIndex.index
  rw [if_neg h]
  unfold TagSetTable.index
  simp only [if_neg h]
  cases TagSetTable.find ((extendTables ts (item.length - 1)).getD (item.length - 1) []) (sortAsc item) with
  | some sub => simp only [set_getD_self]
  | none => simp only [setSets_setSets]

/-- The part of `collIndex` after the tables are there. -/
def collIndexRest (item : Coll) (col : Nat) : TProg (Out VariantID) :=
  .read .colls fun n =>
    if n ≤ col then .done .panic
    else .read (.collTable col) fun t => match VariantsTable.find t (sortAsc item) with
      | some sub => .done (.ok (mkVariantID (UInt16.ofNat (col + 1)) sub))
      | none => .read (.collTable col) fun t1 => .read (.collTable col) fun t2 =>
          .write (.collTable col) (t2 ++ [sortAsc item])
            (.done (.ok (mkVariantID (UInt16.ofNat (col + 1)) (UInt16.ofNat t1.length))))

/-- The column of a collection. -/
def collCol (item : Coll) : Nat := (UInt16.ofNat ((sortAsc item).length - 1)).toNat

theorem collIndex_eq {item : Coll} (h : item.length ≠ 0) : collIndex item = .read .colls fun n =>
      (if collCol item ≥ n then .read .colls fun n => extendColls (collCol item + 1 - n) else .done () : TProg Unit).bind
        fun _ => collIndexRest (sortAsc item) (collCol item) := by
  unfold collIndex
  rw [if_neg h]
  rfl

theorem alone_collIndexRest {m : Cells TLoc TVal} {ts : VariantsIndex} (hm : m = setColls m ts) (item : Coll) {col : Nat}
    (hc : col < ts.length) :
    (collIndexRest item col).alone m = match VariantsTable.find (ts.getD col []) (sortAsc item) with
      | some sub => (m, .ok (mkVariantID (UInt16.ofNat (col + 1)) sub))
      | none => (setColls m (ts.set col (ts.getD col [] ++ [sortAsc item])),
          .ok (mkVariantID (UInt16.ofNat (col + 1)) (UInt16.ofNat (ts.getD col []).length))) := by
  have h1 : m .colls = ts.length := by rw [hm]; rfl
  have h2 : m (.collTable col) = ts.getD col [] := by rw [hm]; rfl
  unfold collIndexRest
  show (if m .colls ≤ col then _ else _ : TProg (Out VariantID)).alone m = _
  rw [h1, if_neg (Nat.not_le.2 hc)]
  show (match VariantsTable.find (m (.collTable col)) (sortAsc item) with
      | some sub => .done (.ok (mkVariantID (UInt16.ofNat (col + 1)) sub))
      | none => .read (.collTable col) fun t1 => .read (.collTable col) fun t2 =>
          .write (.collTable col) (t2 ++ [sortAsc item])
            (.done (.ok (mkVariantID (UInt16.ofNat (col + 1)) (UInt16.ofNat t1.length)))) : TProg (Out VariantID)).alone m = _
  rw [h2]
  cases VariantsTable.find (ts.getD col []) (sortAsc item) with
  | some sub => rfl
  | none =>
    show (m.set (.collTable col) ((m (.collTable col) : VariantsTable) ++ [sortAsc item]),
      Out.ok (mkVariantID (UInt16.ofNat (col + 1)) (UInt16.ofNat (m (.collTable col) : VariantsTable).length))) = _
    rw [h2, set_collTable hm hc]

theorem alone_collIndex {m : Cells TLoc TVal} {ts : VariantsIndex} (hm : m = setColls m ts) (item : Coll) :
    (collIndex item).alone m = (setColls m (ts.index item).1, .ok (ts.index item).2) := by
  by_cases h : item.length = 0
  · unfold collIndex VariantsIndex.index
    rw [if_pos h, if_pos h, ← hm]
    rfl
  rw [collIndex_eq h]
  show ((if collCol item ≥ m .colls then .read .colls fun n => extendColls (collCol item + 1 - n)
    else .done () : TProg Unit).bind fun _ => collIndexRest (sortAsc item) (collCol item)).alone m = _
  rw [Prog.alone_bind, alone_moreColls hm,
    alone_collIndexRest (ts := extendTables ts (collCol item)) (setColls_setColls _ _ _).symm _ (length_extendTables _ _)]
  unfold VariantsIndex.index
  rw [if_neg h]
  unfold VariantsTable.index
  have h' : (sortAsc item).length ≠ 0 := by rw [length_sortAsc]; exact h
  simp only [if_neg h']
  show _ = (setColls m ((extendTables ts (collCol item)).set (collCol item)
    (match VariantsTable.find ((extendTables ts (collCol item)).getD (collCol item) []) (sortAsc (sortAsc item)) with
      | some id => ((extendTables ts (collCol item)).getD (collCol item) [], id)
      | none => ((extendTables ts (collCol item)).getD (collCol item) [] ++ [sortAsc (sortAsc item)],
          UInt16.ofNat ((extendTables ts (collCol item)).getD (collCol item) []).length)).1), Out.ok
      (mkVariantID (UInt16.ofNat (collCol item + 1))
    (match VariantsTable.find ((extendTables ts (collCol item)).getD (collCol item) []) (sortAsc (sortAsc item)) with
      | some id => ((extendTables ts (collCol item)).getD (collCol item) [], id)
      | none => ((extendTables ts (collCol item)).getD (collCol item) [] ++ [sortAsc (sortAsc item)],
          UInt16.ofNat ((extendTables ts (collCol item)).getD (collCol item) []).length)).2))
  cases VariantsTable.find ((extendTables ts (collCol item)).getD (collCol item) []) (sortAsc (sortAsc item)) with
  | some sub => simp only [set_getD_self]
  | none => simp only [setColls_setColls]

theorem set_variants (ix : Index) {id : ID} {item : Item} (hi : ix.items.get id = some item) (v : VariantID) :
    (memOf ix).set (.variants id) v = memOf { ix with items := Index.setVariants ix.items id v } := by
  funext l
  cases l with
  | variants a =>
    show _ = ((Items.get _ a).map (·.variants)).getD 0
    unfold Items.get at hi ⊢
    unfold Index.setVariants
    simp only
    split at hi
    · cases hi
    rename_i h0
    split at hi
    · cases hi
    rename_i hn
    by_cases h : id = a
    · subst h
      rw [Cells.set_same, if_neg h0, if_neg hn, List.getElem?_modify, hi]
      simp
    · rw [Cells.set_other _ _ (by simpa using h)]
      show ((Items.get _ a).map (·.variants)).getD 0 = _
      unfold Items.get
      split
      · rfl
      split
      · rfl
      rw [List.getElem?_modify]
      simp only [if_neg fun e => h (UInt32.toNat_inj.1 e)]
      cases ix.items.items[a.toNat]? <;> rfl
  | _ => rw [Cells.set_other _ _ (by simp)]; rfl

theorem alone_addTagSet (ix : Index) (id : ID) (names : List Str) :
    (addTagSet ix.items id names).alone (memOf ix) = (memOf (ix.addTagSet id names).1, (ix.addTagSet id names).2) := by
  unfold addTagSet Index.addTagSet
  rw [Prog.alone_bind, alone_findAll]
  cases hf : Index.findAll (memOf ix .tags) names with
  | error n =>
    have hf' : Index.findAll ix.tags names = .error n := hf
    simp only [hf']
    rfl
  | ok set =>
    have hf' : Index.findAll ix.tags names = .ok set := hf
    simp only [hf']
    cases hi : ix.items.get id with
    | none => rfl
    | some item =>
      rw [if_neg (by simp)]
      have hv : memOf ix (.variants id) = item.variants := by
        show ((ix.items.get id).map (·.variants)).getD 0 = _
        rw [hi]; rfl
      simp only
      show ((collGet (memOf ix (.variants id))).bind _).alone (memOf ix) = _
      rw [hv, Prog.alone_bind, alone_collGet (setColls_self ix).symm]
      cases hg : ix.collectionIdx.get item.variants with
      | ok c =>
        simp only
        rw [Prog.alone_bind, alone_setIndex (setSets_self ix).symm]
        generalize ix.tagSets.index set = si
        obtain ⟨ts, tsID⟩ := si
        simp only
        have hv' : setSets (memOf ix) ts (.variants id) = item.variants := hv
        show (Prog.bind _ _).alone (setSets (memOf ix) ts) = _
        rw [hv', Prog.alone_bind]
        have hcnt : (if item.variants = 0 then .read .count fun n => .write .count (n + 1) (.done ()) else .done () : TProg Unit).alone
            (setSets (memOf ix) ts) = (memOf { ix with
              tagSets := ts, wordsCount := if item.variants = 0 then ix.wordsCount + 1 else ix.wordsCount }, ()) := by
          split
          · refine Prod.ext ?_ rfl
            funext l
            cases l <;> rfl
          · refine Prod.ext ?_ rfl
            funext l
            cases l <;> rfl
        rw [hcnt, Prog.alone_bind]
        generalize (if item.variants = 0 then ix.wordsCount + 1 else ix.wordsCount) = wc
        rw [alone_collIndex (ts := ix.collectionIdx) (by funext l; cases l <;> rfl)]
        generalize ix.collectionIdx.index (Coll.add c tsID) = cv
        obtain ⟨ci, vID⟩ := cv
        simp only
        have e : setColls (memOf { ix with tagSets := ts, wordsCount := wc }) ci =
            memOf { ix with tagSets := ts, collectionIdx := ci, wordsCount := wc } := by funext l; cases l <;> rfl
        show (Cells.set (Val := TVal) _ (TLoc.variants id) vID, _) = _
        rw [e, set_variants { ix with tagSets := ts, collectionIdx := ci, wordsCount := wc } hi]
      | err e => rfl
      | panic => rfl
      | diverge => rfl

theorem alone_setGet (ix : Index) (id : TagSetID) : (setGet id).alone (memOf ix) = (memOf ix, ix.tagSets.get id) := by
  unfold setGet TagSetIndex.get TagSetIndex.getTagSet TagSetIndex.getTable
  show (if (tagSetTableNumber id).toNat ≥ ix.tagSets.length then _ else _ : TProg (Option TagSet)).alone (memOf ix) = _
  split
  · rfl
  · rename_i h
    rw [List.getElem?_eq_getElem (by omega)]
    show (memOf ix, TagSetTable.get (ix.tagSets.getD _ []) _) = _
    rw [List.getD_eq_getElem?_getD, List.getElem?_eq_getElem (by omega)]
    rfl

theorem alone_tagsOf (ids : TagSet) (m : Cells TLoc TVal) :
    (tagsOf ids).alone m = (m, ids.map fun t => (tagsGet (m .tags) t).getD Index.zeroTag) := by
  induction ids with
  | nil => rfl
  | cons t rest ih =>
    show ((tagsOf rest).bind fun r => .done ((tagsGet (m .tags) t).getD Index.zeroTag :: r)).alone m = _
    rw [Prog.alone_bind, ih]
    rfl

theorem alone_readingsOf (ix : Index) (c : Coll) : (readingsOf c).alone (memOf ix) = (memOf ix, ix.tagSetsLoop c) := by
  induction c with
  | nil => rfl
  | cons id rest ih =>
    unfold readingsOf Index.tagSetsLoop
    rw [Prog.alone_bind, alone_setGet]
    cases ix.tagSets.get id with
    | none => rfl
    | some ids =>
      simp only
      rw [Prog.alone_bind, alone_tagsOf, Prog.alone_bind, ih]
      rfl

theorem alone_tagSets (ix : Index) (id : ID) : (tagSets ix.items id).alone (memOf ix) = (memOf ix, ix.tagSetsOf id) := by
  unfold tagSets Index.tagSetsOf
  cases hi : ix.items.get id with
  | none => rfl
  | some item =>
    rw [if_neg (by simp)]
    have hv : memOf ix (.variants id) = item.variants := by
      show ((ix.items.get id).map (·.variants)).getD 0 = _
      rw [hi]; rfl
    show ((collGet (memOf ix (.variants id))).bind _).alone (memOf ix) = _
    rw [hv, Prog.alone_bind, alone_collGet (setColls_self ix).symm]
    cases hg : ix.collectionIdx.get item.variants with
    | ok c =>
      simp only
      rw [Prog.alone_bind, alone_readingsOf, hg]
      rfl
    | err e =>
      exfalso
      unfold VariantsIndex.get VariantsTable.get at hg
      repeat' split at hg
      all_goals cases hg
    | panic => simp only; rw [hg]; rfl
    | diverge =>
      exfalso
      unfold VariantsIndex.get VariantsTable.get at hg
      repeat' split at hg
      all_goals cases hg

theorem alone_childrenIDMap (ix : Index) (p : ID) :
    (childrenIDMap p).alone (memOf ix) = (memOf (ix.getChildrenIDMap p).1, (ix.getChildrenIDMap p).2) := by
  unfold childrenIDMap
  show (Prog.bind _ _).alone (memOf ix) = _
  rw [Prog.alone_bind]
  have e : (if memOf ix .outer p = true then .done ()
      else .read .outer fun o => .write .outer (fun a => if a = p then true else o a) (.done ()) : TProg Unit).alone (memOf ix) =
      (memOf (ix.getChildrenIDMap p).1, ()) := by
    unfold Index.getChildrenIDMap Index.ensureChildren
    cases hp : ix.childrenMap p with
    | some im =>
      rw [if_pos (show memOf ix .outer p = true from show (ix.childrenMap p).isSome = true by rw [hp]; rfl)]
      rfl
    | none =>
      rw [if_neg (show ¬ memOf ix .outer p = true from show ¬ (ix.childrenMap p).isSome = true by rw [hp]; decide)]
      refine Prod.ext ?_ rfl
      funext l
      cases l with
      | outer =>
        show (fun a => if a = p then true else (ix.childrenMap a).isSome) = fun a => Option.isSome _
        funext a
        simp only
        by_cases h : a = p <;> simp [h]
      | kids a =>
        show ix.getChildrenMap a = _
        show (ix.childrenMap a).getD _ = Option.getD (if a = p then _ else _) _
        by_cases h : a = p
        · rw [if_pos h, h, hp]; rfl
        · rw [if_neg h]
      | _ => rfl
  rw [e]
  rfl

theorem word_map (ix : Index) (f : ID → Option IdMap) (p : ID) : Index.word { ix with childrenMap := f } p = ix.word p := rfl

theorem fetch_map (ix : Index) (f : ID → Option IdMap) (rs : List Rune) : ∀ p,
    fetch { ix with childrenMap := f } p rs = fetch ix p rs := by
  induction rs with
  | nil => intro p; rfl
  | cons r rest ih =>
    intro p
    unfold fetch
    congr 1
    funext m
    split
    · rfl
    · split
      · rfl
      · exact ih _

theorem alone_fetch (rs : List Rune) : ∀ (ix : Index) (p : ID),
    (fetch ix p rs).alone (memOf ix) = (memOf (ix.fetchFromItem p rs).1, (ix.fetchFromItem p rs).2) := by
  induction rs with
  | nil => intro ix p; rfl
  | cons r rest ih =>
    intro ix p
    unfold fetch Index.fetchFromItem
    rw [Prog.alone_bind, alone_childrenIDMap]
    have hw : ∀ q, (ix.getChildrenIDMap p).1.word q = ix.word q := fun q => rfl
    have hg : ∀ q, (ix.getChildrenIDMap p).1.get q = ix.get q := fun q => rfl
    have hf : ∀ q, fetch (ix.getChildrenIDMap p).1 q rest = fetch ix q rest := fun q => fetch_map ix _ rest q
    generalize ix.getChildrenIDMap p = g at hw hg hf ⊢
    obtain ⟨ix', cm⟩ := g
    simp only at hw hg hf ⊢
    cases cm r with
    | none => simp only; rw [hw]; rfl
    | some next =>
      simp only
      split
      · rw [hg]; rfl
      · rw [← hf]
        exact ih ix' next

/-- A call as a program, run alone, is the call of the sequential model. -/
theorem alone_call (ix : Index) (c : TCall) : (call ix c).alone (memOf ix) = (memOf (ix.does c).1, (ix.does c).2) := by
  cases c with
  | tagID name parent => unfold call; simp only; rw [Prog.alone_bind, alone_tagID]; rfl
  | addTagSet id names => unfold call; simp only; rw [Prog.alone_bind, alone_addTagSet]; rfl
  | tagSets id => unfold call; simp only; rw [Prog.alone_bind, alone_tagSets]; rfl
  | wordsCount => rfl
  | fetchRunes rs => unfold call; simp only; rw [Prog.alone_bind, alone_fetch]; rfl
  | childrenMap id => rfl

end TProg

end Verif
