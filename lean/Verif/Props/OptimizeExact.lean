import Verif.Props.OptimizeLog
import Verif.Lemmas.Canonical

/-!
# C76 — exactly which files make `Optimize` panic
-/

namespace Verif

theorem gIndex_fst_col (c : VariantsIndex) (x : Coll) (j : Nat) :
    ((gIndex c x).1.getD j []).length ≤ (c.getD j []).length + 1 := by
  rw [gIndex_getD]
  split
  · exact gTable_length_le _ _
  · omega

/-- The second table is built without a panic, whatever the first one holds. -/
theorem optimizeBuild_any {old : VariantsIndex} (hl : old.length ≤ 65535)
    (ht : ∀ t ∈ old, t.length ≤ 65536) (hc : ∀ t ∈ old, ∀ c ∈ t, c.length ≤ 65535)
    (used : VariantID → Option (List ID)) (l : List VariantID)
    (hk : ∀ id ∈ l, ∃ q c, id = packV q ∧ gGet old q = some c)
    (new : VariantsIndex) (acc : List (VariantID × VariantID))
    (hn : ∀ j, (new.getD j []).length + l.length ≤ 65536) :
    ∃ new' acc', Index.optimizeBuild old used l new acc = .ok (new', acc') ∧
      acc'.map (·.1) = acc.map (·.1) ++ l.filter fun id => (used id).isSome := by
  induction l generalizing new acc with
  | nil => exact ⟨new, acc, rfl, by simp⟩
  | cons id rest ih =>
    have hn0 : ∀ j, (new.getD j []).length + rest.length + 1 ≤ 65536 := fun j => by
      have := hn j
      rw [List.length_cons] at this
      omega
    unfold Index.optimizeBuild
    cases hu : used id with
    | none =>
      simp only
      obtain ⟨new', acc', h1, h3⟩ := ih (fun x hx => hk x (by simp [hx])) new acc
        (fun j => by have := hn0 j; omega)
      exact ⟨new', acc', h1, by rw [h3]; simp [hu]⟩
    | some ids =>
      simp only
      obtain ⟨q, c, rfl, hq⟩ := hk id (by simp)
      have hqb := gGet_bounds hl ht hq
      have hcl : c.length ≤ 65535 := by
        have hcol := gGet_col_lt hq
        exact hc _ (List.mem_of_getElem? (getD_of_lt _ hcol)) c (gGet_mem hq)
      rw [VariantsIndex.get_packV old hqb.1 hqb.2 hq]
      simp only [Out.bind_ok]
      by_cases hne : c = []
      · subst hne
        have e : new.index [] = (new, 0) := rfl
        rw [e]
        simp only
        have e2 : new.get 0 = .ok [] := rfl
        rw [e2]
        simp only [Out.bind_ok]
        rw [if_pos (by rfl)]
        obtain ⟨new', acc', h1, h3⟩ := ih (fun x hx => hk x (by simp [hx])) new (acc ++ [(packV q, 0)])
          (fun j => by have := hn0 j; omega)
        exact ⟨new', acc', h1, by rw [h3]; simp [hu]⟩
      · rw [VariantsIndex.index_eq new hne (by omega)]
        simp only
        have hself := gGet_gIndex_self new c
        have hb1 : (gIndex new c).2.1 < 65535 := by
          show c.length - 1 < 65535
          omega
        have hb2 : (gIndex new c).2.2 < 65536 := by
          have h1 := gGet_lt hself
          have h2 := gIndex_fst_col new c (gIndex new c).2.1
          have h3 := hn0 (gIndex new c).2.1
          omega
        rw [VariantsIndex.get_packV _ hb1 hb2 hself]
        simp only [Out.bind_ok]
        rw [if_pos (equalTo_self _)]
        obtain ⟨new', acc', h1, h3⟩ := ih (fun x hx => hk x (by simp [hx])) (gIndex new c).1
          (acc ++ [(packV q, packV (gIndex new c).2)])
          (fun j => by
            have h1 := gIndex_fst_col new c j
            have h2 := hn0 j
            omega)
        exact ⟨new', acc', h1, by rw [h3]; simp [hu]⟩

theorem replaceInLog_false (coll : VariantsIndex) (v : VariantID) (ids : List ID) :
    ∀ items : List Item, (Index.replaceInLog false coll v ids items).1.length = items.length ∧
      ((Index.replaceInLog false coll v ids items).2 = true ↔ ∀ id ∈ ids, id.toNat < items.length) := by
  induction ids with
  | nil => exact fun items => ⟨rfl, by simp [Index.replaceInLog]⟩
  | cons id rest ih =>
    intro items
    unfold Index.replaceInLog
    cases h : items[id.toNat]? with
    | none =>
      rw [List.getElem?_eq_none_iff] at h
      refine ⟨rfl, ?_⟩
      simp only [Bool.false_eq_true, false_iff]
      intro hx
      have := hx id (by simp)
      omega
    | some it =>
      have hlt := (List.getElem?_eq_some_iff.1 h).1
      simp only [Bool.false_eq_true, false_and, if_false]
      obtain ⟨h1, h2⟩ := ih (items.modify id.toNat fun it => { it with variants := v })
      rw [List.length_modify] at h1 h2
      refine ⟨h1, ?_⟩
      rw [h2]
      simp [hlt]

theorem replaceAllLog_false (coll : VariantsIndex) (used : VariantID → Option (List ID))
    (repl : List (VariantID × VariantID)) (hu : ∀ a ∈ repl.map (·.1), (used a).isSome = true) :
    ∀ items : List Item, (Index.replaceAllLog false coll used repl items).2 = true ↔
      ∀ a ∈ repl.map (·.1), ∀ ids, used a = some ids → ∀ id ∈ ids, id.toNat < items.length := by
  induction repl with
  | nil => exact fun items => by simp [Index.replaceAllLog]
  | cons p rest ih =>
    obtain ⟨a, b⟩ := p
    intro items
    obtain ⟨ids, hids⟩ := Option.isSome_iff_exists.1 (hu a (by simp))
    unfold Index.replaceAllLog
    rw [hids]
    simp only
    obtain ⟨h1, h2⟩ := replaceInLog_false coll b ids items
    cases hr : Index.replaceInLog false coll b ids items with
    | mk items' ok =>
      rw [hr] at h1 h2
      simp only at h1 h2
      cases ok with
      | true =>
        simp only
        rw [ih (fun x hx => hu x (by simp [hx])), h1]
        have h2' := h2.1 rfl
        constructor
        · intro h x hx ids' hids' id hid
          rw [List.map_cons, List.mem_cons] at hx
          rcases hx with rfl | hx
          · rw [hids] at hids'
            obtain rfl := Option.some.inj hids'
            exact h2' id hid
          · exact h x hx ids' hids' id hid
        · intro h x hx
          exact h x (by rw [List.map_cons]; exact List.mem_cons_of_mem _ hx)
      | false =>
        simp only [Bool.false_eq_true, false_iff]
        intro h
        have := h2.2 (fun id hid => h a (by simp) ids hids id hid)
        cases this

theorem length_le_sum {l : VariantsIndex} {t : List Coll} (h : t ∈ l) : t.length ≤ (l.map List.length).sum := by
  induction l with
  | nil => cases h
  | cons x l ih =>
    rw [List.map_cons, List.sum_cons]
    rcases List.mem_cons.1 h with rfl | h
    · omega
    · have := ih h
      omega

theorem knownID_length (l : VariantsIndex) : l.knownID.length ≤ (l.map List.length).sum := by
  unfold VariantsIndex.knownID
  generalize 0 = k
  induction l generalizing k with
  | nil => simp
  | cons t l ih =>
    rw [List.zipIdx_cons, List.map_cons, List.flatten_cons, List.length_append, List.map_cons, List.sum_cons]
    have h1 := ih (k + 1)
    have h2 : (((List.range t.length).map fun j =>
      mkVariantID (tableNumberAdd (UInt16.ofNat k) 1) (UInt16.ofNat j)).filter (· ≠ 0)).length ≤ t.length := by
      refine (List.length_filter_le _ _).trans ?_
      rw [List.length_map, List.length_range]
    exact Nat.add_le_add h2 h1

/-- The number of collections an index holds. -/
def Index.collections (ix : Index) : Nat := (ix.collectionIdx.map List.length).sum

/-- C76, exactly: an index loaded from any file — damaged or forged as it may be — that holds at most 65536 collections
makes `Optimize` panic in one case only, and then it does: some collection is used by no node, and some node that uses
a collection carries an identifier beyond the nodes there are. In all other cases it succeeds. -/
theorem C76_exact {into ix : Index} {file rest : Str} (h : into.load file = .ok (ix, rest))
    (hn : ix.collections ≤ 65536) :
    ((ix.optimizeLog false).2 = .ok () ∨ (ix.optimizeLog false).2 = .panic) ∧
    ((ix.optimizeLog false).2 = .panic ↔
      (∃ v ∈ ix.collectionIdx.knownID, ∀ it ∈ ix.items.items, it.variants ≠ v) ∧
      ∃ it ∈ ix.items.items, it.variants ∈ ix.collectionIdx.knownID ∧ ix.items.items.length ≤ it.id.toNat) := by
  have hlim := load_limits h
  have hl : ix.collectionIdx.length ≤ 65535 := by have := hlim.collTables; omega
  have ht : ∀ t ∈ ix.collectionIdx, t.length ≤ 65536 := fun t ht => (length_le_sum ht).trans hn
  have hc : ∀ t ∈ ix.collectionIdx, ∀ c ∈ t, c.length ≤ 65535 := fun t ht c hc => by
    have := hlim.collLen t ht c hc
    omega
  have hknown : ∀ id ∈ ix.collectionIdx.knownID, ∃ q c, id = packV q ∧ gGet ix.collectionIdx q = some c := by
    intro id hid
    obtain ⟨q, ⟨c, hq⟩, rfl⟩ := (mem_knownID hl).1 hid
    exact ⟨q, c, rfl, hq⟩
  have hz : ∀ id ∈ ix.collectionIdx.knownID, id ≠ 0 := by
    intro id hid
    obtain ⟨q, c, rfl, hq⟩ := hknown id hid
    exact packV_ne_zero (gGet_bounds hl ht hq).1
  have hnone : ∀ id ∈ ix.collectionIdx.knownID,
      ((Index.usedCollections ix.items.items id).isNone = true ↔ ∀ it ∈ ix.items.items, it.variants ≠ id) := by
    intro id hid
    rw [← Option.not_isSome, Bool.not_eq_true', ← Bool.not_eq_true, used_isSome]
    have := hz id hid
    constructor
    · intro hx it hit he
      exact hx ⟨this, it, hit, he⟩
    · rintro hx ⟨-, it, hit, he⟩
      exact hx it hit he
  obtain ⟨new, acc, hb, hfst⟩ := optimizeBuild_any hl ht hc (Index.usedCollections ix.items.items)
    ix.collectionIdx.knownID hknown [] [] (fun j => by
      have := knownID_length ix.collectionIdx
      simp only [List.getD_nil, List.length_nil]
      unfold Index.collections at hn
      omega)
  simp only [List.map_nil, List.nil_append] at hfst
  have hrep := replaceAllLog_false ix.collectionIdx (Index.usedCollections ix.items.items) acc
    (fun a ha => by rw [hfst] at ha; exact (List.mem_filter.1 ha).2) ix.items.items
  have hall : (∀ a ∈ acc.map (·.1), ∀ ids, Index.usedCollections ix.items.items a = some ids →
        ∀ id ∈ ids, id.toNat < ix.items.items.length) ↔
      ¬ ∃ it ∈ ix.items.items, it.variants ∈ ix.collectionIdx.knownID ∧ ix.items.items.length ≤ it.id.toNat := by
    rw [hfst]
    constructor
    · rintro hx ⟨it, hit, hv, hge⟩
      have hs : (Index.usedCollections ix.items.items it.variants).isSome = true :=
        used_isSome.2 ⟨hz _ hv, it, hit, rfl⟩
      obtain ⟨ids, hids⟩ := Option.isSome_iff_exists.1 hs
      have := hx it.variants (List.mem_filter.2 ⟨hv, hs⟩) ids hids it.id ((used_mem hids _).2 ⟨it, hit, rfl, rfl⟩)
      omega
    · intro hx a ha ids hids id hid
      obtain ⟨it, hit, rfl, rfl⟩ := (used_mem hids id).1 hid
      by_contra hcon
      exact hx ⟨it, hit, (List.mem_filter.1 ha).1, by omega⟩
  rw [hall] at hrep
  unfold Index.optimizeLog
  simp only
  split
  · rename_i h0
    refine ⟨.inl rfl, ?_⟩
    rw [List.length_eq_zero_iff, List.filter_eq_nil_iff] at h0
    simp only [reduceCtorEq, false_iff]
    rintro ⟨⟨v, hv, hun⟩, -⟩
    exact h0 v hv ((hnone v hv).2 hun)
  · rename_i h0
    have hun : ∃ v ∈ ix.collectionIdx.knownID, ∀ it ∈ ix.items.items, it.variants ≠ v := by
      by_contra hcon
      apply h0
      rw [List.length_eq_zero_iff, List.filter_eq_nil_iff]
      intro v hv hx
      exact hcon ⟨v, hv, (hnone v hv).1 hx⟩
    rw [hb]
    simp only
    cases hr : Index.replaceAllLog false ix.collectionIdx (Index.usedCollections ix.items.items) acc ix.items.items with
    | mk items ok =>
      rw [hr] at hrep
      cases ok with
      | true =>
        refine ⟨.inl rfl, ?_⟩
        simp only [reduceCtorEq, false_iff]
        rintro ⟨-, hx⟩
        exact hrep.1 rfl hx
      | false =>
        refine ⟨.inr rfl, ?_⟩
        simp only [true_iff]
        refine ⟨hun, ?_⟩
        by_contra hcon
        cases hrep.2 hcon

/-- With the debug messages printed as well, `Optimize` succeeds — and does the same — on every loaded index of at most
65536 collections in which the nodes with readings carry their own places as identifiers. -/
theorem C76_numbered {into ix : Index} {file rest : Str} (h : into.load file = .ok (ix, rest))
    (hn : ix.collections ≤ 65536)
    (hid : ∀ (k : Nat) (it : Item), ix.items.items[k]? = some it → it.variants ≠ 0 → it.id.toNat = k) (debug : Bool) :
    (ix.optimizeLog debug).2 = .ok () ∧ ix.optimizeLog debug = ix.optimize := by
  have hlim := load_limits h
  have hl : ix.collectionIdx.length ≤ 65535 := by have := hlim.collTables; omega
  have ht : ∀ t ∈ ix.collectionIdx, t.length ≤ 65536 := fun t ht => (length_le_sum ht).trans hn
  have hc : ∀ t ∈ ix.collectionIdx, ∀ c ∈ t, c.length ≤ 65535 := fun t ht c hc => by
    have := hlim.collLen t ht c hc
    omega
  have hknown : ∀ id ∈ ix.collectionIdx.knownID, ∃ q c, id = packV q ∧ gGet ix.collectionIdx q = some c := by
    intro id hid
    obtain ⟨q, ⟨c, hq⟩, rfl⟩ := (mem_knownID hl).1 hid
    exact ⟨q, c, rfl, hq⟩
  obtain ⟨new, acc, hb, hfst⟩ := optimizeBuild_any hl ht hc (Index.usedCollections ix.items.items)
    ix.collectionIdx.knownID hknown [] [] (fun j => by
      have := knownID_length ix.collectionIdx
      simp only [List.getD_nil, List.length_nil]
      unfold Index.collections at hn
      omega)
  simp only [List.map_nil, List.nil_append] at hfst
  have hcols : ∀ i, (ix.collectionIdx.getD i []).length ≤ 65536 := by
    intro i
    by_cases hi : i < ix.collectionIdx.length
    · exact ht _ (List.mem_of_getElem? (getD_of_lt _ hi))
    · have hn : ix.collectionIdx[i]? = none := List.getElem?_eq_none (by omega)
      rw [List.getD_eq_getElem?_getD, hn]; simp
  have hnd : ∀ v ids, Index.usedCollections ix.items.items v = some ids → ids.Nodup := by
    intro v ids hu
    have hv : v ≠ 0 := (used_isSome.1 (by rw [hu]; rfl)).1
    rw [usedCollections_eq] at hu
    split at hu
    · cases hu
    · obtain rfl := Option.some.inj hu
      have hp : ix.items.items.Pairwise fun a b => a.variants = v → b.variants = v → a.id ≠ b.id := by
        rw [List.pairwise_iff_getElem]
        intro i j hi hj hij ha hb he
        have h1 := hid i _ (List.getElem?_eq_getElem hi) (by rw [ha]; exact hv)
        have h2 := hid j _ (List.getElem?_eq_getElem hj) (by rw [hb]; exact hv)
        rw [he, h2] at h1
        omega
      rw [List.Nodup, List.pairwise_map]
      refine List.Pairwise.imp_of_mem ?_ (hp.filter _)
      intro a b ha hb hab
      exact hab (by simpa using (List.mem_filter.1 ha).2) (by simpa using (List.mem_filter.1 hb).2)
  obtain ⟨items', e1, e2⟩ := replaceAllLog_eq debug ix.collectionIdx (Index.usedCollections ix.items.items)
    hnd acc
    (by rw [hfst]; exact (nodup_knownID hl hcols).filter _)
    (fun a ha => by rw [hfst] at ha; exact (List.mem_filter.1 ha).2)
    (fun a ha => by
      rw [hfst] at ha
      obtain ⟨q, c, rfl, hq⟩ := hknown a (List.mem_filter.1 ha).1
      have hqb := gGet_bounds hl ht hq
      rw [VariantsIndex.get_packV _ hqb.1 hqb.2 hq]
      exact fun hx => nomatch hx)
    ix.items.items (fun a ha ids hu id hi => by
      obtain ⟨it, hm, rfl, rfl⟩ := (used_mem hu _).1 hi
      obtain ⟨j, hj⟩ := List.getElem?_of_mem hm
      rw [hid j it hj (used_isSome.1 (by rw [hu]; rfl)).1]
      exact ⟨it, hj, rfl⟩)
  unfold Index.optimizeLog Index.optimize
  simp only
  split
  · exact ⟨rfl, rfl⟩
  · rw [hb]
    simp only
    rw [e1, e2]
    exact ⟨rfl, rfl⟩

/-- Both sides of `C76_exact` occur for files that load. -/
example : (Index.loaded Index.new strayNumber).collections ≤ 65536 ∧
    ((Index.loaded Index.new strayNumber).optimizeLog false).2 = .panic ∧
    (Index.loaded Index.new twiceTheNumber).collections ≤ 65536 ∧
    ((Index.loaded Index.new twiceTheNumber).optimizeLog false).2 = .ok () := by decide

end Verif
