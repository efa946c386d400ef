import Verif.Lemmas.Heap
import Verif.Lemmas.Refine
import Verif.Model.HeapIndex

/-!
# The index with references does what the index with values does
-/

namespace Verif

section generic

variable {α : Type}

/-- The values of all tables. -/
def vals (h : Heap α) (ts : List (List Slice)) : List (List (List α)) := ts.map (List.map h.read)

/-- All slices of the tables lie within their arrays. -/
def AllValid (h : Heap α) (ts : List (List Slice)) : Prop := ∀ t ∈ ts, ∀ s ∈ t, h.Valid s

/-- All valid slices stay valid and read the same. -/
def Ext (h h' : Heap α) : Prop := ∀ s, h.Valid s → h'.Valid s ∧ h'.read s = h.read s

theorem Ext.refl (h : Heap α) : Ext h h := fun _ v => ⟨v, rfl⟩

theorem Ext.trans {a b c : Heap α} (x : Ext a b) (y : Ext b c) : Ext a c :=
  fun s v => ⟨(y s (x s v).1).1, ((y s (x s v).1).2).trans (x s v).2⟩

theorem Ext.make (h : Heap α) (xs : List α) : Ext h (h.makeWith xs).1 :=
  fun _ v => ⟨Heap.valid_make v xs, Heap.read_make v xs⟩

theorem AllValid.ext {h h' : Heap α} {ts : List (List Slice)} (a : AllValid h ts) (e : Ext h h') :
    AllValid h' ts := fun t ht s hs => (e s (a t ht s hs)).1

theorem vals_ext {h h' : Heap α} {ts : List (List Slice)} (a : AllValid h ts) (e : Ext h h') :
    vals h' ts = vals h ts :=
  List.map_congr_left fun t ht => List.map_congr_left fun s hs => (e s (a t ht s hs)).2

theorem map_extendTables {β γ : Type} (f : β → γ) (ts : List (List β)) (c : Nat) :
    (extendTables ts c).map (List.map f) = extendTables (ts.map (List.map f)) c := by
  unfold extendTables
  rw [List.length_map]
  split
  · simp
  · rfl

theorem vals_extendTables (h : Heap α) (ts : List (List Slice)) (c : Nat) :
    vals h (extendTables ts c) = extendTables (vals h ts) c := map_extendTables _ _ _

theorem vals_getD (h : Heap α) (ts : List (List Slice)) (i : Nat) :
    (vals h ts).getD i [] = (ts.getD i []).map h.read := by
  unfold vals
  simp only [List.getD_eq_getElem?_getD, List.getElem?_map]
  cases ts[i]? <;> rfl

theorem vals_set (h : Heap α) (ts : List (List Slice)) (i : Nat) (t : List Slice) :
    vals h (ts.set i t) = (vals h ts).set i (t.map h.read) := by
  unfold vals; rw [List.map_set]

theorem AllValid.extendTables {h : Heap α} {ts : List (List Slice)} (a : AllValid h ts) (c : Nat) :
    AllValid h (extendTables ts c) := by
  unfold Verif.extendTables
  split
  · intro t ht s hs
    rcases List.mem_append.1 ht with ht | ht
    · exact a t ht s hs
    · rw [(List.mem_replicate.1 ht).2] at hs; cases hs
  · exact a

theorem AllValid.set {h : Heap α} {ts : List (List Slice)} (a : AllValid h ts) (i : Nat) {t : List Slice}
    (ht : ∀ s ∈ t, h.Valid s) : AllValid h (ts.set i t) := by
  intro u hu
  rcases List.mem_or_eq_of_mem_set hu with hu | rfl
  · exact a u hu
  · exact ht

theorem AllValid.getD {h : Heap α} {ts : List (List Slice)} (a : AllValid h ts) (i : Nat) :
    ∀ s ∈ ts.getD i [], h.Valid s := by
  intro s hs
  rw [List.getD_eq_getElem?_getD] at hs
  cases e : ts[i]? with
  | none => rw [e] at hs; cases hs
  | some t => rw [e] at hs; exact a t (List.mem_of_getElem? e) s hs

theorem Heap.length_read {h : Heap α} {s : Slice} (v : h.Valid s) : (h.read s).length = s.len := by
  unfold Heap.read
  rw [List.length_take]
  have := v.2
  omega

theorem Heap.write_read {h : Heap α} {s : Slice} (v : h.Valid s) : h.write s (h.read s) = h := by
  unfold Heap.write Heap.read
  rw [List.take_append_drop]
  apply List.ext_getElem?
  intro i
  rw [List.getElem?_set]
  split
  · rename_i e
    subst e
    rw [List.getD_eq_getElem?_getD, List.getElem?_eq_getElem v.1]
    simp [v.1]
  · rfl

variable [DecidableEq α] [LE α] [DecidableRel (α := α) (· ≤ ·)]

theorem hTableIndex_spec (h : Heap α) (t : List Slice) (item : Slice) (x : List α)
    (hr : (h.sort item).read item = sortAsc x) :
    (hTableIndex h t item).1 = h.sort item ∧
    ((hTableIndex h t item).2.1.map (h.sort item).read, (hTableIndex h t item).2.2) =
      gTable (t.map (h.sort item).read) x ∧
    ∀ s ∈ (hTableIndex h t item).2.1, s ∈ t ∨ s = item := by
  unfold hTableIndex gTable findSet
  simp only
  rw [List.findIdx?_map, hr]
  have e : (fun existed => equalTo ((h.sort item).read existed) (sortAsc x)) =
      ((fun existed => equalTo existed (sortAsc x)) ∘ (h.sort item).read) := rfl
  rw [e]
  cases List.findIdx? ((fun existed => equalTo existed (sortAsc x)) ∘ (h.sort item).read) t with
  | some i => exact ⟨rfl, rfl, fun s hs => .inl hs⟩
  | none =>
    refine ⟨rfl, ?_, ?_⟩
    · simp [hr]
    · intro s hs
      rcases List.mem_append.1 hs with hs | hs
      · exact .inl hs
      · exact .inr (List.mem_singleton.1 hs)

omit [DecidableEq α] in
theorem sort_fresh (h : Heap α) (xs : List α) :
    Heap.sort (h.makeWith xs).1 (h.makeWith xs).2 = h ++ [sortAsc xs] := by
  unfold Heap.sort
  rw [Heap.read_make_new]
  unfold Heap.write Heap.makeWith
  simp only
  rw [Heap.getD_append_self, List.drop_length, List.append_nil]
  simp

end generic

theorem TagSetTable.index_gTable (t : TagSetTable) {x : TagSet} (hx : x.length ≠ 0) :
    TagSetTable.index t x = .ok ((gTable t x).1, UInt16.ofNat (gTable t x).2) := by
  unfold TagSetTable.index TagSetTable.find gTable
  rw [if_neg hx]
  simp only
  cases findSet t (sortAsc x) <;> rfl

theorem VariantsTable.index_gTable (t : VariantsTable) {x : Coll} (hx : x.length ≠ 0) :
    VariantsTable.index t x = ((gTable t x).1, UInt16.ofNat (gTable t x).2) := by
  unfold VariantsTable.index VariantsTable.find gTable
  rw [if_neg hx]
  simp only
  cases findSet t (sortAsc x) <;> rfl

/-- A slice made for the purpose is interned as its value is. -/
theorem hSetIndex_fresh (h : Heap UInt8) (ts : List (List Slice)) (xs : TagSet) (av : AllValid h ts) :
    let m := h.makeWith xs
    let r := hSetIndex m.1 ts m.2
    Ext h r.1 ∧ AllValid r.1 r.2.1 ∧ (vals r.1 r.2.1, r.2.2) = TagSetIndex.index (vals h ts) xs := by
  intro m r
  have hml : m.2.len = xs.length := rfl
  by_cases h0 : xs.length = 0
  · have er : r = (m.1, ts, 0) := by simp only [r, hSetIndex, hml, if_pos h0]
    rw [er]
    refine ⟨Ext.make h xs, av.ext (Ext.make h xs), ?_⟩
    unfold TagSetIndex.index
    rw [if_pos h0, vals_ext av (Ext.make h xs)]
  · have hs := sort_fresh h xs
    have ext : Ext h (h ++ [sortAsc xs]) := Ext.make h (sortAsc xs)
    have hv : Heap.Valid (h ++ [sortAsc xs]) m.2 := by
      have := Heap.valid_make_new h (sortAsc xs)
      unfold Heap.makeWith at this
      simp only at this
      rw [length_sortAsc] at this
      exact this
    have hread : Heap.read (h ++ [sortAsc xs]) m.2 = sortAsc xs := by
      have := Heap.read_make_new h (sortAsc xs)
      unfold Heap.makeWith at this
      simp only at this
      rw [length_sortAsc] at this
      exact this
    have sp := hTableIndex_spec m.1 ((extendTables ts (xs.length - 1)).getD (xs.length - 1) []) m.2 xs
      (by rw [show m.1.sort m.2 = _ from hs]; exact hread)
    rw [show m.1.sort m.2 = _ from hs] at sp
    have av' := (av.extendTables (xs.length - 1)).ext ext
    simp only [r, hSetIndex, hml, if_neg h0]
    generalize hTableIndex m.1 ((extendTables ts (xs.length - 1)).getD (xs.length - 1) []) m.2 = y at sp ⊢
    obtain ⟨h', t', i⟩ := y
    simp only at sp ⊢
    obtain ⟨rfl, e2, e3⟩ := sp
    refine ⟨ext, av'.set _ ?_, ?_⟩
    · intro s hs
      rcases e3 s hs with hs | rfl
      · exact av'.getD _ s hs
      · exact hv
    · unfold TagSetIndex.index
      rw [if_neg h0]
      simp only
      rw [TagSetTable.index_gTable _ h0, vals_set, vals_extendTables, vals_ext av ext]
      have e4 : (extendTables (vals h ts) (xs.length - 1)).getD (xs.length - 1) [] =
          ((extendTables ts (xs.length - 1)).getD (xs.length - 1) []).map (Heap.read (h ++ [sortAsc xs])) := by
        rw [← vals_getD, vals_extendTables, vals_ext av ext]
      rw [e4, ← e2]

/-- A sorted slice is interned as its value is, and no array changes. -/
theorem hCollIndex_sorted (h : Heap UInt32) (ts : List (List Slice)) (item : Slice) (av : AllValid h ts)
    (v : h.Valid item) (hs : (h.read item).Pairwise (· ≤ ·)) :
    let r := hCollIndex h ts item
    r.1 = h ∧ AllValid h r.2.1 ∧ (vals h r.2.1, r.2.2) = VariantsIndex.index (vals h ts) (h.read item) := by
  intro r
  have hl := Heap.length_read v
  have hsort : h.sort item = h := by
    unfold Heap.sort
    rw [sortAsc_of_sorted hs]
    exact Heap.write_read v
  by_cases h0 : item.len = 0
  · have er : r = (h, ts, 0) := by simp only [r, hCollIndex, if_pos h0]
    rw [er]
    refine ⟨rfl, av, ?_⟩
    unfold VariantsIndex.index
    rw [hl, if_pos h0]
  · generalize hn : (UInt16.ofNat (item.len - 1)).toNat = n
    have sp := hTableIndex_spec h ((extendTables ts n).getD n []) item (h.read item)
      (by rw [hsort, sortAsc_of_sorted hs])
    rw [hsort] at sp
    have av' := av.extendTables n
    simp only [r, hCollIndex, if_neg h0, hsort, hn]
    generalize hTableIndex h ((extendTables ts n).getD n []) item = y at sp ⊢
    obtain ⟨h', t', i⟩ := y
    simp only at sp ⊢
    obtain ⟨rfl, e2, e3⟩ := sp
    refine ⟨rfl, av'.set _ ?_, ?_⟩
    · intro s hs
      rcases e3 s hs with hs | rfl
      · exact av'.getD _ s hs
      · exact v
    · unfold VariantsIndex.index
      rw [hl, if_neg h0]
      simp only
      rw [length_sortAsc, hl, hn, sortAsc_of_sorted hs, VariantsTable.index_gTable _ (by rw [hl]; exact h0), vals_set,
        vals_extendTables]
      have e4 : (extendTables (vals h' ts) n).getD n [] = ((extendTables ts n).getD n []).map h'.read := by
        rw [← vals_getD, vals_extendTables]
      rw [e4, ← e2]

theorem hCollGet_spec (h : Heap UInt32) (ts : List (List Slice)) (id : VariantID) (av : AllValid h ts) :
    (hCollGet h ts id = none ∧ VariantsIndex.get (vals h ts) id = .panic) ∨
    ∃ h' s, hCollGet h ts id = some (h', s) ∧ Ext h h' ∧ h'.Valid s ∧
      VariantsIndex.get (vals h ts) id = .ok (h'.read s) := by
  have empty : Ext h h.makeEmpty.1 ∧ h.makeEmpty.1.Valid h.makeEmpty.2 ∧ h.makeEmpty.1.read h.makeEmpty.2 = [] :=
    ⟨Ext.make h [], Heap.valid_make_new h [], Heap.read_make_new h []⟩
  unfold hCollGet VariantsIndex.get
  by_cases h0 : id = 0
  · rw [if_pos h0, if_pos h0]
    exact .inr ⟨_, _, rfl, empty.1, empty.2.1, congrArg Out.ok empty.2.2.symm⟩
  · rw [if_neg h0, if_neg h0]
    by_cases h1 : (variantTableNum id).toNat < 1
    · rw [if_pos h1, if_pos h1]
      exact .inr ⟨_, _, rfl, empty.1, empty.2.1, congrArg Out.ok empty.2.2.symm⟩
    · rw [if_neg h1, if_neg h1]
      unfold vals
      rw [List.getElem?_map]
      cases e : ts[(variantTableNum id).toNat - 1]? with
      | none => exact .inl ⟨rfl, rfl⟩
      | some t =>
        simp only [Option.map_some, hTableGet, VariantsTable.get, List.getElem?_map]
        cases e2 : t[(variantSubID id).toNat]? with
        | none => exact .inl ⟨rfl, rfl⟩
        | some s =>
          exact .inr ⟨h, s, rfl, Ext.refl h, av t (List.mem_of_getElem? e) s (List.mem_of_getElem? e2), rfl⟩

theorem VariantsIndex.get_sorted {ix : VariantsIndex} (g : GInv ix) {id : VariantID} {c : Coll}
    (h : VariantsIndex.get ix id = .ok c) : c.Pairwise (· ≤ ·) := by
  rcases (VariantsIndex.get_eq_ok_iff ix id c).1 h with ⟨_, rfl⟩ | ⟨_, h⟩
  · exact List.Pairwise.nil
  · exact (gGet_sorted g h).1

theorem hCollAdd_spec (h : Heap UInt32) (c : Slice) (id : TagSetID) (v : h.Valid c)
    (hs : (h.read c).Pairwise (· ≤ ·)) :
    let r := hCollAdd h c id
    Ext h r.1 ∧ r.1.Valid r.2 ∧ r.1.read r.2 = Coll.add (h.read c) id ∧ (r.1.read r.2).Pairwise (· ≤ ·) := by
  intro r
  by_cases h0 : Coll.has (h.read c) id
  · have er : r = (h, c) := by simp only [r, hCollAdd, if_pos h0]
    rw [er]
    refine ⟨Ext.refl h, v, ?_, hs⟩
    unfold Coll.add
    rw [if_pos h0]
  · have er : r = h.makeWith (sortAsc (h.read c ++ [id])) := by simp only [r, hCollAdd, if_neg h0]
    rw [er]
    have e := Heap.read_make_new h (sortAsc (h.read c ++ [id]))
    refine ⟨Ext.make _ _, Heap.valid_make_new _ _, ?_, ?_⟩
    · rw [e]; unfold Coll.add; rw [if_neg h0]
    · rw [e]; exact sortAsc_sorted _

theorem hKnownID_vals (h : Heap UInt32) (ts : List (List Slice)) : hKnownID ts = VariantsIndex.knownID (vals h ts) := by
  unfold hKnownID VariantsIndex.knownID vals
  rw [List.zipIdx_map, List.map_map]
  congr 1
  apply List.map_congr_left
  rintro ⟨t, i⟩ _
  simp

namespace HIndex

/-- The stored slices lie within their arrays. -/
structure OK (x : HIndex) : Prop where
  sets : AllValid x.sets x.tagSets
  colls : AllValid x.colls x.collectionIdx

theorem addTagSet_sim (x : HIndex) (ok : x.OK) (g : GInv x.value.collectionIdx) (id : ID) (names : List Str) :
    (x.addTagSet id names).1.OK ∧
    ((x.addTagSet id names).1.value, (x.addTagSet id names).2) = x.value.addTagSet id names := by
  obtain ⟨ix, hs, ts, hc, cs⟩ := x
  have ok1 : AllValid hs ts := ok.sets
  have ok2 : AllValid hc cs := ok.colls
  have g' : GInv (vals hc cs) := g
  unfold addTagSet Index.addTagSet
  simp only [value]
  cases Index.findAll ix.tags names with
  | error n => exact ⟨ok, rfl⟩
  | ok tagSet =>
    simp only
    cases ix.items.get id with
    | none => exact ⟨ok, rfl⟩
    | some item =>
      simp only
      rcases hCollGet_spec hc cs item.variants ok2 with ⟨e1, e2⟩ | ⟨hc1, c, e1, x1, v1, e2⟩
      · rw [e1]
        simp only
        unfold vals at e2
        rw [e2]
        exact ⟨ok, rfl⟩
      · have srt := VariantsIndex.get_sorted g' e2
        rw [e1]
        unfold vals at e2
        rw [e2]
        simp only
        have s1 := hSetIndex_fresh hs ts tagSet ok1
        simp only at s1
        generalize hSetIndex (hs.makeWith tagSet).1 ts (hs.makeWith tagSet).2 = y at s1 ⊢
        obtain ⟨hs', ts', tsID⟩ := y
        obtain ⟨s2, s3, s4⟩ := s1
        have s4' : TagSetIndex.index (ts.map (List.map hs.read)) tagSet = (vals hs' ts', tsID) := s4.symm
        rw [s4']
        simp only
        have a1 := hCollAdd_spec hc1 c tsID v1 srt
        simp only at a1
        generalize hCollAdd hc1 c tsID = y at a1 ⊢
        obtain ⟨hc2, c2⟩ := y
        simp only at a1 ⊢
        obtain ⟨a2, a3, a4, a5⟩ := a1
        have x2 := x1.trans a2
        have i1 := hCollIndex_sorted hc2 cs c2 (ok2.ext x2) a3 a5
        simp only at i1
        rw [a4, vals_ext ok2 x2] at i1
        generalize hCollIndex hc2 cs c2 = y at i1 ⊢
        obtain ⟨hc3, cs', vID⟩ := y
        obtain ⟨rfl, i3, i4⟩ := i1
        have i4' : VariantsIndex.index (cs.map (List.map hc.read)) (Coll.add (hc1.read c) tsID) =
          (vals hc3 cs', vID) := i4.symm
        rw [i4']
        exact ⟨⟨s3, i3⟩, rfl⟩

theorem optimizeBuild_sim (old : List (List Slice)) (used : VariantID → Option (List ID)) (ids : List VariantID)
    (h : Heap UInt32) (new : List (List Slice)) (acc : List (VariantID × VariantID)) (av : AllValid h old)
    (avn : AllValid h new) (g : GInv (vals h old)) :
    (optimizeBuild old used ids h new acc = none ∧
      Index.optimizeBuild (vals h old) used ids (vals h new) acc = .panic) ∨
    ∃ h' new' acc', optimizeBuild old used ids h new acc = some (h', new', acc') ∧ AllValid h' new' ∧
      Index.optimizeBuild (vals h old) used ids (vals h new) acc = .ok (vals h' new', acc') := by
  induction ids generalizing h new acc with
  | nil => exact .inr ⟨h, new, acc, rfl, avn, rfl⟩
  | cons id rest ih =>
    unfold optimizeBuild Index.optimizeBuild
    cases used id with
    | none => exact ih h new acc av avn g
    | some u =>
      simp only
      rcases hCollGet_spec h old id av with ⟨e1, e2⟩ | ⟨h1, c, e1, x1, v1, e2⟩
      · rw [e1, e2]
        exact .inl ⟨rfl, rfl⟩
      · have srt := VariantsIndex.get_sorted g e2
        rw [e1, e2]
        simp only [Out.bind_ok]
        have i1 := hCollIndex_sorted h1 new c (avn.ext x1) v1 srt
        simp only at i1
        rw [vals_ext avn x1] at i1
        generalize hCollIndex h1 new c = y at i1 ⊢
        obtain ⟨h2, new', nid⟩ := y
        obtain ⟨rfl, i3, i4⟩ := i1
        rw [← i4]
        simp only
        rcases hCollGet_spec h2 new' nid i3 with ⟨e3, e4⟩ | ⟨h3, c', e3, x3, v3, e4⟩
        · rw [e3]
          simp only
          have e4' := e4
          rw [e4']
          exact .inl ⟨trivial, rfl⟩
        · rw [e3]
          simp only
          have e4' := e4
          rw [e4']
          simp only [Out.bind_ok]
          rw [(x3 c v1).2, sortAsc_of_sorted srt]
          split
          · have x13 := x1.trans x3
            have key := ih h3 new' (acc ++ [(id, nid)]) (av.ext x13) (i3.ext x3) (by rw [vals_ext av x13]; exact g)
            rw [vals_ext av x13, vals_ext i3 x3] at key
            exact key
          · exact .inl ⟨rfl, rfl⟩

theorem optimize_sim (x : HIndex) (ok : x.OK) (g : GInv x.value.collectionIdx) :
    x.optimize.1.OK ∧ (x.optimize.1.value, x.optimize.2) = x.value.optimize := by
  obtain ⟨ix, hs, ts, hc, cs⟩ := x
  have ok1 : AllValid hs ts := ok.sets
  have ok2 : AllValid hc cs := ok.colls
  have g' : GInv (vals hc cs) := g
  have hk := hKnownID_vals hc cs
  have hk' : (⟨ix, hs, ts, hc, cs⟩ : HIndex).value.collectionIdx.knownID = hKnownID cs := hk.symm
  by_cases h0 : ((hKnownID cs).filter fun id => (Index.usedCollections ix.items.items id).isNone).length = 0
  · have l : optimize ⟨ix, hs, ts, hc, cs⟩ = (⟨ix, hs, ts, hc, cs⟩, .ok ()) := if_pos h0
    have r : (⟨ix, hs, ts, hc, cs⟩ : HIndex).value.optimize = ((⟨ix, hs, ts, hc, cs⟩ : HIndex).value, .ok ()) :=
      if_pos (by rw [hk']; exact h0)
    rw [l, r]
    exact ⟨ok, rfl⟩
  · have l : optimize ⟨ix, hs, ts, hc, cs⟩ = _ := if_neg h0
    have r : (⟨ix, hs, ts, hc, cs⟩ : HIndex).value.optimize = _ := if_neg (by rw [hk']; exact h0)
    rw [l, r, hk']
    rcases optimizeBuild_sim cs (Index.usedCollections ix.items.items) (hKnownID cs) hc [] [] ok2
      (fun t ht => nomatch ht) g' with ⟨e1, e2⟩ | ⟨h', new', acc', e1, e2, e3⟩
    · simp only
      rw [e1, show Index.optimizeBuild (⟨ix, hs, ts, hc, cs⟩ : HIndex).value.collectionIdx
        (Index.usedCollections (⟨ix, hs, ts, hc, cs⟩ : HIndex).value.items.items) _ [] [] = _ from e2]
      exact ⟨ok, rfl⟩
    · simp only
      rw [e1, show Index.optimizeBuild (⟨ix, hs, ts, hc, cs⟩ : HIndex).value.collectionIdx
        (Index.usedCollections (⟨ix, hs, ts, hc, cs⟩ : HIndex).value.items.items) _ [] [] = _ from e3]
      simp only
      rw [show (⟨ix, hs, ts, hc, cs⟩ : HIndex).value.items.items = ix.items.items from rfl]
      cases Index.replaceAll (Index.usedCollections ix.items.items) acc' ix.items.items with
      | none => exact ⟨ok, rfl⟩
      | some items => exact ⟨⟨ok1, e2⟩, rfl⟩

/-! ### The other calls do not look at the tables -/

/-- Another choice of the tables. -/
def _root_.Verif.Index.withTables (ix : Index) (a : TagSetIndex) (b : VariantsIndex) : Index :=
  { ix with tagSets := a, collectionIdx := b }

theorem fetchFromItem_tables (a : TagSetIndex) (b : VariantsIndex) (rs : List Rune) (ix : Index) (p : ID) :
    ((ix.withTables a b).fetchFromItem p rs).1 = (ix.fetchFromItem p rs).1.withTables a b := by
  induction rs generalizing ix p with
  | nil => rfl
  | cons r rest ih =>
    unfold Index.fetchFromItem Index.getChildrenIDMap
    simp only [Index.withTables]
    cases (Index.ensureChildren ix.childrenMap p p).getD (fun _ => none) r with
    | none => rfl
    | some next =>
      simp only
      split
      · rfl
      · exact ih { ix with childrenMap := Index.ensureChildren ix.childrenMap p } next

theorem fetchItemFromParent_tables (a : TagSetIndex) (b : VariantsIndex) (rs : List Rune) (ix : Index) (p : ID) :
    ((ix.withTables a b).fetchItemFromParent p rs).1 = (ix.fetchItemFromParent p rs).1.withTables a b := by
  induction rs generalizing ix p with
  | nil => rfl
  | cons r rest ih =>
    unfold Index.fetchItemFromParent Index.getChildrenIDMap
    simp only [Index.withTables]
    cases (Index.ensureChildren ix.childrenMap p p).getD (fun _ => none) r with
    | none => rfl
    | some next =>
      simp only
      split
      · rfl
      · exact ih { ix with childrenMap := Index.ensureChildren ix.childrenMap p } next

theorem addStep_tables (a : TagSetIndex) (b : VariantsIndex) (ix : Index) (p : ID) (r : Rune) :
    (ix.withTables a b).addStep p r = (ix.addStep p r).map fun y => (y.1.withTables a b, y.2) := by
  unfold Index.addStep Index.getChildrenIDMap
  simp only [Index.withTables]
  cases (Index.ensureChildren ix.childrenMap p p).getD (fun _ => none) r with
  | some next => rfl
  | none =>
    simp only
    cases ix.items.newChild p r with
    | none => rfl
    | some y => rfl

theorem addLoop_tables (a : TagSetIndex) (b : VariantsIndex) (o : ID) (rs : List Rune) (ix : Index) (p : ID) :
    (Index.addLoop o (ix.withTables a b) p rs).1 = (Index.addLoop o ix p rs).1.withTables a b := by
  induction rs generalizing ix p with
  | nil => rfl
  | cons r rest ih =>
    unfold Index.addLoop
    rw [addStep_tables]
    simp only [show (ix.withTables a b).items = ix.items from rfl]
    split
    · rfl
    · cases ix.addStep p r with
      | none => rfl
      | some y =>
        obtain ⟨ix1, next⟩ := y
        simp only [Option.map_some]
        split
        · rfl
        · exact ih ix1 next

theorem addString_tables (a : TagSetIndex) (b : VariantsIndex) (w : Str) (ix : Index) :
    ((ix.withTables a b).addString w).1 = (ix.addString w).1.withTables a b := by
  unfold Index.addString
  split
  · rfl
  · exact addLoop_tables a b 0 _ ix 0

theorem value_eq (x : HIndex) : x.value = x.ix.withTables (vals x.sets x.tagSets) (vals x.colls x.collectionIdx) := rfl

/-! ### Loading -/

theorem allocTable_spec {α : Type} (t : List (List α)) (h : Heap α) :
    Ext h (allocTable h t).1 ∧ (∀ s ∈ (allocTable h t).2, (allocTable h t).1.Valid s) ∧
    (allocTable h t).2.map (allocTable h t).1.read = t := by
  induction t generalizing h with
  | nil => exact ⟨Ext.refl h, (by intro s hs; cases hs), rfl⟩
  | cons xs rest ih =>
    obtain ⟨i1, i2, i3⟩ := ih (h.makeWith xs).1
    have hn := i1 _ (Heap.valid_make_new h xs)
    refine ⟨(Ext.make h xs).trans i1, ?_, ?_⟩
    · intro s hs
      rcases List.mem_cons.1 hs with rfl | hs
      · exact hn.1
      · exact i2 s hs
    · have e : (allocTable (h.makeWith xs).1 rest).1.read (h.makeWith xs).2 = xs :=
        hn.2.trans (Heap.read_make_new h xs)
      exact congr (congrArg List.cons e) i3

theorem allocTables_spec {α : Type} (ts : List (List (List α))) (h : Heap α) :
    Ext h (allocTables h ts).1 ∧ AllValid (allocTables h ts).1 (allocTables h ts).2 ∧
    vals (allocTables h ts).1 (allocTables h ts).2 = ts := by
  induction ts generalizing h with
  | nil => exact ⟨Ext.refl h, (by intro s hs; cases hs), rfl⟩
  | cons t rest ih =>
    obtain ⟨a1, a2, a3⟩ := allocTable_spec t h
    obtain ⟨i1, i2, i3⟩ := ih (allocTable h t).1
    refine ⟨a1.trans i1, ?_, ?_⟩
    · intro u hu
      rcases List.mem_cons.1 hu with rfl | hu
      · exact fun s hs => (i1 s (a2 s hs)).1
      · exact i2 u hu
    · show _ :: _ = _
      rw [show (allocTables h (t :: rest)).1 = (allocTables (allocTable h t).1 rest).1 from rfl]
      congr 1
      conv => rhs; rw [← a3]
      exact List.map_congr_left fun s hs => (i1 s (a2 s hs)).2

theorem ofValue_spec (ix : Index) : (ofValue ix).OK ∧ (ofValue ix).value = ix := by
  obtain ⟨_, a1, a2⟩ := allocTables_spec ix.tagSets []
  obtain ⟨_, b1, b2⟩ := allocTables_spec ix.collectionIdx []
  refine ⟨⟨a1, b1⟩, ?_⟩
  rw [value_eq]
  show Index.withTables _ (vals (allocTables [] ix.tagSets).1 (allocTables [] ix.tagSets).2)
    (vals (allocTables [] ix.collectionIdx).1 (allocTables [] ix.collectionIdx).2) = ix
  rw [a2, b2]
  rfl

theorem exec_sim (x : HIndex) (ok : x.OK) (g : GInv x.value.collectionIdx) (op : Op) :
    (x.exec op).OK ∧ (x.exec op).value = op.exec x.value := by
  have other : ∀ ix' : Index, ({ x with ix := ix' } : HIndex).OK := fun _ => ⟨ok.sets, ok.colls⟩
  cases op with
  | addTagSet id names =>
    have := addTagSet_sim x ok g id names
    exact ⟨this.1, congrArg Prod.fst this.2⟩
  | optimize =>
    have := optimize_sim x ok g
    exact ⟨this.1, congrArg Prod.fst this.2⟩
  | reload =>
    unfold exec Op.exec
    simp only
    by_cases h0 : x.value.save.err = none
    · rw [if_pos h0, if_pos h0]
      generalize Index.new.load x.value.save.bytes = y
      cases y with
      | ok y => exact ofValue_spec y.1
      | err e => exact ⟨ok, rfl⟩
      | panic => exact ⟨ok, rfl⟩
      | diverge => exact ⟨ok, rfl⟩
    · rw [if_neg h0, if_neg h0]
      exact ⟨ok, rfl⟩
  | addRunes rs => exact ⟨other _, (addLoop_tables _ _ 0 rs x.ix 0).symm⟩
  | addString w => exact ⟨other _, (addString_tables _ _ w x.ix).symm⟩
  | addToNode id rs => exact ⟨other _, (addLoop_tables _ _ id rs x.ix id).symm⟩
  | fetchFromItem id rs => exact ⟨other _, (fetchFromItem_tables _ _ rs x.ix id).symm⟩
  | fetchItemFromParent id rs => exact ⟨other _, (fetchItemFromParent_tables _ _ rs x.ix id).symm⟩
  | fetchRunes rs => exact ⟨other _, (fetchFromItem_tables _ _ rs x.ix 0).symm⟩
  | fetchString w => exact ⟨other _, (fetchFromItem_tables _ _ (decodeRunes w) x.ix 0).symm⟩
  | tagID n p => exact ⟨other _, rfl⟩

theorem execAll_append (h : List Op) (op : Op) : execAll (h ++ [op]) = (execAll h).exec op := by
  unfold execAll; rw [List.foldl_append]; rfl

theorem run_sim {h : List Op} {ix : Index} (r : Run h ix) : (execAll h).OK ∧ (execAll h).value = ix := by
  induction r with
  | nil => exact ⟨⟨(by intro t ht; cases ht), (by intro t ht; cases ht)⟩, rfl⟩
  | step op r _ _ ih =>
    rw [execAll_append]
    have := exec_sim _ ih.1 (by rw [ih.2]; exact r.tag.colls) op
    rw [ih.2] at this
    exact this

end HIndex

end Verif
