import Verif.Lemmas.WordChain

/-! # Helper lemmas: an index loaded from arbitrary bytes -/

namespace Verif

open Index

theorem readN_length {α : Type} {r : Rd α} {n : Nat} {s s' : Str} {l : List α} (h : readN r n s = .ok (l, s')) :
    l.length = n := by
  induction n generalizing s l s' with
  | zero => obtain ⟨rfl, _⟩ := Prod.mk.inj (Out.ok.inj h); rfl
  | succ n ih =>
    unfold readN Rd.bind at h
    cases hr : r s with
    | ok x =>
      rw [hr] at h
      simp only [Out.bind_ok] at h
      cases hn : readN r n x.2 with
      | ok y =>
        rw [hn] at h
        obtain ⟨rfl, _⟩ := Prod.mk.inj (Out.ok.inj h)
        simp only [List.length_cons]
        rw [ih hn]
      | err e => rw [hn] at h; cases h
      | panic => rw [hn] at h; cases h
      | diverge => rw [hn] at h; cases h
    | err e => rw [hr] at h; cases h
    | panic => rw [hr] at h; cases h
    | diverge => rw [hr] at h; cases h

theorem Rd.bind_inv {α β : Type} {r : Rd α} {f : α → Rd β} {s s' : Str} {b : β}
    (h : Rd.bind r f s = .ok (b, s')) : ∃ a s1, r s = .ok (a, s1) ∧ f a s1 = .ok (b, s') := by
  unfold Rd.bind at h
  cases hr : r s with
  | ok x => rw [hr] at h; exact ⟨x.1, x.2, rfl, h⟩
  | err e => rw [hr] at h; cases h
  | panic => rw [hr] at h; cases h
  | diverge => rw [hr] at h; cases h

theorem readSection_inv {α : Type} {pfx : Str} {r : Rd α} {s s' : Str} {a : α}
    (h : readSection pfx r s = .ok (a, s')) : ∃ s1, r s1 = .ok (a, s') := by
  obtain ⟨x, s1, _, h⟩ := Rd.bind_inv h
  split at h
  · cases h
  · exact ⟨s1, h⟩

/-- A successful load of any file is a rebuild of exactly `nextID` items. -/
theorem load_inv {into ix : Index} {file rest : Str} (h : into.load file = .ok (ix, rest)) :
    ∃ tags sets colls items, items.items.length = items.nextID.toNat ∧
      ix = rebuildChildren { into with tags := tags, tagSets := sets, collectionIdx := colls, items := items } := by
  unfold Index.load at h
  obtain ⟨tags, s1, _, h⟩ := Rd.bind_inv h
  obtain ⟨sets, s2, _, h⟩ := Rd.bind_inv h
  obtain ⟨colls, s3, _, h⟩ := Rd.bind_inv h
  obtain ⟨items, s4, hi, h⟩ := Rd.bind_inv h
  obtain ⟨rfl, _⟩ := Prod.mk.inj (Out.ok.inj h)
  refine ⟨tags, sets, colls, items, ?_, rfl⟩
  obtain ⟨s5, hi⟩ := readSection_inv hi
  obtain ⟨n, s6, _, hi⟩ := Rd.bind_inv hi
  obtain ⟨l, s7, hl, hi⟩ := Rd.bind_inv hi
  obtain ⟨rfl, _⟩ := Prod.mk.inj (Out.ok.inj hi)
  exact readN_length hl

theorem setChild_isSome (m : ID → Option IdMap) (p : ID) (l : Rune) (c k : ID) :
    (setChild m p l c k).isSome = (m k).isSome := by
  unfold setChild
  cases h : m p with
  | none => rfl
  | some im =>
    simp only
    split
    · rename_i hk; subst hk; rw [h]; rfl
    · rfl

theorem rebuildStep_isSome (ix : Index) (e : Item × Nat) (k : ID) :
    ((ix.childrenMap k).isSome = true → ((rebuildStep ix e).childrenMap k).isSome = true) ∧
    ((rebuildStep ix e).childrenMap (UInt32.ofNat e.2)).isSome = true := by
  unfold rebuildStep
  simp only [setChild_isSome]
  constructor
  · intro h
    exact ensureChildren_keeps_isSome _ (ensureChildren_keeps_isSome _ h)
  · obtain ⟨im, him⟩ := ensureChildren_isSome (ix.getChildrenIDMap e.1.parent).1.childrenMap (UInt32.ofNat e.2)
    unfold getChildrenIDMap at him ⊢
    simp only at him ⊢
    rw [him]; rfl

theorem rebuildFold_isSome (es : List (Item × Nat)) (ix : Index) (k : ID)
    (h : (ix.childrenMap k).isSome = true ∨ ∃ e ∈ es, UInt32.ofNat e.2 = k) :
    ((es.foldl rebuildStep ix).childrenMap k).isSome = true := by
  induction es generalizing ix with
  | nil =>
    rcases h with h | ⟨e, he, _⟩
    · exact h
    · cases he
  | cons e es ih =>
    rw [List.foldl_cons]
    apply ih
    rcases h with h | ⟨e', he, hk⟩
    · exact .inl ((rebuildStep_isSome ix e k).1 h)
    · rcases List.mem_cons.1 he with rfl | he
      · left; rw [← hk]; exact (rebuildStep_isSome ix e' k).2
      · exact .inr ⟨e', he, hk⟩

/-- What holds of the index built from any file: children are items that know their parent, and every node has its
children map. -/
structure Solid (ix : Index) : Prop where
  len : ix.items.items.length = ix.items.nextID.toNat
  root : (ix.childrenMap 0).isSome = true
  nodes : ∀ k : ID, k.toNat < ix.items.nextID.toNat → (ix.childrenMap k).isSome = true
  child : ∀ p l k, ix.getChildrenMap p l = some k →
    ∃ it, ix.items.items[k.toNat]? = some it ∧ it.parent = p ∧ it.letter = l

theorem solid_of_load {ix : Index} {file rest : Str} (h : Index.new.load file = .ok (ix, rest)) : Solid ix := by
  obtain ⟨tags, sets, colls, items, hlen, rfl⟩ := load_inv h
  let base : Index := { Index.new with tags := tags, tagSets := sets, collectionIdx := colls, items := items }
  have hit : (rebuildChildren base).items = items :=
    (rebuildFold_other items.items.zipIdx (base.getChildrenIDMap 0).1).2.2.2.1
  refine ⟨by rw [hit]; exact hlen, ?_, ?_, ?_⟩
  · apply rebuildFold_isSome
    left
    obtain ⟨im, him⟩ := ensureChildren_isSome base.childrenMap 0
    show (ensureChildren base.childrenMap 0 0).isSome = true
    rw [him]; rfl
  · intro k hk
    rw [hit] at hk
    apply rebuildFold_isSome
    right
    show ∃ e ∈ items.items.zipIdx, _
    have hk' : k.toNat < items.items.length := by omega
    refine ⟨(items.items[k.toNat], k.toNat), ?_, ?_⟩
    · rw [List.mem_zipIdx_iff_getElem?]; simp [hk']
    · simp
  · intro p l k hc
    rw [hit]
    rcases rebuildFold_children items.items (base.getChildrenIDMap 0).1 p l with ⟨n, it, h1, h2, h3, _, h5⟩ | ⟨_, h2⟩
    · have e : some k = some (UInt32.ofNat n) := hc.symm.trans h5
      obtain rfl := Option.some.inj e
      have hn := (List.getElem?_eq_some_iff.1 h1).1
      have := items.nextID.toNat_lt
      have e2 : (UInt32.ofNat n).toNat = n := by rw [UInt32.toNat_ofNat']; omega
      rw [e2]
      exact ⟨it, h1, h2.symm, h3.symm⟩
    · have e : some k = (base.getChildrenIDMap 0).1.getChildrenMap p l := hc.symm.trans h2
      rw [(getChildrenIDMap_obs base 0).children] at e
      cases e

theorem Solid.child_lt {ix : Index} (s : Solid ix) {p : ID} {l : Rune} {k : ID}
    (h : ix.getChildrenMap p l = some k) : k.toNat < ix.items.nextID.toNat := by
  obtain ⟨it, h1, _⟩ := s.child p l k h
  rw [← s.len]
  exact (List.getElem?_eq_some_iff.1 h1).1

theorem getChildrenIDMap_same {ix : Index} {p : ID} (h : (ix.childrenMap p).isSome = true) :
    ix.getChildrenIDMap p = (ix, ix.getChildrenMap p) := by
  obtain ⟨im, him⟩ := Option.isSome_iff_exists.1 h
  have : ensureChildren ix.childrenMap p = ix.childrenMap := by
    unfold ensureChildren; rw [him]
  unfold getChildrenIDMap getChildrenMap
  simp only [this]

/-- `Word` ends on a node whose parent chain does. -/
theorem Solid.word_child {ix : Index} (s : Solid ix) {p : ID} {l : Rune} {k : ID}
    (h : ix.getChildrenMap p l = some k) (hp : ∃ w, ix.word p = .ok w) : ∃ w, ix.word k = .ok w := by
  obtain ⟨it, h1, h2, _⟩ := s.child p l k h
  obtain ⟨w, hw⟩ := hp
  obtain ⟨n, hn⟩ := (word_ok_iff ix p w).1 hw
  by_cases h0 : k = 0
  · exact ⟨[], by rw [h0]; rfl⟩
  · have hg : ix.items.get k = some it := by
      unfold Items.get
      have : k.toNat ≠ 0 := fun h => h0 (UInt32.toNat_inj.1 h)
      rw [if_neg this, if_neg (by have := s.child_lt h; omega)]
      exact h1
    have : ∃ w', wordFuel (n + 1) ix.items k = .ok w' := by
      unfold wordFuel
      rw [if_neg h0, hg]
      simp only
      split
      · rw [h2, hn]; exact ⟨_, rfl⟩
      · exact ⟨_, rfl⟩
    obtain ⟨w', hw'⟩ := this
    exact ⟨w', (word_ok_iff ix k w').2 ⟨_, hw'⟩⟩

theorem Solid.fetch {ix : Index} (s : Solid ix) (rs : List Rune) (p : ID) (hp : p = 0 ∨ p.toNat < ix.items.nextID.toNat)
    (hw : ∃ w, ix.word p = .ok w) :
    (ix.fetchFromItem p rs).1 = ix ∧
    ((∃ id w, (ix.fetchFromItem p rs).2 = .ok id ∧ id.toNat < ix.items.nextID.toNat ∧ ix.word id = .ok w) ∨
      ∃ e, (ix.fetchFromItem p rs).2 = .err e) := by
  induction rs generalizing p with
  | nil => exact ⟨rfl, .inr ⟨_, rfl⟩⟩
  | cons r rest ih =>
    have hm : (ix.childrenMap p).isSome = true := by
      rcases hp with rfl | hp
      · exact s.root
      · exact s.nodes p hp
    unfold fetchFromItem
    rw [getChildrenIDMap_same hm]
    simp only
    cases hc : ix.getChildrenMap p r with
    | none =>
      obtain ⟨w, hw⟩ := hw
      simp only
      rw [hw]
      exact ⟨trivial, .inr ⟨_, rfl⟩⟩
    | some k =>
      simp only
      have hk := s.child_lt hc
      have hkw := s.word_child hc hw
      split
      · obtain ⟨w, hkw⟩ := hkw
        refine ⟨rfl, .inl ⟨k, w, ?_, hk, hkw⟩⟩
        unfold Index.get
        rw [if_neg (by omega)]
      · exact ih k (.inr hk) hkw

theorem Solid.fetchItem {ix : Index} (s : Solid ix) (rs : List Rune) (p : ID)
    (hp : p = 0 ∨ p.toNat < ix.items.nextID.toNat) (hw : ∃ w, ix.word p = .ok w) :
    (ix.fetchItemFromParent p rs).1 = ix ∧
    ((∃ id w, (ix.fetchItemFromParent p rs).2 = .ok id ∧ id.toNat < ix.items.nextID.toNat ∧ ix.word id = .ok w) ∨
      ∃ e, (ix.fetchItemFromParent p rs).2 = .err e) := by
  induction rs generalizing p with
  | nil => exact ⟨rfl, .inr ⟨_, rfl⟩⟩
  | cons r rest ih =>
    have hm : (ix.childrenMap p).isSome = true := by
      rcases hp with rfl | hp
      · exact s.root
      · exact s.nodes p hp
    unfold fetchItemFromParent
    rw [getChildrenIDMap_same hm]
    simp only
    cases hc : ix.getChildrenMap p r with
    | none =>
      obtain ⟨w, hw⟩ := hw
      simp only
      rw [hw]
      exact ⟨trivial, .inr ⟨_, rfl⟩⟩
    | some k =>
      simp only
      have hk := s.child_lt hc
      have hkw := s.word_child hc hw
      split
      · obtain ⟨w, hkw⟩ := hkw
        exact ⟨rfl, .inl ⟨k, w, rfl, hk, hkw⟩⟩
      · exact ih k (.inr hk) hkw

end Verif
