import Verif.Props.LoadSafety
import Verif.Lemmas.LookupRaces
import Verif.Props.FailedLoad

/-!
# C22, C69 — exactly which indexes are unsafe

The theorems are about every index value, so in particular about every index loaded from whatever bytes.
-/

namespace Verif

open Index

/-- Going from a node to its parent, to that one's parent and so on ends: at the root, or at an id that is no node. -/
inductive Rooted (ix : Index) : ID → Prop
  | root : Rooted ix 0
  | gone {id : ID} : ix.items.get id = none → Rooted ix id
  | up {id : ID} {it : Item} : ix.items.get id = some it → Rooted ix it.parent → Rooted ix id

/-- The node reached from `p` by the letters `rs`, if there is one. -/
def nodeAlong (ix : Index) : ID → List Rune → Option ID
  | p, [] => some p
  | p, r :: rest => (ix.getChildrenMap p r).bind fun k => nodeAlong ix k rest

/-- The readings of a node that has an entry: its number denotes a stored collection, or none. -/
def ReadingsStored (ix : Index) (v : VariantID) : Prop :=
  (variantTableNum v).toNat = 0 ∨
    ∃ t c, ix.collectionIdx[(variantTableNum v).toNat - 1]? = some t ∧ t[(variantSubID v).toNat]? = some c

theorem wordFuel_of_rooted {ix : Index} {id : ID} (h : Rooted ix id) : ∃ n w, wordFuel n ix.items id = .ok w := by
  induction h with
  | root => exact ⟨1, [], rfl⟩
  | @gone id hg =>
    by_cases h0 : id = 0
    · subst h0; exact ⟨1, [], rfl⟩
    · refine ⟨1, noItemText id, ?_⟩
      unfold wordFuel
      rw [if_neg h0, hg]
  | @up id it hg _ ih =>
    obtain ⟨n, w, hw⟩ := ih
    have h0 : id ≠ 0 := by
      rintro rfl
      exact absurd hg (by simp [Items.get])
    by_cases hp : it.parent ≠ 0
    · refine ⟨n + 1, w ++ encodeRune it.letter, ?_⟩
      unfold wordFuel
      rw [if_neg h0, hg]
      simp only [if_pos hp, hw, Out.bind_ok]
    · refine ⟨1, encodeRune it.letter, ?_⟩
      unfold wordFuel
      rw [if_neg h0, hg]
      simp only [if_neg hp]

theorem rooted_of_wordFuel {ix : Index} (n : Nat) {id : ID} {w : Str} (h : wordFuel n ix.items id = .ok w) :
    Rooted ix id := by
  induction n generalizing id w with
  | zero => cases h
  | succ n ih =>
    unfold wordFuel at h
    by_cases h0 : id = 0
    · subst h0; exact .root
    · rw [if_neg h0] at h
      cases hg : ix.items.get id with
      | none => exact .gone hg
      | some it =>
        refine .up hg ?_
        rw [hg] at h
        simp only at h
        by_cases hp : it.parent ≠ 0
        · rw [if_pos hp] at h
          rcases wordFuel_cases n ix.items it.parent with ⟨w', hw'⟩ | hw'
          · exact ih hw'
          · rw [hw'] at h; cases h
        · rw [not_not.1 hp]; exact .root

/-- C22, exactly, for the word of a node: `Word` returns a text if the way up from the node ends, and otherwise
recurses for ever. -/
theorem C22_word_exact (ix : Index) (id : ID) :
    ((∃ w, ix.word id = .ok w) ↔ Rooted ix id) ∧ (ix.word id = .diverge ↔ ¬ Rooted ix id) := by
  have h1 : (∃ w, ix.word id = .ok w) ↔ Rooted ix id := by
    constructor
    · rintro ⟨w, hw⟩
      exact rooted_of_wordFuel _ hw
    · intro h
      obtain ⟨n, w, hw⟩ := wordFuel_of_rooted h
      exact ⟨w, (word_ok_iff ix id w).2 ⟨n, hw⟩⟩
  refine ⟨h1, ?_⟩
  rw [← h1]
  rcases wordFuel_cases (ix.items.nextID.toNat + 1) ix.items id with ⟨w, hw⟩ | hw
  · have hw : ix.word id = .ok w := hw
    rw [hw]
    exact ⟨fun h => (by cases h), fun h => absurd ⟨w, rfl⟩ h⟩
  · have hw : ix.word id = .diverge := hw
    rw [hw]
    exact ⟨fun _ => fun ⟨_, h⟩ => (by cases h), fun _ => rfl⟩

/-- C22, exactly, for a lookup that starts at any node: it never panics, and it recurses for ever exactly if it fails at
a node from which the way up does not end. -/
theorem C22_lookup_exact (ix : Index) (p : ID) (rs : List Rune) :
    (ix.fetchFromItem p rs).2 ≠ .panic ∧
    ((ix.fetchFromItem p rs).2 = .diverge ↔
      ∃ a r b k, rs = a ++ r :: b ∧ nodeAlong ix p a = some k ∧ ix.getChildrenMap k r = none ∧ ¬ Rooted ix k) := by
  induction rs generalizing ix p with
  | nil =>
    refine ⟨by simp [fetchFromItem], fun h => (by cases h), ?_⟩
    rintro ⟨a, r, b, k, h, -⟩
    simp at h
  | cons r rest ih =>
    have ho := getChildrenIDMap_obs ix p
    have here : (ix.fetchFromItem p (r :: rest)).2 = match ix.getChildrenMap p r with
        | none => (ix.word p).bind fun w => .err (.notFound w r)
        | some k => if rest = [] then ix.get k else (ix.fetchFromItem k rest).2 := by
      rw [fetchFromItem]
      simp only [getChildrenIDMap_snd]
      cases ix.getChildrenMap p r with
      | none => simp only [word_obs ho]
      | some k =>
        simp only
        split
        · simp only [get_obs ho]
        · rw [fetchFromItem_alone ho]
    rw [here]
    cases hc : ix.getChildrenMap p r with
    | none =>
      simp only
      have hw := C22_word_exact ix p
      have hb : (∃ a r' b k, r :: rest = a ++ r' :: b ∧ nodeAlong ix p a = some k ∧ ix.getChildrenMap k r' = none ∧
          ¬ Rooted ix k) ↔ ¬ Rooted ix p := by
        constructor
        · rintro ⟨a, r', b, k, he, hk, hn, hr⟩
          cases a with
          | nil =>
            obtain rfl := Option.some.inj hk
            exact hr
          | cons x a =>
            obtain ⟨rfl, _⟩ := List.cons.inj he
            rw [nodeAlong, hc] at hk
            cases hk
        · exact fun h => ⟨[], r, rest, p, rfl, rfl, hc, h⟩
      rw [hb, ← hw.2]
      rcases wordFuel_cases (ix.items.nextID.toNat + 1) ix.items p with ⟨w, h⟩ | h
      · have h : ix.word p = .ok w := h
        rw [h]
        exact ⟨fun h => (by cases h), fun h => (by cases h), fun h => (by cases h)⟩
      · have h : ix.word p = .diverge := h
        rw [h]
        exact ⟨fun h => (by cases h), fun _ => rfl, fun _ => rfl⟩
    | some k =>
      simp only
      by_cases hr : rest = []
      · subst hr
        rw [if_pos rfl]
        have hg : ix.get k ≠ .panic ∧ ix.get k ≠ .diverge := by
          unfold Index.get
          split <;> exact ⟨fun h => (by cases h), fun h => (by cases h)⟩
        refine ⟨hg.1, fun h => absurd h hg.2, ?_⟩
        rintro ⟨a, r', b, k', he, hk, hn, -⟩
        exfalso
        cases a with
        | nil =>
          obtain ⟨rfl, -⟩ := List.cons.inj he
          obtain rfl := Option.some.inj hk
          rw [hc] at hn; cases hn
        | cons x a => simp at he
      · rw [if_neg hr]
        refine ⟨(ih ix k).1, (ih ix k).2.trans ⟨?_, ?_⟩⟩
        · rintro ⟨a, r', b, k', he, hk, hn, hroot⟩
          exact ⟨r :: a, r', b, k', by rw [he]; rfl, by rw [nodeAlong, hc]; exact hk, hn, hroot⟩
        · rintro ⟨a, r', b, k', he, hk, hn, hroot⟩
          cases a with
          | nil =>
            obtain ⟨rfl, -⟩ := List.cons.inj he
            obtain rfl := Option.some.inj hk
            rw [hc] at hn; cases hn
          | cons x a =>
            obtain ⟨rfl, he'⟩ := List.cons.inj he
            rw [nodeAlong, hc] at hk
            exact ⟨a, r', b, k', he', hk, hn, hroot⟩

/-- C22, exactly, for the readings of a node: `TagSets` returns a list if the node has an entry whose number of
readings denotes something stored, and panics otherwise. -/
theorem C22_readings_exact (ix : Index) (id : ID) :
    ((∃ L, ix.tagSetsOf id = .ok L) ↔ ∃ it, ix.items.get id = some it ∧ ReadingsStored ix it.variants) ∧
    (ix.tagSetsOf id = .panic ↔ ¬ ∃ it, ix.items.get id = some it ∧ ReadingsStored ix it.variants) := by
  unfold tagSetsOf
  cases hg : ix.items.get id with
  | none =>
    refine ⟨⟨fun ⟨_, h⟩ => (by cases h), fun ⟨_, h, _⟩ => (by cases h)⟩, fun _ ⟨_, h, _⟩ => (by cases h), fun _ => rfl⟩
  | some it =>
    simp only [Option.some.injEq, exists_eq_left']
    have key : (∃ c, ix.collectionIdx.get it.variants = .ok c) ∧ ReadingsStored ix it.variants ∨
        ix.collectionIdx.get it.variants = .panic ∧ ¬ ReadingsStored ix it.variants := by
      unfold VariantsIndex.get ReadingsStored
      by_cases h0 : it.variants = 0
      · rw [if_pos h0]
        exact .inl ⟨⟨_, rfl⟩, .inl (by rw [h0]; decide)⟩
      · rw [if_neg h0]
        by_cases h1 : (variantTableNum it.variants).toNat < 1
        · rw [if_pos h1]
          exact .inl ⟨⟨_, rfl⟩, .inl (by omega)⟩
        · rw [if_neg h1]
          cases ht : ix.collectionIdx[(variantTableNum it.variants).toNat - 1]? with
          | none =>
            refine .inr ⟨rfl, ?_⟩
            rintro (h | ⟨t, c, h, -⟩)
            · omega
            · cases h
          | some t =>
            simp only [VariantsTable.get]
            cases hs : t[(variantSubID it.variants).toNat]? with
            | none =>
              refine .inr ⟨rfl, ?_⟩
              rintro (h | ⟨t', c, h, h'⟩)
              · omega
              · obtain rfl := Option.some.inj h
                rw [hs] at h'; cases h'
            | some c => exact .inl ⟨⟨c, rfl⟩, .inr ⟨t, c, rfl, hs⟩⟩
    rcases key with ⟨⟨c, hc⟩, hs⟩ | ⟨hc, hs⟩
    · rw [hc]
      exact ⟨⟨fun _ => hs, fun _ => ⟨_, rfl⟩⟩, fun h => (by cases h), fun h => absurd hs h⟩
    · rw [hc]
      exact ⟨⟨fun ⟨_, h⟩ => (by cases h), fun h => absurd h hs⟩, fun _ => hs, fun _ => rfl⟩

/-- Both sides occur in files that load. -/
example : ∃ file ix, Index.new.load file = .ok (ix, []) ∧ ¬ Rooted ix 1 :=
  ⟨_, _, selfParent_loads, (C22_word_exact _ _).2.1 (by decide)⟩

example : ∃ file ix, Index.new.load file = .ok (ix, []) ∧ Rooted ix 1 ∧
    ¬ ∃ it, ix.items.get 1 = some it ∧ ReadingsStored ix it.variants :=
  ⟨_, _, dangling_loads, (C22_word_exact _ _).1.1 ⟨str "a", by decide⟩, (C22_readings_exact _ _).2.1 (by decide)⟩

/-! ## C69 -/

/-- C69, exactly: an index — loaded from whatever bytes — knows the root, and then everything in `C69_partial` holds of
it, or it knows no node at all and claims to have 4 294 967 295. -/
theorem C69_exact (r : Index) :
    r.get 0 = .ok 0 ∧ r.nodesCount < 4294967295 ∨
    r.nodesCount = 4294967295 ∧ ∀ id, ∃ e, r.get id = .err e := by
  by_cases h0 : r.items.nextID = 0
  · refine .inr ⟨?_, fun id => ?_⟩
    · unfold Index.nodesCount; rw [h0]; decide
    · refine ⟨.noSuchNode id, ?_⟩
      unfold Index.get
      rw [if_pos (by rw [h0]; exact Nat.zero_le _)]
  · have hn : r.items.nextID.toNat ≠ 0 := fun e => h0 (UInt32.toNat_inj.1 e)
    refine .inl ⟨?_, ?_⟩
    · unfold Index.get
      rw [if_neg (by show ¬ (0 ≥ _); omega)]
    · unfold Index.nodesCount
      have := UInt32.toNat_lt r.items.nextID
      have h1 : (1 : UInt32) ≤ r.items.nextID := by
        rw [UInt32.le_iff_toNat_le]; show 1 ≤ _; omega
      rw [UInt32.toNat_sub_of_le _ _ h1]
      show r.items.nextID.toNat - 1 < _
      omega

/-- Both cases occur for files that load. -/
example : ∃ r, Index.new.load emptyFile = .ok (r, []) ∧ r.nodesCount = 4294967295 :=
  let ⟨r, h, hn, _⟩ := not_C69
  ⟨r, h, hn⟩

example : ∃ file ix, Index.new.load file = .ok (ix, []) ∧ ix.get 0 = .ok 0 ∧ ix.nodesCount = 1 :=
  ⟨_, _, dangling_loads, by decide, by decide⟩

end Verif
