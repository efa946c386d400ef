import Verif.Props.Capacity

/-!
# C36 — node slots

`newChildBy grow` is `Items.NewChild` with an arbitrary choice of the growth step in place of the powers of two
(which, `^` being exclusive or in Go, are not powers of two): the property does not depend on it.
-/

namespace Verif

/-- `Items.NewChild` with the growth step left open; `none` is the index-out-of-range panic. -/
def newChildBy (grow : Nat → Nat) (its : Items) (parent : ID) (letter : Rune) : Option (Items × Item) :=
  let nextID := its.nextID
  let its1 := if its.items.length ≤ nextID.toNat then its.extend (grow its.items.length) else its
  if nextID.toNat < its1.items.length then
    let it : Item := { parent := parent, id := nextID, letter := letter, variants := 0 }
    some ({ items := its1.items.set nextID.toNat it, nextID := nextID + 1 }, it)
  else none

/-- The code is the instance with its own step, which is positive (`extendStep_pos`). -/
theorem newChild_by : Items.newChild = newChildBy Items.extendStep := rfl

/-- C36, one creation: no panic; the id is the next number; the item is stored under its id with the given parent and
letter and no readings; all other items are as before. -/
theorem C36_step (grow : Nat → Nat) (hg : ∀ n, 1 ≤ grow n) (its : Items) (h : its.nextID.toNat ≤ its.items.length)
    (hcap : its.nextID.toNat + 1 < 4294967296) (h0 : 0 < its.nextID.toNat) (parent : ID) (letter : Rune) :
    ∃ its' it, newChildBy grow its parent letter = some (its', it) ∧
      it = { parent := parent, id := its.nextID, letter := letter, variants := 0 } ∧
      its'.get its.nextID = some it ∧ (∀ id : ID, id.toNat < its.nextID.toNat → its'.get id = its.get id) ∧
      its'.nextID.toNat = its.nextID.toNat + 1 ∧ its'.nextID.toNat ≤ its'.items.length := by
  have hlen : its.nextID.toNat <
      (if its.items.length ≤ its.nextID.toNat then its.extend (grow its.items.length) else its).items.length := by
    split
    · have := hg its.items.length
      unfold Items.extend
      simp only [List.length_append, List.length_replicate]
      omega
    · omega
  have hkeep : ∀ k, k < its.nextID.toNat →
      (if its.items.length ≤ its.nextID.toNat then its.extend (grow its.items.length) else its).items[k]? =
        its.items[k]? := by
    intro k hk
    split
    · exact List.getElem?_append_left (by omega)
    · rfl
  have hnext : (its.nextID + 1).toNat = its.nextID.toNat + 1 := by
    rw [UInt32.toNat_add]
    exact Nat.mod_eq_of_lt hcap
  unfold newChildBy
  simp only
  rw [if_pos hlen]
  refine ⟨_, _, rfl, rfl, ?_, ?_, hnext, ?_⟩
  · unfold Items.get
    simp only
    rw [if_neg (by omega), if_neg (by rw [hnext]; omega), List.getElem?_set_self hlen]
  · intro id hid
    unfold Items.get
    simp only
    split
    · rfl
    · rw [if_neg (by rw [hnext]; omega), if_neg (show ¬ id.toNat ≥ its.nextID.toNat by omega), List.getElem?_set_ne (by omega), hkeep _ hid]
  · simp only [List.length_set]
    omega

/-- Creations one after another; `none` if one of them panics. The ids returned are collected. -/
def createAll (grow : Nat → Nat) : Items → List (ID × Rune) → Option (Items × List ID)
  | its, [] => some (its, [])
  | its, (p, l) :: rest => match newChildBy grow its p l with
    | none => none
    | some (its', it) => (createAll grow its' rest).map fun (its'', ids) => (its'', it.id :: ids)

theorem createAll_spec (grow : Nat → Nat) (hg : ∀ n, 1 ≤ grow n) (reqs : List (ID × Rune)) (its : Items)
    (h : its.nextID.toNat ≤ its.items.length) (h0 : 0 < its.nextID.toNat)
    (hcap : its.nextID.toNat + reqs.length < 4294967296) :
    ∃ its' ids, createAll grow its reqs = some (its', ids) ∧
      ids.map (·.toNat) = List.range' its.nextID.toNat reqs.length ∧
      (∀ id : ID, id.toNat < its.nextID.toNat → its'.get id = its.get id) ∧
      (∀ k p l, reqs[k]? = some (p, l) → ∃ id : ID, id.toNat = its.nextID.toNat + k ∧
        its'.get id = some { parent := p, id := id, letter := l, variants := 0 }) := by
  induction reqs generalizing its with
  | nil => exact ⟨its, [], rfl, rfl, fun _ _ => rfl, by simp⟩
  | cons q rest ih =>
    obtain ⟨p, l⟩ := q
    simp only [List.length_cons] at hcap
    obtain ⟨its1, it, a1, a2, a3, a4, a5, a6⟩ := C36_step grow hg its h (by omega) h0 p l
    obtain ⟨its2, ids, b1, b2, b3, b4⟩ := ih its1 a6 (by omega) (by omega)
    refine ⟨its2, it.id :: ids, ?_, ?_, ?_, ?_⟩
    · simp only [createAll, a1, b1, Option.map_some]
    · rw [List.map_cons, b2, a2, a5, List.length_cons, List.range'_succ]
    · intro id hid
      rw [b3 id (by omega), a4 id hid]
    · intro k p' l' hk
      cases k with
      | zero =>
        simp only [List.getElem?_cons_zero, Option.some.injEq, Prod.mk.injEq] at hk
        obtain ⟨rfl, rfl⟩ := hk
        refine ⟨its.nextID, by simp, ?_⟩
        rw [b3 _ (by omega), a3, a2]
      | succ k =>
        rw [List.getElem?_cons_succ] at hk
        obtain ⟨id, hid, hget⟩ := b4 k p' l' hk
        exact ⟨id, by omega, hget⟩

/-- C36: from a new storage, any sequence of creations that stays within 32-bit ids succeeds, hands out the ids
1, 2, 3, …, and afterwards every node still has the parent and letter it was created with — whatever the growth
steps were. -/
theorem C36 (grow : Nat → Nat) (hg : ∀ n, 1 ≤ grow n) (reqs : List (ID × Rune))
    (hcap : reqs.length + 1 < 4294967296) :
    ∃ its ids, createAll grow Items.new reqs = some (its, ids) ∧
      ids.map (·.toNat) = List.range' 1 reqs.length ∧
      ∀ k p l, reqs[k]? = some (p, l) → ∃ id : ID, id.toNat = k + 1 ∧
        its.get id = some { parent := p, id := id, letter := l, variants := 0 } := by
  obtain ⟨its, ids, h1, h2, _, h4⟩ := createAll_spec grow hg reqs Items.new (by decide) (by decide)
    (by show 1 + _ < _; omega)
  refine ⟨its, ids, h1, h2, ?_⟩
  intro k p l hk
  obtain ⟨id, hid, hget⟩ := h4 k p l hk
  refine ⟨id, ?_, hget⟩
  rw [hid]
  show 1 + k = k + 1
  omega

/-- C36 for the step the code uses. -/
theorem C36_code (reqs : List (ID × Rune)) (hcap : reqs.length + 1 < 4294967296) :
    ∃ its ids, createAll Items.extendStep Items.new reqs = some (its, ids) ∧
      ids.map (·.toNat) = List.range' 1 reqs.length :=
  let ⟨its, ids, h1, h2, _⟩ := C36 _ extendStep_pos reqs hcap
  ⟨its, ids, h1, h2⟩

/-- A concrete growth: the storage of a new index (one slot) grows by `2 ^^^ 5 = 7` slots. -/
example : (createAll Items.extendStep Items.new [(0, 97), (1, 98)]).map
    (fun x => (x.1.items.length, x.2)) = some (8, [1, 2]) := by decide

end Verif
