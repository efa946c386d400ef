import Verif.Props.Concurrent
import Verif.Lemmas.LostStores

/-!
# C37 — exactly which fields of a new node are lost

`LostStore args s sched t k`: at some moment of the schedule the storage is copied to another place while thread `t` has
read where it is for its `k`-th store (0 id, 1 parent, 2 letter, 3 variants) and has not written yet. `FieldIs lost new
old x`: the field is `old` if the store was lost and `new` otherwise.
-/

namespace Verif

/-- **C37, the contents, exactly**: start from a storage of `len` items of which `next` are in use, with any number of
threads, any arguments, any schedule. A finished call returned the item which the storage holds under its id, and each
field of it is the one of the call unless just that store was overtaken by a copy of the storage, in which case it is what
the slot held before (zero if the slot is new). -/
theorem C37_exact (items : Nat → Item) (len next : Nat) (hlen : next ≤ len) (args : Nat → ID × Rune)
    (sched : List (Nat × Bool)) (t n : Nat) (it : Item)
    (hd : ((NState.init items len next).run args sched).pc t = .done n it) :
    let s := (NState.init items len next).run args sched
    let lost := LostStore args (NState.init items len next) sched t
    let old := if n < len then items n else zeroItem
    s.heap s.cur n = it ∧
    FieldIs (lost 0) (UInt32.ofNat n) old.id it.id ∧ FieldIs (lost 1) (args t).1 old.parent it.parent ∧
    FieldIs (lost 2) (args t).2 old.letter it.letter ∧ FieldIs (lost 3) 0 old.variants it.variants := by
  have h : EInv args (fun m => if m < len then items m else zeroItem) next (fun _ _ => False)
      (NState.init items len next) := by
    refine ⟨NInv.init items hlen, Nat.one_pos, ?_, ?_, fun _ _ => id⟩
    · intro m _ h2
      exact (if_pos h2).symm
    · intro m h1
      exact if_neg (Nat.not_lt.2 h1)
  have h := (h.run sched).told t
  rw [hd] at h
  obtain ⟨h1, h2⟩ := h
  refine ⟨h1.symm, ?_⟩
  rw [← h1] at h2
  have key : ∀ j, j < 4 → ((4 ≤ j ∨ False ∨ LostStore args (NState.init items len next) sched t j) ↔
      LostStore args (NState.init items len next) sched t j) := fun j hj =>
    ⟨fun hh => hh.elim (fun h => absurd h (by omega)) fun hh => hh.elim False.elim id, fun hh => .inr (.inr hh)⟩
  exact ⟨h2.id.congr (key 0 (by decide)), h2.parent.congr (key 1 (by decide)), h2.letter.congr (key 2 (by decide)),
    h2.variants.congr (key 3 (by decide))⟩

/-- Hence in a new slot the returned node carries its own id exactly if that store was not lost. -/
theorem C37_exact_id (items : Nat → Item) (len next : Nat) (hlen : next ≤ len) (args : Nat → ID × Rune)
    (sched : List (Nat × Bool)) (t n : Nat) (it : Item)
    (hd : ((NState.init items len next).run args sched).pc t = .done n it) (hn : UInt32.ofNat n ≠ 0)
    (hz : n < len → items n = zeroItem) :
    it.id = UInt32.ofNat n ↔ ¬LostStore args (NState.init items len next) sched t 0 := by
  obtain ⟨_, h, _⟩ := C37_exact items len next hlen args sched t n it hd
  refine ⟨fun he hl => hn ?_, h.2⟩
  rw [← he, h.1 hl]
  split
  · rename_i hlt; rw [hz hlt]; rfl
  · rfl

/-- In the schedule of `not_C37` it is the id that is lost, and nothing else. -/
example : LostStore twoCalls (NState.init (fun _ => zeroItem) 8 7) lostStore 0 0 ∧
    ((NState.init (fun _ => zeroItem) 8 7).run twoCalls lostStore).pc 0 =
      .done 7 { parent := 6, id := 0, letter := 120, variants := 0 } :=
  ⟨⟨List.replicate 6 (0, false) ++ List.replicate 2 (1, false), (1, false), List.replicate 11 (1, false) ++ List.replicate 8 (0, false),
    by decide, ⟨rfl, 8, 8, by decide, by decide⟩, 7, 0, by decide⟩, by decide⟩

end Verif
