import Verif.Lemmas.TagWhileAdding
import Verif.Props.Capacity

/-!
# C93 — a word tagged while others add words

The property, "a reading given to a word stays with it, also if other goroutines add words at that time", does not hold
(`not_C93`): `AddTagSet` keeps a pointer to the node while it works, and adding words moves the nodes. `C93_exact` says exactly
which readings are lost; `C93_partial` says that no reading is lost while the nodes stay where they are, `C93_room_partial` that they
do so while there is room.
-/

namespace Verif

/-- **C93, exactly**: any number of goroutines adding nodes and tagging nodes that are there, any schedule. A call of
`AddTagSet` never ends in a panic. It stores the collection made from the one the node had, and the node has it when all is
over exactly if the nodes did not move while the call held its pointer; otherwise the node is as before, although the call
returned nil. Nobody else tags this node at the time. -/
theorem C93_exact (items : Nat → Item) (len next : Nat) (hlen : next ≤ len) (args : Nat → ID × Rune) (word : Nat → Nat)
    (f : Nat → VariantID → VariantID) (sched : List GEv) (t : Nat) (h0 : 0 < word t) (h1 : word t < next)
    (hu : ∀ u, word u = word t → u = t) :
    let s := (GState.init items len next).run args word f sched
    let lost := Overtaken args word f (GState.init items len next) sched t
    s.pc t ≠ .panicked ∧
    (∀ v, s.pc t = .done v → v = f t (items (word t)).variants ∧
      (lost → s.n.heap s.n.cur (word t) = items (word t)) ∧
      (¬ lost → s.n.heap s.n.cur (word t) = { items (word t) with variants := v })) ∧
    ((∀ v, s.pc t ≠ .done v) → s.n.heap s.n.cur (word t) = items (word t)) := by
  intro s lost
  have k := (HeldInv.run (args := args) (f := f) items hlen h0 h1 hu sched).knows
  change (s.pc t).Knows s.n _ _ _ lost at k
  refine ⟨fun hp => by rw [hp] at k; exact k, fun v hv => by rw [hv] at k; exact k, fun hn => ?_⟩
  cases hp : s.pc t with
  | start => rw [hp] at k; exact k.2
  | checked => rw [hp] at k; exact k.2
  | held a => rw [hp] at k; exact k.2.2.1
  | found a v => rw [hp] at k; exact k.2.2.1
  | done v => exact absurd hp (hn v)
  | panicked => rw [hp] at k; exact k.elim

/-- While no step of a schedule moves the nodes, no reading is lost. -/
theorem C93_partial (items : Nat → Item) (len next : Nat) (hlen : next ≤ len) (args : Nat → ID × Rune) (word : Nat → Nat)
    (f : Nat → VariantID → VariantID) (sched : List GEv) (t : Nat) (h0 : 0 < word t) (h1 : word t < next)
    (hu : ∀ u, word u = word t → u = t)
    (hm : ∀ pre post, sched = pre ++ post → ((GState.init items len next).run args word f pre).n.cur = 0) (v : VariantID)
    (hd : ((GState.init items len next).run args word f sched).pc t = .done v) :
    let s := (GState.init items len next).run args word f sched
    s.n.heap s.n.cur (word t) = { items (word t) with variants := f t (items (word t)).variants } := by
  intro s
  obtain ⟨-, h, -⟩ := C93_exact items len next hlen args word f sched t h0 h1 hu
  obtain ⟨h2, -, h3⟩ := h v hd
  rw [← h2]
  refine h3 ?_
  rintro ⟨pre, e, post, he, hne, -⟩
  refine hne ?_
  rw [← GState.run_snoc, hm pre (e :: post) he, hm (pre ++ [e]) post (by rw [he]; simp)]

/-- With room for the nodes of all goroutines (at most `T` nodes are created) no reading is lost, in whatever schedule. -/
theorem C93_room_partial (items : Nat → Item) (len next T : Nat) (hroom : next + T ≤ len) (args : Nat → ID × Rune)
    (word : Nat → Nat) (f : Nat → VariantID → VariantID) (sched : List GEv) (hT : ∀ t b, GEv.add t b ∈ sched → t < T) (t : Nat)
    (h0 : 0 < word t) (h1 : word t < next) (hu : ∀ u, word u = word t → u = t) (v : VariantID)
    (hd : ((GState.init items len next).run args word f sched).pc t = .done v) :
    let s := (GState.init items len next).run args word f sched
    s.n.heap s.n.cur (word t) = { items (word t) with variants := f t (items (word t)).variants } :=
  C93_partial items len next (by omega) args word f sched t h0 h1 hu (fun pre post he =>
    GState.stays hroom pre (fun u b hb => hT u b (by rw [he]; exact List.mem_append_left _ hb)) _
      (NInv.init items (by omega)) (fun _ _ => rfl) rfl rfl) v hd

/-! ## A lost reading -/

/-- The tag "NOUN" and the word "abcdefg": seven nodes, for which there is just room. -/
def sevenNodes : List Op := [.tagID [78, 79, 85, 78] [], .addRunes [97, 98, 99, 100, 101, 102, 103]]

/-- The word is tagged; meanwhile another goroutine adds a letter to it. -/
def tagOvertaken : List GEv := List.replicate 3 (.tag 0) ++ List.replicate 20 (.add 0 false) ++ [.tag 0]

set_option maxRecDepth 8000 in
/-- One goroutine calls `AddTagSet` for the word "abcdefg", another one adds the node for "abcdefgh". Both calls succeed. In the
index they leave, the word has no reading, though it is counted; without the other goroutine it has "NOUN". -/
theorem not_C93 :
    let ix := execAll sevenNodes
    let tagged := (ix.addTagSet 7 [[78, 79, 85, 78]]).1
    let s := ix.nodesShared.run (fun _ => (7, 104)) (fun _ => 7) (fun _ _ => ix.stores 7 [[78, 79, 85, 78]]) tagOvertaken
    Run sevenNodes ix ∧ (ix.addTagSet 7 [[78, 79, 85, 78]]).2 = .ok () ∧
    tagged.tagSetsOf 7 = .ok [[newTag emptyTagName [78, 79, 85, 78]]] ∧
    s.pc 0 = .done (ix.stores 7 [[78, 79, 85, 78]]) ∧ s.n.pc 0 = .done 8 { parent := 7, id := 8, letter := 104, variants := 0 } ∧
    (s.index tagged).tagSetsOf 7 = .ok [] ∧ (s.index tagged).word 8 = .ok [97, 98, 99, 100, 101, 102, 103, 104] ∧
    (s.index tagged).wordsCount = 1 := by
  refine ⟨small_runs _ (by decide), by decide, by decide, by decide, by decide, by decide, by decide, by decide⟩

/-- `C93_exact` applies to it: the tagging is overtaken. -/
example : Overtaken (fun _ => (7, 104)) (fun t => if t = 0 then 7 else 0) (fun _ _ => 65536)
    (GState.init (fun _ => zeroItem) 8 8) tagOvertaken 0 :=
  ⟨List.replicate 3 (.tag 0) ++ List.replicate 2 (.add 0 false), .add 0 false, List.replicate 17 (.add 0 false) ++ [.tag 0],
    by decide, by decide, by exact trivial⟩

/-- `C93_partial` applies to the same schedule with room, as `C93_room_partial` says. -/
example : ((GState.init (fun _ => zeroItem) 9 8).run (fun _ => (7, 104)) (fun t => if t = 0 then 7 else 0) (fun _ _ => 65536)
      tagOvertaken).pc 0 = .done 65536 ∧
    ∀ k, k ≤ 24 → ((GState.init (fun _ => zeroItem) 9 8).run (fun _ => (7, 104)) (fun t => if t = 0 then 7 else 0)
      (fun _ _ => 65536) (tagOvertaken.take k)).n.cur = 0 := by
  decide

end Verif
