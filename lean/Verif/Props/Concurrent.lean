import Verif.Lemmas.ConcurrentLookup
import Verif.Props.LoadSafety
import Verif.Props.Slots

/-!
# C37, C38, C39 — concurrent calls

A schedule is an arbitrary list of thread numbers; every entry is one atomic step of that thread. There is no bound
on the number of threads or steps.
-/

namespace Verif

/-! ## C37 — `NewChild` -/

/-- The call of thread `t` obtained slot `n` (it may still be storing the fields). -/
def Obtained (s : NState) (t n : Nat) : Prop := (s.pc t).owns = some n

/-- C37, the ids: start from a storage of `len` items of which `next` are in use; let any threads call `NewChild`
with any arguments, in any interleaving, with the run-time growing the storage in place or by copying as it likes.
Then no call panics, no two calls obtain the same id, and the ids obtained are exactly the consecutive ones starting
with `next`. What fails is the statement about the contents, see `not_C37`. -/
theorem C37_partial (items : Nat → Item) (len next : Nat) (hlen : next ≤ len) (args : Nat → ID × Rune)
    (sched : List (Nat × Bool)) :
    let s := (NState.init items len next).run args sched
    (∀ t, s.pc t ≠ .panicked) ∧
    (∀ t t' n, Obtained s t n → Obtained s t' n → t = t') ∧
    (∀ n, (∃ t, Obtained s t n) ↔ next ≤ n ∧ n < s.next) := by
  have h := (NInv.init items hlen).run args sched
  refine ⟨?_, h.uniq, ?_⟩
  · intro t ht
    have := h.loc t
    rw [ht] at this
    exact this
  · intro n
    exact ⟨fun ⟨t, ht⟩ => h.range t n ht, fun ⟨h1, h2⟩ => h.surj n h1 h2⟩

/-- C37, the contents, when the storage has room for all callers: with `T` threads and at least `T` free slots, in
every interleaving each finished call returned an item with its own id, parent and letter, and that item is what the
storage holds under its id. -/
theorem C37_room_partial (items : Nat → Item) (len next T : Nat) (hroom : next + T ≤ len) (args : Nat → ID × Rune)
    (sched : List (Nat × Bool)) (hT : ∀ e ∈ sched, e.1 < T) :
    let s := (NState.init items len next).run args sched
    ∀ t n it, s.pc t = .done n it →
      it = { parent := (args t).1, id := UInt32.ofNat n, letter := (args t).2, variants := 0 } ∧
      s.heap s.cur n = it := by
  have h : QInv args next T 0 len (NState.init items len next) :=
    ⟨NInv.init items (by omega), fun _ _ => rfl, rfl, rfl, fun _ => trivial⟩
  have h := h.run hroom sched hT
  intro s t n it ht
  have hv := h.vis t
  rw [ht] at hv
  obtain ⟨h1, h2⟩ := hv
  refine ⟨h1, ?_⟩
  rw [h.cur, h1]
  exact h2.all

/-- C37, the nodes that existed before: in every interleaving of any calls they stay exactly as they were, however often
the storage is moved. -/
theorem C37_keeps_partial (items : Nat → Item) (len next : Nat) (hlen : next ≤ len) (args : Nat → ID × Rune)
    (sched : List (Nat × Bool)) (i : Nat) (hi : i < next) :
    let s := (NState.init items len next).run args sched
    s.heap s.cur i = items i := by
  have key : ∀ sched (s : NState), NInv next s → (s.run args sched).heap (s.run args sched).cur i = s.heap s.cur i := by
    intro sched
    induction sched with
    | nil => intro s _; rfl
    | cons e es ih =>
      intro s h
      exact (ih _ (h.step args e.1 e.2)).trans (h.keeps args e.1 e.2 hi)
  exact key sched _ (NInv.init items hlen)

/-- C37, the contents, exactly up to the one race of `not_C37`: if at no moment the storage is copied to another place
while some call is in the middle of storing a field (it has read where the storage is and has not written yet), then
each finished call returned an item with its own id, parent and letter, and that is what the storage holds. Any number
of calls, any growth. -/
theorem C37_contents_partial (items : Nat → Item) (len next : Nat) (hlen : next ≤ len) (args : Nat → ID × Rune)
    (sched : List (Nat × Bool))
    (hc : ∀ pre e post, sched = pre ++ e :: post →
      ((NState.init items len next).run args pre).Copies e.1 e.2 →
      ∀ u k n a, ((NState.init items len next).run args pre).pc u ≠ .storing k n a) :
    let s := (NState.init items len next).run args sched
    ∀ t n it, s.pc t = .done n it →
      it = { parent := (args t).1, id := UInt32.ofNat n, letter := (args t).2, variants := 0 } ∧
      s.heap s.cur n = it := by
  have h : VInv args next (NState.init items len next) := ⟨NInv.init items hlen, fun _ => trivial⟩
  have h := h.run sched hc
  intro s t n it ht
  have hv := h.vis t
  rw [ht] at hv
  obtain ⟨h1, h2⟩ := hv
  exact ⟨h1, by rw [h1]; exact h2.all⟩

/-- In particular nothing is lost when the run-time always finds room to grow in place. -/
theorem C37_in_place_partial (items : Nat → Item) (len next : Nat) (hlen : next ≤ len) (args : Nat → ID × Rune)
    (sched : List (Nat × Bool)) (hp : ∀ e ∈ sched, e.2 = true) :
    let s := (NState.init items len next).run args sched
    ∀ t n it, s.pc t = .done n it →
      it = { parent := (args t).1, id := UInt32.ofNat n, letter := (args t).2, variants := 0 } ∧
      s.heap s.cur n = it :=
  C37_contents_partial items len next hlen args sched fun pre e post he hcp => by
    have := hp e (by rw [he]; simp)
    rw [hcp.1] at this
    cases this

/-- Six nodes below the root, as a sequential program creates them. -/
def sixNodes : List (ID × Rune) := [(0, 97), (1, 98), (2, 99), (0, 100), (4, 101), (5, 102)]

/-- Thread 0 creates the child with letter 120 of node 6, thread 1 the one with letter 121. -/
def twoCalls : Nat → ID × Rune := fun t => if t = 0 then (6, 120) else (6, 121)

/-- Thread 0 obtains its slot and reads the storage for its first store; thread 1 then obtains the next slot, for
which the storage is copied; thread 0 goes on. -/
def lostStore : List (Nat × Bool) :=
  List.replicate 6 (0, false) ++ List.replicate 14 (1, false) ++ List.replicate 8 (0, false)

/-- C37 does not hold for the contents: the four stores of `NewChild` happen after the lock is released. From a
storage with six nodes built by the code itself (8 slots, 7 in use) two concurrent calls can end with the first call
returning an item whose id is 0 instead of 7, and the storage holding the same wrong item. -/
theorem not_C37 : ∃ its ids, createAll Items.extendStep Items.new sixNodes = some (its, ids) ∧
    its.items.length = 8 ∧ its.nextID = 7 ∧
    let s := (NState.init (fun i => its.items.getD i zeroItem) its.items.length its.nextID.toNat).run twoCalls lostStore
    s.pc 0 = .done 7 { parent := 6, id := 0, letter := 120, variants := 0 } ∧
    s.pc 1 = .done 8 { parent := 6, id := 8, letter := 121, variants := 0 } ∧
    s.heap s.cur 7 = { parent := 6, id := 0, letter := 120, variants := 0 } := by
  refine ⟨_, _, rfl, by decide, by decide, by decide, by decide, by decide⟩

/-- `C37_room_partial` applies to the same two calls when only five nodes exist. -/
example : let s := (NState.init (fun _ => zeroItem) 8 6).run twoCalls lostStore
    s.pc 0 = .done 6 { parent := 6, id := 6, letter := 120, variants := 0 } ∧
    s.pc 1 = .done 7 { parent := 6, id := 7, letter := 121, variants := 0 } := by decide

/-- `C37_contents_partial` applies to two calls of which the second moves the storage between two stores of the first:
both items arrive. -/
example : let s := (NState.init (fun _ => zeroItem) 8 7).run twoCalls (List.replicate 5 (0, false) ++
      List.replicate 14 (1, false) ++ List.replicate 9 (0, false));
    s.pc 0 = .done 7 { parent := 6, id := 7, letter := 120, variants := 0 } ∧
    s.pc 1 = .done 8 { parent := 6, id := 8, letter := 121, variants := 0 } := by decide

/-! ## C38 — lookups on a loaded index -/

/-- C38: load any bytes that load, then let any number of goroutines look up any rune sequences, interleaved in any
way. No lookup ever writes to the index (so there is no data race), every lookup that finished gave the answer of the
sequential lookup, and every lookup finishes after at most `2 * length + 1` of its own steps. -/
theorem C38 {ix : Index} {file rest : Str} (h : Index.new.load file = .ok (ix, rest)) (q : Nat → List Rune)
    (sched : List Nat) :
    let s := (LState.init ix q).run sched
    s.crashed = false ∧ s.ix = ix ∧ (∀ t o, s.pc t = .done o → o = (ix.fetchRunes (q t)).2) ∧
      ∀ t, 2 * (q t).length + 1 ≤ sched.count t → s.pc t = .done (ix.fetchRunes (q t)).2 :=
  lookups_sequential (fun t => (solid_of_load h).quiet (q t) 0 (.inl rfl)) sched

/-- A file as the code writes it. -/
example : Index.new.load dangling.save.bytes = .ok (Index.loaded Index.new dangling, []) := dangling_loads

/-! ## C39 — lookups on an index under construction -/

/-- C39, the part that holds: on any index whatsoever, concurrent lookups of prefixes of stored words (lookups that
succeed) never write and give the sequential answers. -/
theorem C39_partial (ix : Index) (q : Nat → List Rune) (hq : ∀ t, ∃ id, (ix.fetchRunes (q t)).2 = .ok id)
    (sched : List Nat) :
    let s := (LState.init ix q).run sched
    s.crashed = false ∧ s.ix = ix ∧ (∀ t o, s.pc t = .done o → o = (ix.fetchRunes (q t)).2) ∧
      ∀ t, 2 * (q t).length + 1 ≤ sched.count t → s.pc t = .done (ix.fetchRunes (q t)).2 :=
  lookups_sequential (fun t => let ⟨id, h⟩ := hq t; quiet_of_found (q t) 0 id h) sched

/-- C39 in full is false: on the index that holds the one word "a", a failing lookup of "ab" writes to the index, and
two of them in parallel end in Go's fatal error for concurrent map access. -/
theorem not_C39 : ∃ ix, Run [.addRunes [97]] ix ∧
    (ix.childrenMap 1).isSome = false ∧ ((ix.fetchRunes [97, 98]).1.childrenMap 1).isSome = true ∧
    ((LState.init ix fun _ => [97, 98]).run [0, 0, 0, 0, 1, 1, 1]).crashed = true := by
  refine ⟨_, small_runs [.addRunes [97]] (by decide), by decide, by decide, by decide⟩

/-- The hypothesis of `C39_partial` on a concrete index. -/
example : ∃ ix, Run [.addRunes [97, 98]] ix ∧ (ix.fetchRunes [97]).2 = .ok 1 ∧ (ix.fetchRunes [97, 98]).2 = .ok 2 :=
  ⟨_, small_runs [.addRunes [97, 98]] (by decide), by decide, by decide⟩

end Verif
