import Verif.Model.Index

/-!
# Small-step models of concurrent calls

Threads are numbered; a schedule is a list of thread numbers (with the choices the run-time makes), each entry one
atomic step of that thread. A step that is blocked or of a finished thread changes nothing.
-/

namespace Verif

/-! ## `Items.NewChild` — internal/index/items.go:74-105 -/

/-- Where a call of `NewChild` is — internal/index/items.go:74-105 -/
inductive NPC where
  /-- before `items.mu.Lock()` — line 75 -/
  | start
  /-- lock held, before reading `NextID()` and `len(items.items)` — lines 77-78 -/
  | locked
  /-- the local variables `nextID`, `currentLen`; before the growth test — line 83 -/
  | sized (n len : Nat)
  /-- storage extended if needed, before `items.nextID += 1` — line 96 -/
  | extended (n : Nat)
  /-- before `items.mu.Unlock()` — line 97 -/
  | bumped (n : Nat)
  /-- before the `k`-th of the four stores (ID, Parent, Letter, Variants): `items.items` not yet read — lines 99-102 -/
  | store (k n : Nat)
  /-- `items.items` was read as backing array `a` and the index checked; the field not yet written -/
  | storing (k n a : Nat)
  /-- before `return items.items[nextID]` — line 104 -/
  | ret (n : Nat)
  /-- returned the item -/
  | done (n : Nat) (it : Item)
  /-- index out of range -/
  | panicked
  deriving DecidableEq, Repr

/-- The shared memory. Backing arrays live in a heap: a growing `append` copies to a fresh array, while a goroutine
that already read the old slice header still writes to the old array. Ids are unbounded numbers here (the wrap-around
at 2³² is the subject of C36). Reading the three-word slice header is taken to be atomic —
internal/index/items.go:13-17 -/
structure NState where
  heap : Nat → Nat → Item
  fresh : Nat
  cur : Nat
  len : Nat
  next : Nat
  lock : Option Nat
  pc : Nat → NPC

/-- Point update. For internal/index/items.go:74-105. -/
def upd {α : Type} (f : Nat → α) (i : Nat) (x : α) : Nat → α := fun j => if j = i then x else f j

/-- The `k`-th store of `NewChild` — internal/index/items.go:99-102 -/
def writeField (k n : Nat) (arg : ID × Rune) (it : Item) : Item :=
  match k with
  | 0 => { it with id := UInt32.ofNat n }
  | 1 => { it with parent := arg.1 }
  | 2 => { it with letter := arg.2 }
  | _ => { it with variants := 0 }

namespace NState

/-- The program counter of thread `t` becomes `p`. For internal/index/items.go:74-105. -/
def goto (s : NState) (t : Nat) (p : NPC) : NState := { s with pc := upd s.pc t p }

/-- `items.items = append(items.items, make([]Item, count)...)`: in place if the capacity allows (`inPlace`, the
run-time's choice), else into a fresh array with a copy of the first `len` items. The copy is one step —
internal/index/items.go:70-72 -/
def grow (s : NState) (count : Nat) (inPlace : Bool) : NState :=
  if inPlace then
    { s with len := s.len + count,
             heap := upd s.heap s.cur fun i => if s.len ≤ i ∧ i < s.len + count then zeroItem else s.heap s.cur i }
  else
    { s with len := s.len + count, cur := s.fresh, fresh := s.fresh + 1,
             heap := upd s.heap s.fresh fun i => if i < s.len then s.heap s.cur i else zeroItem }

/-- One step of thread `t`, called with `args t` — internal/index/items.go:74-105 -/
def step (args : Nat → ID × Rune) (s : NState) (t : Nat) (inPlace : Bool) : NState :=
  match s.pc t with
  | .start => match s.lock with
    | none => { s with lock := some t }.goto t .locked
    | some _ => s
  | .locked => s.goto t (.sized s.next s.len)
  | .sized n len =>
    if len ≤ n then (s.grow (Items.extendStep len) inPlace).goto t (.extended n) else s.goto t (.extended n)
  | .extended n => { s with next := s.next + 1 }.goto t (.bumped n)
  | .bumped n => { s with lock := none }.goto t (.store 0 n)
  | .store k n => if n < s.len then s.goto t (.storing k n s.cur) else s.goto t .panicked
  | .storing k n a =>
    { s with heap := upd s.heap a (upd (s.heap a) n (writeField k n (args t) (s.heap a n))) }.goto t
      (if k < 3 then .store (k + 1) n else .ret n)
  | .ret n => if n < s.len then s.goto t (.done n (s.heap s.cur n)) else s.goto t .panicked
  | .done _ _ => s
  | .panicked => s

/-- A whole schedule. For internal/index/items.go:74-105. -/
def run (args : Nat → ID × Rune) (s : NState) (sched : List (Nat × Bool)) : NState :=
  sched.foldl (fun s e => s.step args e.1 e.2) s

/-- Before any of the calls: a storage of `len` items of which `next` are in use, nobody holding the lock. For
internal/index/items.go:74-105. -/
def init (items : Nat → Item) (len next : Nat) : NState :=
  { heap := fun _ => items, fresh := 1, cur := 0, len := len, next := next, lock := none, pc := fun _ => .start }

end NState

/-! ## `FetchFromItem` — internal/index/idx.go:357-388 with `GetChildrenIDMap`, 314-321 -/

/-- Where a lookup is — internal/index/idx.go:314-388 -/
inductive LPC where
  /-- before `res, ok = index.childrenMap[id]` — line 317 -/
  | check (p : ID) (rs : List Rune)
  /-- the entry was missing; before the insertion — line 318 -/
  | insert (p : ID) (rs : List Rune)
  /-- inside the insertion into the Go map -/
  | inserting (p : ID) (rs : List Rune)
  /-- before reading `index.childrenMap[id]` and the letter — lines 320, 374 -/
  | look (p : ID) (rs : List Rune)
  /-- returned -/
  | done (o : Out ID)

/-- Shared state of concurrent lookups. `inserting` is the thread inside a map insertion; an access of the outer map
by another thread at that time is a data race, which Go's maps answer with the fatal error
"concurrent map read and map write" — internal/index/idx.go:314-388 -/
structure LState where
  ix : Index
  inserting : Option Nat
  crashed : Bool
  pc : Nat → LPC

namespace LState

/-- The program counter of thread `t` becomes `p`. For internal/index/idx.go:314-388. -/
def goto (s : LState) (t : Nat) (p : LPC) : LState := { s with pc := upd s.pc t p }

/-- An access of `index.childrenMap` by thread `t`: races with another thread's insertion. For
internal/index/idx.go:314-321. -/
def access (s : LState) (t : Nat) (k : LState → LState) : LState :=
  match s.inserting with
  | some t' => if t' = t then k s else { s with crashed := true }
  | none => k s

/-- `index.childrenMap[id] = make(dag.IdMap)`: a new empty map, also if another goroutine has put one there since the
test — internal/index/idx.go:318 -/
def insertMap (s : LState) (p : ID) : LState :=
  { s with inserting := none
           ix := { s.ix with childrenMap := fun a => if a = p then some fun _ => none else s.ix.childrenMap a } }

/-- One step of the lookup of thread `t` — internal/index/idx.go:314-388. Reading the map of `p` and the letter in it is
one step: with lookups only, a map once entered has the same content for ever (`AState` separates the two). -/
def step (s : LState) (t : Nat) : LState :=
  if s.crashed then s
  else match s.pc t with
  | .check _ [] => s.goto t (.done (.err .emptyRunes))
  | .check p rs => s.access t fun s =>
      s.goto t (if (s.ix.childrenMap p).isSome then .look p rs else .insert p rs)
  | .insert p rs => s.access t fun s => { s with inserting := some t }.goto t (.inserting p rs)
  | .inserting p rs => (s.insertMap p).goto t (.look p rs)
  | .look _ [] => s.goto t (.done (.err .emptyRunes))
  | .look p (r :: rest) => s.access t fun s =>
      match s.ix.getChildrenMap p r with
      | none => s.goto t (.done ((s.ix.word p).bind fun w => .err (.notFound w r)))
      | some next => if rest = [] then s.goto t (.done (s.ix.get next)) else s.goto t (.check next rest)
  | .done _ => s

/-- A whole schedule. For internal/index/idx.go:357-388. -/
def run (s : LState) (sched : List Nat) : LState := sched.foldl step s

/-- Threads about to call `FetchRunes (q t)` on `ix`. For internal/index/idx.go:357-388. -/
def init (ix : Index) (q : Nat → List Rune) : LState :=
  { ix := ix, inserting := none, crashed := false, pc := fun t => .check 0 (q t) }

end LState

end Verif
