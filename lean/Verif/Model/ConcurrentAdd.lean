import Verif.Model.Concurrent

/-!
# Small-step model of concurrent `AddRunes` and `FetchRunes` calls

`AddToNode` (internal/index/idx.go:390-424) and `FetchFromItem` (357-388) take no lock. Their accesses of the two levels
of Go maps are separate steps here. A Go map is a reference: a goroutine that has read the map of a node keeps using that
map even if another goroutine has put a new one in its place, so the maps live in a heap. A map write takes two steps, and
an access of the same map by another goroutine in between is a data race, which Go's maps answer with a fatal error.
Creating a node (`NewChild`, which has a lock of its own) is one step: its inside is the subject of `NState`.
-/

namespace Verif

/-- The map of maps `index.childrenMap` — internal/index/idx.go:27. `ref` is the outer map: the map now in use for the
children of a node; `maps` are all inner maps ever made, numbered; `fresh` is the next number. `own` is the node a map
was made for: it is not in the code and no step reads it. -/
structure KidMaps where
  ref : ID → Option Nat
  maps : Nat → IdMap
  fresh : Nat
  own : Nat → ID

namespace KidMaps

/-- The content of the two levels of maps. For internal/index/idx.go:27. -/
def view (k : KidMaps) : ID → Option IdMap := fun p => (k.ref p).map k.maps

/-- The maps of an index before the calls: the map of node `p` has number `p`. For internal/index/idx.go:27. -/
def ofIndex (ix : Index) : KidMaps :=
  { ref := fun p => if (ix.childrenMap p).isSome then some p.toNat else none
    maps := fun m => ix.getChildrenMap (UInt32.ofNat m)
    fresh := 4294967296
    own := UInt32.ofNat }

/-- `index.childrenMap[id] = make(dag.IdMap)`: a new empty map, also if another goroutine has put one there since the
test — internal/index/idx.go:318 -/
def insert (k : KidMaps) (p : ID) : KidMaps :=
  { ref := fun a => if a = p then some k.fresh else k.ref a
    maps := upd k.maps k.fresh fun _ => none
    fresh := k.fresh + 1
    own := upd k.own k.fresh p }

/-- The letter `r` of map `m` becomes `c` — internal/index/idx.go:414 -/
def store (k : KidMaps) (m : Nat) (r : Rune) (c : ID) : KidMaps :=
  { k with maps := upd k.maps m fun a => if a = r then some c else k.maps m a }

end KidMaps

/-- Where a call of `AddRunes` or `FetchRunes` is — internal/index/idx.go:357-424 with 314-321 -/
inductive APC where
  /-- top of the loop, before the test of the parent (`AddRunes` only) and `index.childrenMap[id]` — lines 403-410, 317 -/
  | check (p : ID) (rs : List Rune)
  /-- the entry was missing; before the insertion — line 318 -/
  | insert (p : ID) (rs : List Rune)
  /-- inside the insertion into the outer map — line 318 -/
  | inserting (p : ID) (rs : List Rune)
  /-- before `return index.childrenMap[id]` — line 320 -/
  | look (p : ID) (rs : List Rune)
  /-- `childrenIDMap` is map `m`; before `childrenIDMap[letter]` — lines 374, 411 -/
  | probe (p : ID) (r : Rune) (rest : List Rune) (m : Nat)
  /-- the letter was missing; before `NewChild` — line 412 -/
  | make (p : ID) (r : Rune) (rest : List Rune)
  /-- node `c` created; before reading `index.childrenMap[currentParentID]` — line 414 -/
  | link (p : ID) (r : Rune) (rest : List Rune) (c : ID)
  /-- that was map `m`; before the write into it — line 414 -/
  | store (p : ID) (r : Rune) (rest : List Rune) (c : ID) (m : Nat)
  /-- inside that write — line 414 -/
  | storing (p : ID) (r : Rune) (rest : List Rune) (c : ID) (m : Nat)
  /-- returned -/
  | done (o : Out ID)

/-- Shared state of concurrent calls. Of `ix` all but the children maps is meant, those are `kids`. `writing` lists the
writes in progress: the thread and the map, `none` for the outer map and `some m` for the inner map `m`. `adds t` tells
whether thread `t` calls `AddRunes` or `FetchRunes` — internal/index/idx.go:357-424 -/
structure AState where
  ix : Index
  kids : KidMaps
  writing : List (Nat × Option Nat)
  crashed : Bool
  adds : Nat → Bool
  pc : Nat → APC

namespace AState

/-- The index as a call running alone would see it. For internal/index/idx.go:27. -/
def now (s : AState) : Index := { s.ix with childrenMap := s.kids.view }

/-- The program counter of thread `t` becomes `p`. For internal/index/idx.go:357-424. -/
def goto (s : AState) (t : Nat) (p : APC) : AState := { s with pc := upd s.pc t p }

/-- Is some other thread than `t` writing the map `m`? For internal/index/idx.go:357-424. -/
def busy (s : AState) (t : Nat) (m : Option Nat) : Bool := s.writing.any fun e => e.1 != t && e.2 == m

/-- Thread `t` accesses the map `m`: a data race if another thread is writing it. For internal/index/idx.go:357-424. -/
def access (s : AState) (t : Nat) (m : Option Nat) (s' : AState) : AState :=
  if s.busy t m then { s with crashed := true } else s'

/-- After the child `c` was found or created: return or go on — internal/index/idx.go:381-386, 417-422 -/
def next (s : AState) (t : Nat) (c : ID) (rest : List Rune) : AState :=
  if rest = [] then s.goto t (.done (s.ix.get c)) else s.goto t (.check c rest)

/-- The letter was not there: an addition makes a node, a lookup reports it — internal/index/idx.go:374-379, 411-412 -/
def missing (s : AState) (t : Nat) (p : ID) (r : Rune) (rest : List Rune) : AState :=
  if s.adds t then s.goto t (.make p r rest)
  else s.goto t (.done ((s.ix.word p).bind fun w => .err (.notFound w r)))

/-- One step of thread `t` — internal/index/idx.go:357-424 with 314-321. A nil inner map reads as empty, writing to it
panics (neither happens). -/
def step (s : AState) (t : Nat) : AState :=
  if s.crashed then s
  else match s.pc t with
  | .check _ [] => s.goto t (.done (.err .emptyRunes))
  | .check p (r :: rest) =>
    if s.adds t ∧ p ≠ 0 ∧ (s.ix.items.get p).isNone then s.goto t (.done (.err (.noParent 0)))
    else s.access t none
      (s.goto t (if (s.kids.ref p).isSome then .look p (r :: rest) else .insert p (r :: rest)))
  | .insert p rs => s.access t none ({ s with writing := (t, none) :: s.writing }.goto t (.inserting p rs))
  | .inserting p rs =>
    { s with writing := s.writing.erase (t, none), kids := s.kids.insert p }.goto t (.look p rs)
  | .look _ [] => s
  | .look p (r :: rest) => s.access t none (match s.kids.ref p with
    | some m => s.goto t (.probe p r rest m)
    | none => s.missing t p r rest)
  | .probe p r rest m => s.access t (some m) (match s.kids.maps m r with
    | some c => s.next t c rest
    | none => s.missing t p r rest)
  | .make p r rest => match s.ix.items.newChild p r with
    | none => s.goto t (.done .panic)
    | some (its, it) => { s with ix := { s.ix with items := its } }.goto t (.link p r rest it.id)
  | .link p r rest c => s.access t none (match s.kids.ref p with
    | some m => s.goto t (.store p r rest c m)
    | none => s.goto t (.done .panic))
  | .store p r rest c m => s.access t (some m)
      ({ s with writing := (t, some m) :: s.writing }.goto t (.storing p r rest c m))
  | .storing _ r rest c m =>
    { s with writing := s.writing.erase (t, some m), kids := s.kids.store m r c }.next t c rest
  | .done _ => s

/-- A whole schedule. For internal/index/idx.go:357-424. -/
def run (s : AState) (sched : List Nat) : AState := sched.foldl step s

/-- Threads about to call `AddRunes (q t)`, if `adds t`, or `FetchRunes (q t)` on `ix`. For
internal/index/idx.go:244-246, 259-261. -/
def start (ix : Index) (adds : Nat → Bool) (q : Nat → List Rune) : AState :=
  { ix := ix, kids := .ofIndex ix, writing := [], crashed := false, adds := adds, pc := fun t => .check 0 (q t) }

/-- Threads about to call `AddRunes (q t)` on `ix`. For internal/index/idx.go:244-246. -/
def init (ix : Index) (q : Nat → List Rune) : AState := start ix (fun _ => true) q

end AState

end Verif
