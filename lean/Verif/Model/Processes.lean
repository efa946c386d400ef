import Verif.Model.Go

/-!
# Model of several processes that use one index file

`SaveIndex` and `LoadIndex` (pkg/opencorpora/loader.go:238-307) of several processes, call by call. A file that is
created although it exists is emptied; a file that is removed goes on to exist for those that have it open; every process
writes and reads where it got to. Bytes are written and read one at a time: what a call does with several bytes is a
series of such steps with no other step between them. `LoadIndex` may stop reading before the end of the file; here it
reads on, which changes nothing, since what a successful load returns depends only on the bytes it has used (C20).
-/

namespace Verif

/-- The name `opencorpora.dat` and the files on the disk, with those that have no name any more. For
pkg/opencorpora/loader.go:244, 277, 291. -/
structure SharedDisk where
  link : Option Nat
  data : Nat → Str
  next : Nat

/-- A byte written at a position: after a gap the bytes between are zero. For pkg/opencorpora/loader.go:302. -/
def pokeByte (d : Str) (pos : Nat) (b : UInt8) : Str :=
  d.take pos ++ List.replicate (pos - d.length) 0 ++ b :: d.drop (pos + 1)

/-- What a process is for: `SaveIndex` with these bytes, or `LoadIndex` — pkg/opencorpora/loader.go:238, 272 -/
inductive FileJob where
  | save (content : Str)
  | load
  deriving DecidableEq, Repr

/-- How far a process has got. For pkg/opencorpora/loader.go:238-307. -/
inductive FileProc where
  | idle
  /-- the file is open, so many bytes are written -/
  | saving (file pos : Nat)
  /-- writing failed, the file is not yet removed — pkg/opencorpora/loader.go:291 -/
  | removing
  | saved
  | notSaved
  /-- the file is open, these bytes were read -/
  | reading (file : Nat) (got : Str)
  /-- all that is read -/
  | read (got : Str)
  /-- the file could not be opened — pkg/opencorpora/loader.go:245 -/
  | noFile
  | dead
  deriving DecidableEq, Repr

/-- The disk and the processes. For pkg/opencorpora/loader.go:238-307. -/
structure Shared where
  disk : SharedDisk
  proc : Nat → FileProc

/-- Process `i` is now there. For pkg/opencorpora/loader.go:238-307. -/
def Shared.goto (s : Shared) (i : Nat) (p : FileProc) : Shared :=
  { s with proc := fun j => if j = i then p else s.proc j }

/-- The file `k` now has these bytes. For pkg/opencorpora/loader.go:277, 302. -/
def Shared.write (s : Shared) (k : Nat) (d : Str) : Shared :=
  { s with disk := { s.disk with data := fun j => if j = k then d else s.disk.data j } }

/-- `binutils.CreateFile`: the file with the name is emptied, or there is a new one — pkg/opencorpora/loader.go:277 -/
def Shared.create (s : Shared) (i : Nat) : Shared :=
  match s.disk.link with
  | some k => (s.write k []).goto i (.saving k 0)
  | none =>
    ({ s with disk := { s.disk with link := some s.disk.next, next := s.disk.next + 1 } }.write s.disk.next []).goto i
      (.saving s.disk.next 0)

/-- The next call of process `i` — pkg/opencorpora/loader.go:238-307 -/
def Shared.step (job : FileJob) (s : Shared) (i : Nat) : Shared :=
  match s.proc i, job with
  | .idle, .save _ => s.create i
  | .idle, .load =>
    match s.disk.link with
    | some k => s.goto i (.reading k [])
    | none => s.goto i .noFile
  | .saving k pos, .save c =>
    match c[pos]? with
    | some b => (s.write k (pokeByte (s.disk.data k) pos b)).goto i (.saving k (pos + 1))
    | none => s.goto i .saved
  | .reading k got, _ =>
    match (s.disk.data k)[got.length]? with
    | some b => s.goto i (.reading k (got ++ [b]))
    | none => s.goto i (.read got)
  | .removing, _ => { s with disk := { s.disk with link := none } }.goto i .notSaved
  | _, _ => s

/-- The call of process `i` fails. A read that fails looks like the end of the file — pkg/opencorpora/loader.go:244-307
-/
def Shared.fail (job : FileJob) (s : Shared) (i : Nat) : Shared :=
  match s.proc i, job with
  | .idle, .save _ => s.goto i .notSaved
  | .idle, .load => s.goto i .noFile
  | .saving _ _, _ => s.goto i .removing
  | .removing, _ => s.goto i .notSaved
  | .reading _ got, _ => s.goto i (.read got)
  | _, _ => s

/-- What happens next. For pkg/opencorpora/loader.go:238-307. -/
inductive FileEv where
  | step (i : Nat)
  | fail (i : Nat)
  | die (i : Nat)
  deriving DecidableEq, Repr

/-- One event. For pkg/opencorpora/loader.go:238-307. -/
def Shared.next (jobs : Nat → FileJob) (s : Shared) : FileEv → Shared
  | .step i => s.step (jobs i) i
  | .fail i => s.fail (jobs i) i
  | .die i => s.goto i .dead

/-- A schedule. For pkg/opencorpora/loader.go:238-307. -/
def Shared.run (jobs : Nat → FileJob) (s : Shared) (sched : List FileEv) : Shared :=
  sched.foldl (Shared.next jobs) s

/-- No process has begun; the index file has these bytes (`none`: there is no file). For
pkg/opencorpora/loader.go:238-307. -/
def Shared.start : Option Str → Shared
  | some d => ⟨⟨some 0, fun _ => d, 1⟩, fun _ => .idle⟩
  | none => ⟨⟨none, fun _ => [], 0⟩, fun _ => .idle⟩

/-- The bytes of the index file. For pkg/opencorpora/loader.go:244. -/
def Shared.file (s : Shared) : Option Str := s.disk.link.map s.disk.data

end Verif
