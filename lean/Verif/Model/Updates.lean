import Verif.Model.Loader
import Verif.Model.Processes

/-!
# Model of several processes that run `Update` at the same time

`Update` (pkg/opencorpora/loader.go:330-393) of several processes with one data directory, call by call. The archive that
the server offers does not change meanwhile, and the clocks are right: an archive that one of the processes has created
counts as up to date, one that was there before does not. As in `Model/Processes.lean`, a file that is created although it
exists is emptied, and bytes are written and read one at a time. Unpacking is a stream: what the bytes read so far unpack
to can be written while the rest is not yet read. The parser may give up before the end of the text; here it reads on and
gives up then. Not modelled here: an error that shows only when a file is closed (C57), the directory (C60), the HTTP
status (C59).
-/

namespace Verif

/-- The three names, the files on the disk, and whether the archive is one that these processes have created. For
pkg/opencorpora/loader.go:121-328. -/
structure UpdDisk where
  link : FName → Option Nat
  data : Nat → Str
  next : Nat
  fresh : Bool

/-- How far a process has got. For pkg/opencorpora/loader.go:161-393. -/
inductive UpdProc where
  /-- before the check of `Update` — pkg/opencorpora/loader.go:335 -/
  | start
  /-- before the check of `DownloadUpdate` — pkg/opencorpora/loader.go:162 -/
  | toDownload
  /-- before `os.Create` of the archive — pkg/opencorpora/loader.go:188 -/
  | toCreate
  | downloading (file pos : Nat)
  /-- before `os.Open` of the archive — pkg/opencorpora/loader.go:217 -/
  | toOpen
  /-- before `os.Create` of the text — pkg/opencorpora/loader.go:225 -/
  | opened (src : Nat)
  /-- the bytes of the archive read, whether they are all, and how much of the text is written —
  pkg/opencorpora/loader.go:231 -/
  | unpacking (src : Nat) (got : Str) (eof : Bool) (dst pos : Nat)
  /-- before `libxml.ParseXMLFile` opens the text — pkg/opencorpora/loader.go:322 -/
  | toParse
  | parsing (file : Nat) (got : Str)
  /-- before `binutils.CreateFile` of the index, which will have these bytes; `ok`: it can be written completely —
  pkg/opencorpora/loader.go:277 -/
  | toSave (bytes : Str) (ok : Bool)
  | saving (file pos : Nat) (bytes : Str) (ok : Bool)
  /-- before `os.Remove` of the index — pkg/opencorpora/loader.go:290 -/
  | removing
  /-- nil, the index is saved -/
  | done
  /-- nil, nothing had to be done — pkg/opencorpora/loader.go:357, 371 -/
  | upToDate
  | failed
  | dead
  deriving DecidableEq, Repr

/-- The disk and the processes. For pkg/opencorpora/loader.go:161-393. -/
structure UpdState where
  disk : UpdDisk
  proc : Nat → UpdProc

/-- The index that compiling a text yields: its bytes, and whether all of it can be written; `none`: the text is refused —
pkg/opencorpora/loader.go:311-325, 300-302 -/
def compileText (env : Env) (text : Str) : Option (Str × Bool) :=
  match (PState.init Index.new 0).run env.floatOK (env.tokens text).1 with
  | (s, e) =>
    if e = some .controlledStop ∨ e = none ∧ (env.tokens text).2 = true then
      some (s.ix.optimize.1.save.bytes, decide (s.ix.optimize.2 = .ok () ∧ s.ix.optimize.1.save.err = none))
    else none

/-- What the processes have in common: the bytes the server sends, the decoders, and who was told to recompile. For
pkg/opencorpora/loader.go:176, 223, 322, 330. -/
structure UpdCfg where
  env : Env
  body : Str
  force : Nat → Bool

/-- Process `i` is now there. For pkg/opencorpora/loader.go:161-393. -/
def UpdState.goto (s : UpdState) (i : Nat) (p : UpdProc) : UpdState :=
  { s with proc := fun j => if j = i then p else s.proc j }

/-- The file `k` now has these bytes. For pkg/opencorpora/loader.go:188, 199, 225, 231, 277, 302. -/
def UpdDisk.write (d : UpdDisk) (k : Nat) (bytes : Str) : UpdDisk :=
  { d with data := fun j => if j = k then bytes else d.data j }

/-- The number of the file that `os.Create` gives. For pkg/opencorpora/loader.go:188, 225, 277. -/
def UpdDisk.created (d : UpdDisk) (f : FName) : Nat := (d.link f).getD d.next

/-- `os.Create`, `binutils.CreateFile`: the file with the name is emptied, or there is a new one. Used at
pkg/opencorpora/loader.go:188, 225, 277. -/
def UpdDisk.create (d : UpdDisk) (f : FName) : UpdDisk :=
  { ({ d with
       link := fun g => if g = f then some (d.created f) else d.link g
       next := if (d.link f).isSome then d.next else d.next + 1 }).write (d.created f) [] with
    fresh := if f = .archive then true else d.fresh }

/-- `IsUpdateRequired`: there is no archive, or it is older than that of the server — pkg/opencorpora/loader.go:121-159 -/
def UpdDisk.needed (d : UpdDisk) : Bool := d.link .archive = none || !d.fresh

/-- One more byte of the archive is read, or its end is seen — pkg/opencorpora/loader.go:231 -/
def UpdState.ahead (s : UpdState) (i : Nat) : UpdState :=
  match s.proc i with
  | .unpacking src got false dst pos =>
    match (s.disk.data src)[got.length]? with
    | some b => s.goto i (.unpacking src (got ++ [b]) false dst pos)
    | none => s.goto i (.unpacking src got true dst pos)
  | _ => s

/-- The next call of process `i` — pkg/opencorpora/loader.go:161-393 -/
def UpdState.step (cfg : UpdCfg) (s : UpdState) (i : Nat) : UpdState :=
  match s.proc i with
  | .start =>
    if s.disk.needed then s.goto i .toDownload
    else if cfg.force i then s.goto i .toParse
    else s.goto i .upToDate
  | .toDownload => if s.disk.needed then s.goto i .toCreate else s.goto i .upToDate
  | .toCreate => { s with disk := s.disk.create .archive }.goto i (.downloading (s.disk.created .archive) 0)
  | .downloading k pos =>
    match cfg.body[pos]? with
    | some b => { s with disk := s.disk.write k (pokeByte (s.disk.data k) pos b) }.goto i (.downloading k (pos + 1))
    | none => s.goto i .toOpen
  | .toOpen =>
    match s.disk.link .archive with
    | some k => s.goto i (.opened k)
    | none => s.goto i .failed
  | .opened src => { s with disk := s.disk.create .xml }.goto i (.unpacking src [] false (s.disk.created .xml) 0)
  | .unpacking src got eof dst pos =>
    match (cfg.env.bunzip got).1[pos]? with
    | some b =>
      { s with disk := s.disk.write dst (pokeByte (s.disk.data dst) pos b) }.goto i (.unpacking src got eof dst (pos + 1))
    | none =>
      if eof then (if (cfg.env.bunzip got).2 then s.goto i .toParse else s.goto i .failed)
      else s.ahead i
  | .toParse =>
    match s.disk.link .xml with
    | some k => s.goto i (.parsing k [])
    | none => s.goto i .failed
  | .parsing k got =>
    match (s.disk.data k)[got.length]? with
    | some b => s.goto i (.parsing k (got ++ [b]))
    | none =>
      match compileText cfg.env got with
      | some (bytes, ok) => s.goto i (.toSave bytes ok)
      | none => s.goto i .failed
  | .toSave bytes ok => { s with disk := s.disk.create .compiled }.goto i (.saving (s.disk.created .compiled) 0 bytes ok)
  | .saving k pos bytes ok =>
    match bytes[pos]? with
    | some b => { s with disk := s.disk.write k (pokeByte (s.disk.data k) pos b) }.goto i (.saving k (pos + 1) bytes ok)
    | none => if ok then s.goto i .done else s.goto i .removing
  | .removing =>
    { s with disk := { s.disk with link := fun g => if g = FName.compiled then none else s.disk.link g } }.goto i .failed
  | _ => s

/-- The call of process `i` fails. If it is the check, a process told to recompile goes on with what there is —
pkg/opencorpora/loader.go:161-393 -/
def UpdState.fail (cfg : UpdCfg) (s : UpdState) (i : Nat) : UpdState :=
  match s.proc i with
  | .start =>
    if cfg.force i && (s.disk.link .xml).isSome then s.goto i .toParse
    else if cfg.force i && (s.disk.link .archive).isSome then s.goto i .toOpen
    else s.goto i .failed
  | .saving _ _ _ _ => s.goto i .removing
  | .done => s
  | .upToDate => s
  | .dead => s
  | _ => s.goto i .failed

/-- What happens next. For pkg/opencorpora/loader.go:161-393. -/
inductive UpdEv where
  | step (i : Nat)
  /-- the archive is read ahead of what is written -/
  | ahead (i : Nat)
  | fail (i : Nat)
  | die (i : Nat)
  deriving DecidableEq, Repr

/-- One event. For pkg/opencorpora/loader.go:161-393. -/
def UpdState.next (cfg : UpdCfg) (s : UpdState) : UpdEv → UpdState
  | .step i => s.step cfg i
  | .ahead i => s.ahead i
  | .fail i => s.fail cfg i
  | .die i => s.goto i .dead

/-- A schedule. For pkg/opencorpora/loader.go:161-393. -/
def UpdState.run (cfg : UpdCfg) (s : UpdState) (sched : List UpdEv) : UpdState := sched.foldl (UpdState.next cfg) s

/-- Where the files that are there at first are. For pkg/opencorpora/loader.go:57-69. -/
def FName.number : FName → Nat
  | .archive => 0
  | .xml => 1
  | .compiled => 2

/-- No process has begun; the files that are there are older than the archive of the server. For
pkg/opencorpora/loader.go:121-393. -/
def UpdState.start (files : FName → Option Str) : UpdState :=
  { disk :=
      { link := fun f => (files f).map fun _ => f.number
        data := fun k => ((if k = 0 then files .archive else if k = 1 then files .xml else files .compiled).getD [])
        next := 3
        fresh := false }
    proc := fun _ => .start }

/-- The bytes of a file, by name. For pkg/opencorpora/loader.go:57-69. -/
def UpdState.file (s : UpdState) (f : FName) : Option Str := (s.disk.link f).map s.disk.data

end Verif
