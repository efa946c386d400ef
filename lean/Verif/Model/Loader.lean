import Verif.Model.Codec
import Verif.Model.Parser

/-!
# Model of `pkg/opencorpora/loader.go`

The loader talks to the file system, to the clock and to a web server. Their answers are an *oracle* `Env`: a value
for every call, numbered in the order the calls are made, so that a theorem that quantifies over `Env` quantifies over
every combination of failures. The state of the disk is part of the model, and every state the disk passes through is
recorded (`World.past`): these are the points at which the process may die.

Not modelled: logging, the texts of errors (there is one error), permissions, several processes (these are in
`Model/Processes.lean`), loss of written data
by a crash of the operating system (only the death of the process is considered), the time a call takes.
-/

namespace Verif

/-- The three files of the data directory — pkg/opencorpora/loader.go:26-28, 51-68 -/
inductive FName where
  /-- `dict.xml.bz2`, the downloaded archive -/
  | archive
  /-- `dict.xml`, the unpacked dictionary -/
  | xml
  /-- `opencorpora.dat`, the compiled index -/
  | compiled
  deriving DecidableEq, Repr

/-- A file: its bytes and its modification time. For pkg/opencorpora/loader.go:76, 125. -/
structure FileData where
  data : Str
  mtime : Int
  deriving DecidableEq, Repr

/-- The disk: whether the data directory exists, and the files in it. For pkg/opencorpora/loader.go:121-328. -/
structure FS where
  dir : Bool
  file : FName → Option FileData

/-- The disk with one file replaced (`none`: removed). For pkg/opencorpora/loader.go:188, 225, 277, 290. -/
def FS.put (fs : FS) (f : FName) (d : Option FileData) : FS :=
  { fs with file := fun g => if g = f then d else fs.file g }

/-- The `Last-Modified` header: missing (or without value), not a date, or a time — pkg/opencorpora/loader.go:144-155
-/
inductive LastMod where
  | absent
  | unreadable
  | time (t : Int)
  deriving DecidableEq, Repr

/-- The outcome of `http.Head` — pkg/opencorpora/loader.go:133-142 -/
inductive HeadAns where
  | fail
  | answer (status : Nat) (lm : LastMod)
  deriving DecidableEq, Repr

/-- The outcome of `http.Get`: the body as it arrives, and whether it ends normally —
pkg/opencorpora/loader.go:176-201 -/
inductive GetAns where
  | fail
  | answer (status : Nat) (body : Str) (complete : Bool)
  deriving DecidableEq, Repr

/-- The outside world: for the `n`-th call the loader makes, what the call answers. For
pkg/opencorpora/loader.go:121-393. -/
structure Env where
  /-- `os.Stat` fails for another reason than a missing file -/
  statErr : Nat → Bool
  head : Nat → HeadAns
  get : Nat → GetAns
  mkdirErr : Nat → Bool
  createErr : Nat → Bool
  openErr : Nat → Bool
  /-- how many bytes the disk takes before writing fails (`none`: all) -/
  room : Nat → Option Nat
  /-- a failed write of the index is noticed only when the file is closed -/
  late : Nat → Bool
  /-- how many bytes can be read before reading fails (`none`: all) -/
  readable : Nat → Option Nat
  removeErr : Nat → Bool
  /-- the clock of the file system -/
  now : Nat → Int
  /-- bzip2: the bytes it delivers, and whether the archive ends properly -/
  bunzip : Str → Str × Bool
  /-- the XML decoder: the tokens it delivers, and whether the text ends properly -/
  tokens : Str → List XTok × Bool
  /-- `strconv.ParseFloat` accepts the text -/
  floatOK : Str → Bool

/-- `Loader` — pkg/opencorpora/loader.go:23-50: whether it was made with the default data path. -/
structure LoaderCfg where
  standard : Bool

/-- The step of `Update` that was taken and whether it succeeded. For pkg/opencorpora/loader.go:330-393. -/
inductive Ev where
  | downloaded (ok : Bool)
  | notUpdated
  | unpacked (ok : Bool)
  | compiled (ok : Bool)
  deriving DecidableEq, Repr

/-- What the loader has done so far: the disk, the earlier states of the disk, the number of calls made, and the
steps of `Update` taken. For pkg/opencorpora/loader.go:121-393. -/
structure World where
  fs : FS
  past : List FS
  n : Nat
  ev : List Ev

/-- The outcome of a method of the loader. For pkg/opencorpora/loader.go:121-393. -/
inductive LRes (α : Type) where
  | ok (a : α)
  | err
  | panic
  deriving DecidableEq, Repr

/-- One more call to the outside. For pkg/opencorpora/loader.go:121-393. -/
def World.tick (w : World) : World := { w with n := w.n + 1 }

/-- The disk changes. For pkg/opencorpora/loader.go:121-393. -/
def World.set (w : World) (fs : FS) : World := { w with past := w.past ++ [w.fs], fs := fs }

/-- A step of `Update` is noted. For pkg/opencorpora/loader.go:363-392. -/
def World.note (w : World) (e : Ev) : World := { w with ev := w.ev ++ [e] }

/-- The disk while bytes are being written to a file: the file grows byte by byte. For pkg/opencorpora/loader.go:199,
231, 302. -/
def World.grow (w : World) (f : FName) (bytes : Str) (t : Int) : World :=
  { w with
    past := w.past ++ w.fs :: (List.range bytes.length).map (fun i => w.fs.put f (some ⟨bytes.take i, t⟩))
    fs := w.fs.put f (some ⟨bytes, t⟩) }

/-- What `os.Stat` says. For pkg/opencorpora/loader.go:125. -/
inductive StatAns where
  | missing
  | other
  | found (mtime : Int)
  deriving DecidableEq, Repr

/-- `os.Stat`. Used at pkg/opencorpora/loader.go:76, 101, 125. -/
def statFile (env : Env) (f : FName) (w : World) : StatAns × World :=
  (if env.statErr w.n then .other
   else match w.fs.file f with
    | none => .missing
    | some d => .found d.mtime, w.tick)

/-- `IsDownloadExists`, `IsUnpackedExists` — pkg/opencorpora/loader.go:71-119 -/
def fileExists (env : Env) (f : FName) (w : World) : Bool × World :=
  match statFile env f w with
  | (.found _, w') => (true, w')
  | (_, w') => (false, w')

/-- The end of `IsUpdateRequired` — pkg/opencorpora/loader.go:133-158. `fileStat` is nil if the file could not be
examined. -/
def compareTimes (s : StatAns) : HeadAns → LRes Bool
  | .fail => .err
  | .answer status lm =>
    if status ≠ 200 then .err
    else match lm with
      | .absent => .ok false
      | .unreadable => .ok true
      | .time t =>
        match s with
        | .found m => .ok (decide (m < t))
        | _ => .panic

/-- `IsUpdateRequired` — pkg/opencorpora/loader.go:121-159 -/
def isUpdateRequired (env : Env) (w : World) : LRes Bool × World :=
  match statFile env .archive w with
  | (.missing, w1) => (.ok true, w1)
  | (s, w1) => (compareTimes s (env.head w1.n), w1.tick)

/-- `common.MakeDomainDataPath` — pkg/common/utils.go:21-32: it makes the default directory, whatever data path the
loader was given. -/
def makeDataPath (cfg : LoaderCfg) (env : Env) (w : World) : Bool × World :=
  if env.mkdirErr w.n then (false, w.tick)
  else if cfg.standard then (true, (w.set { w.fs with dir := true }).tick)
  else (true, w.tick)

/-- `os.Create`, `binutils.CreateFile`: an existing file is emptied. Used at pkg/opencorpora/loader.go:188, 225, 277.
-/
def createFile (env : Env) (f : FName) (w : World) : Bool × World :=
  if env.createErr w.n ∨ w.fs.dir = false then (false, w.tick)
  else (true, (w.set (w.fs.put f (some ⟨[], env.now w.n⟩))).tick)

/-- The bytes of a source that reach the disk. For pkg/opencorpora/loader.go:199, 231, 302. -/
def accepted (room : Option Nat) (bytes : Str) : Str :=
  match room with
  | none => bytes
  | some k => bytes.take k

/-- `io.Copy` into a file just created: it fails if the source fails or the disk takes no more. Used at
pkg/opencorpora/loader.go:199, 231. -/
def copyTo (env : Env) (f : FName) (bytes : Str) (complete : Bool) (w : World) : Bool × World :=
  let taken := accepted (env.room w.n) bytes
  (complete && decide (taken = bytes), (w.grow f taken (env.now w.n)).tick)

/-- `os.Open`, `binutils.OpenFile` and reading the file: the bytes that can be read, and whether reading ends
normally. Used at pkg/opencorpora/loader.go:217, 244, 322. -/
def openFile (env : Env) (f : FName) (w : World) : Option (Str × Bool) × World :=
  if env.openErr w.n then (none, w.tick)
  else match w.fs.file f with
    | none => (none, w.tick)
    | some d =>
      let got := accepted (env.readable w.n) d.data
      (some (got, decide (got = d.data)), w.tick)

/-- `DownloadUpdate` — pkg/opencorpora/loader.go:161-204 -/
def downloadUpdate (cfg : LoaderCfg) (env : Env) (w : World) : LRes Bool × World :=
  match isUpdateRequired env w with
  | (.err, w1) => (.err, w1)
  | (.panic, w1) => (.panic, w1)
  | (.ok false, w1) => (.ok false, w1)
  | (.ok true, w1) =>
    match makeDataPath cfg env w1 with
    | (false, w2) => (.err, w2)
    | (true, w2) =>
      match env.get w2.n with
      | .fail => (.err, w2.tick)
      | .answer _ body complete =>
        match createFile env .archive w2.tick with
        | (false, w3) => (.err, w3)
        | (true, w3) =>
          match copyTo env .archive body complete w3 with
          | (false, w4) => (.err, w4)
          | (true, w4) => (.ok true, w4)

/-- `UnpackUpdate` — pkg/opencorpora/loader.go:206-236 -/
def unpackUpdate (cfg : LoaderCfg) (env : Env) (w : World) : LRes Unit × World :=
  match makeDataPath cfg env w with
  | (false, w1) => (.err, w1)
  | (true, w1) =>
    match openFile env .archive w1 with
    | (none, w2) => (.err, w2)
    | (some (bz, whole), w2) =>
      match createFile env .xml w2 with
      | (false, w3) => (.err, w3)
      | (true, w3) =>
        match copyTo env .xml (env.bunzip bz).1 (whole && (env.bunzip bz).2) w3 with
        | (false, w4) => (.err, w4)
        | (true, w4) => (.ok (), w4)

/-- `LoadIndex` — pkg/opencorpora/loader.go:238-270. A read that fails looks to `BinaryReadFrom` like the end of the
file. -/
def loadIndex (env : Env) (w : World) : LRes Index × World :=
  match openFile env .compiled w with
  | (none, w1) => (.err, w1)
  | (some (bytes, _), w1) =>
    match Index.new.load bytes with
    | .ok (ix, _) => (.ok ix, w1)
    | .err _ => (.err, w1)
    | .panic => (.panic, w1)
    | .diverge => (.panic, w1)

/-- The removal of an incomplete index — pkg/opencorpora/loader.go:291-293 -/
def removeFile (env : Env) (f : FName) (w : World) : World :=
  if env.removeErr w.n then w.tick else (w.set (w.fs.put f none)).tick

/-- `SaveIndex` — pkg/opencorpora/loader.go:272-307. The error of `Close` is looked at only to be logged, and only if
there already is another error; a panic of `Optimize` passes the deferred function with a nil error, so that the
emptied file stays. -/
def saveIndex (env : Env) (ix : Index) (w : World) : LRes Unit × World :=
  match createFile env .compiled w with
  | (false, w1) => (.err, w1)
  | (true, w1) =>
    match ix.optimize with
    | (ix', .ok ()) =>
      let taken := accepted (env.room w1.n) ix'.save.bytes
      let w2 := (w1.grow .compiled taken (env.now w1.n)).tick
      if ix'.save.err ≠ none ∨ (taken ≠ ix'.save.bytes ∧ env.late w1.n = false) then
        (.err, removeFile env .compiled w2)
      else (.ok (), w2)
    | (_, _) => (.panic, w1)

/-- `ParseUpdate` — pkg/opencorpora/loader.go:309-328: panics are recovered, a controlled stop is not an error. -/
def parseUpdate (env : Env) (w : World) : LRes Unit × World :=
  match openFile env .xml w with
  | (none, w1) => (.err, w1)
  | (some (bytes, whole), w1) =>
    match (PState.init Index.new 0).run env.floatOK (env.tokens bytes).1 with
    | (s, e) =>
      if e = some .controlledStop ∨ (e = none ∧ whole = true ∧ (env.tokens bytes).2 = true) then
        match saveIndex env s.ix w1 with
        | (.ok (), w2) => (.ok (), w2)
        | (_, w2) => (.err, w2)
      else (.err, w1)

/-- Where `Update` goes after the check — pkg/opencorpora/loader.go:339-362 -/
inductive Goto where
  | download
  | unpack
  | compile
  | ret (ok : Bool)
  deriving DecidableEq, Repr

/-- The first `switch` of `Update` — pkg/opencorpora/loader.go:339-362; `check` is the answer of `IsUpdateRequired`,
`none` for an error. -/
def decideUpdate (check : Option Bool) (force downloaded unpacked : Bool) : Goto :=
  match check with
  | none =>
    if force && unpacked then .compile
    else if force && downloaded then .unpack
    else .ret false
  | some false => if force then .compile else .ret true
  | some true => .download

/-- label `compile` of `Update` — pkg/opencorpora/loader.go:386-392 -/
def stepCompile (env : Env) (w : World) : LRes Unit × World :=
  match parseUpdate env w with
  | (.ok (), w1) => (.ok (), w1.note (.compiled true))
  | (r, w1) => (r, w1.note (.compiled false))

/-- label `unpack` of `Update` — pkg/opencorpora/loader.go:375-384 -/
def stepUnpack (cfg : LoaderCfg) (env : Env) (w : World) : LRes Unit × World :=
  match unpackUpdate cfg env w with
  | (.ok (), w1) => stepCompile env (w1.note (.unpacked true))
  | (r, w1) => (r, w1.note (.unpacked false))

/-- the download part of `Update` — pkg/opencorpora/loader.go:364-374 -/
def stepDownload (cfg : LoaderCfg) (env : Env) (w : World) : LRes Unit × World :=
  match downloadUpdate cfg env w with
  | (.ok true, w1) => stepUnpack cfg env (w1.note (.downloaded true))
  | (.ok false, w1) => (.ok (), w1.note .notUpdated)
  | (.err, w1) => (.err, w1.note (.downloaded false))
  | (.panic, w1) => (.panic, w1.note (.downloaded false))

/-- `Update` — pkg/opencorpora/loader.go:330-393 -/
def update (cfg : LoaderCfg) (env : Env) (force : Bool) (w : World) : LRes Unit × World :=
  match isUpdateRequired env w with
  | (.panic, w1) => (.panic, w1)
  | (check, w1) =>
    match fileExists env .archive w1 with
    | (downloaded, w2) =>
      match fileExists env .xml w2 with
      | (unpacked, w3) =>
        match decideUpdate (match check with | .ok b => some b | _ => none) force downloaded unpacked with
        | .compile => stepCompile env w3
        | .unpack => stepUnpack cfg env w3
        | .download => stepDownload cfg env w3
        | .ret true => (.ok (), w3)
        | .ret false => (.err, w3)

end Verif
