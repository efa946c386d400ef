import Verif.Model.Loader

/-!
# Model of what the loader logs

The messages of the loader in the order in which they are logged: `Loader` embeds a logger, pkg/opencorpora/loader.go:23-27, 34.
A message stands for the call that logs it, with the values in it that are not fixed; the texts of errors are dropped.
The messages the parser and `Optimize` log with loggers of their own are not in these lists; `Optimize`'s are modelled
in `Model/OptimizeLog.lean`, the parser's in `Model/Progress.lean`.
-/

namespace Verif

/-- The levels of messages. For pkg/opencorpora/loader.go:73-390. -/
inductive LogLevel where
  | debug
  | info
  | warn
  | error
  deriving DecidableEq, Repr

/-- The messages of the loader — pkg/opencorpora/loader.go:73-390 -/
inductive LogLine where
  /-- "check OpenCorpora updates" — pkg/opencorpora/loader.go:333 -/
  | checkUpdates
  /-- "check if update required" — pkg/opencorpora/loader.go:122 -/
  | checkRequired
  /-- "check file …" — pkg/opencorpora/loader.go:75, 100, 124 -/
  | checkFile (f : FName)
  /-- "file not exists, update required: …" — pkg/opencorpora/loader.go:127 -/
  | noArchive
  /-- "check remote …" — pkg/opencorpora/loader.go:132 -/
  | checkRemote
  /-- "remote …: error: …" — pkg/opencorpora/loader.go:135 -/
  | remoteError
  /-- "remote …: status: …" — pkg/opencorpora/loader.go:140 -/
  | remoteStatus (status : Nat)
  /-- "remote Last-Modified: …" — pkg/opencorpora/loader.go:146 -/
  | remoteTime (lm : LastMod)
  /-- "remote Last-Modified: missed, assume no update required" — pkg/opencorpora/loader.go:155 -/
  | remoteNoTime
  /-- "check if downloaded/unpacked file exists" — pkg/opencorpora/loader.go:73, 98 -/
  | checkExists (f : FName)
  /-- "file not exists at …" — pkg/opencorpora/loader.go:79, 104 -/
  | fileMissing (f : FName)
  /-- "file access: …" — pkg/opencorpora/loader.go:83, 108 -/
  | fileAccess (f : FName)
  /-- "exists: …: modified …: size …" — pkg/opencorpora/loader.go:88, 113 -/
  | fileFound (f : FName) (mtime : Int) (size : Nat)
  /-- "check update: …, force recompile using previous unpacked file" — pkg/opencorpora/loader.go:341 -/
  | recompileUnpacked
  /-- "check update: …, force recompile using previous downloaded file" — pkg/opencorpora/loader.go:344 -/
  | recompileDownloaded
  /-- "check update: …" — pkg/opencorpora/loader.go:347 -/
  | checkFailed
  /-- "lemmata up to date" — pkg/opencorpora/loader.go:350 -/
  | upToDate
  /-- "do recompile as force update required" — pkg/opencorpora/loader.go:353 -/
  | recompile
  /-- "update required, downloading" — pkg/opencorpora/loader.go:360 -/
  | downloading
  /-- "download: …" — pkg/opencorpora/loader.go:367 -/
  | downloadFailed
  /-- "files not updated, no errors" — pkg/opencorpora/loader.go:370 -/
  | notUpdated
  /-- "downloaded, unpacking" — pkg/opencorpora/loader.go:373 -/
  | downloaded
  /-- "unpack: …" — pkg/opencorpora/loader.go:380 -/
  | unpackFailed
  /-- "lemmata updated, compile" — pkg/opencorpora/loader.go:383 -/
  | unpacked
  /-- "start parse" — pkg/opencorpora/loader.go:310 -/
  | startParse
  /-- "save compiled index" — pkg/opencorpora/loader.go:275 -/
  | saveStart
  /-- "indexed … words … nodes" — pkg/opencorpora/loader.go:298 -/
  | indexed (words nodes : Nat)
  /-- "optimize index" — pkg/opencorpora/loader.go:299 -/
  | optimizing
  /-- "saving index" — pkg/opencorpora/loader.go:301 -/
  | saving
  /-- "finishing …" — pkg/opencorpora/loader.go:282 -/
  | finishing
  /-- "close index: …" — pkg/opencorpora/loader.go:251, 284 -/
  | closeIndex
  /-- the error of saving — pkg/opencorpora/loader.go:288 -/
  | saveError
  /-- "remove incomplete index: …" — pkg/opencorpora/loader.go:291 -/
  | removeError
  /-- "compiled index saved at …" — pkg/opencorpora/loader.go:294 -/
  | saved
  /-- "compile: …" — pkg/opencorpora/loader.go:388 -/
  | compileFailed
  /-- "opening …" — pkg/opencorpora/loader.go:243 -/
  | opening
  /-- "create index instance" — pkg/opencorpora/loader.go:261 -/
  | createInstance
  /-- "load index data" — pkg/opencorpora/loader.go:264 -/
  | loadData
  /-- "loading finished …" — pkg/opencorpora/loader.go:249 -/
  | loadFinished
  /-- the error of loading — pkg/opencorpora/loader.go:255 -/
  | loadError
  /-- "compiled index loaded from …" — pkg/opencorpora/loader.go:257 -/
  | loaded
  deriving DecidableEq, Repr

/-- The level at which a message is logged — pkg/opencorpora/loader.go:73-390 -/
def LogLine.level : LogLine → LogLevel
  | .checkFile _ | .noArchive | .checkRemote | .remoteTime _ | .remoteNoTime | .fileMissing _ | .fileAccess _
  | .fileFound _ _ _ | .indexed _ _ | .finishing | .opening | .createInstance | .loadData | .loadFinished => .debug
  | .checkUpdates | .checkRequired | .checkExists _ | .upToDate | .recompile | .downloading | .downloaded | .unpacked
  | .startParse | .saveStart | .optimizing | .saving | .saved | .loaded => .info
  | .remoteError | .remoteStatus _ | .notUpdated | .closeIndex | .removeError => .warn
  | .recompileUnpacked | .recompileDownloaded | .checkFailed | .downloadFailed | .unpackFailed | .saveError
  | .compileFailed | .loadError => .error

/-- What `IsUpdateRequired` logs — pkg/opencorpora/loader.go:121-159 -/
def requiredLog (env : Env) (w : World) : List LogLine :=
  .checkRequired :: .checkFile .archive ::
  match statFile env .archive w with
  | (.missing, _) => [.noArchive]
  | (_, w1) =>
    .checkRemote ::
    match env.head w1.n with
    | .fail => [.remoteError]
    | .answer status lm =>
      if status ≠ 200 then [.remoteStatus status]
      else match lm with
        | .absent => [.remoteNoTime]
        | lm => [.remoteTime lm]

/-- What `IsDownloadExists`, `IsUnpackedExists` log — pkg/opencorpora/loader.go:71-119 -/
def existsLog (env : Env) (f : FName) (w : World) : List LogLine :=
  .checkExists f :: .checkFile f ::
  match statFile env f w with
  | (.missing, _) => [.fileMissing f]
  | (.other, _) => [.fileAccess f]
  | (.found m, _) => [.fileFound f m ((w.fs.file f).elim 0 (·.data.length))]

/-- What `SaveIndex` logs — pkg/opencorpora/loader.go:272-307. A panic of `Optimize` passes the deferred function with a
nil error, so that it logs that the index was saved. -/
def saveLog (env : Env) (ix : Index) (w : World) : List LogLine :=
  .saveStart ::
  match createFile env .compiled w with
  | (false, _) => []
  | (true, w1) =>
    .indexed ix.wordsCount ix.nodesCount :: .optimizing ::
    match ix.optimize with
    | (ix', .ok ()) =>
      let taken := accepted (env.room w1.n) ix'.save.bytes
      .saving :: .finishing ::
      if ix'.save.err ≠ none ∨ (taken ≠ ix'.save.bytes ∧ env.late w1.n = false) then
        .closeIndex :: .saveError :: if env.removeErr (w1.n + 1) then [.removeError] else []
      else [.saved]
    | (_, _) => [.finishing, .saved]

/-- What `ParseUpdate` logs — pkg/opencorpora/loader.go:309-328 -/
def parseLog (env : Env) (w : World) : List LogLine :=
  .startParse ::
  match openFile env .xml w with
  | (none, _) => []
  | (some (bytes, whole), w1) =>
    match (PState.init Index.new 0).run env.floatOK (env.tokens bytes).1 with
    | (s, e) =>
      if e = some .controlledStop ∨ (e = none ∧ whole = true ∧ (env.tokens bytes).2 = true) then saveLog env s.ix w1
      else []

/-- What `Update` logs from the label `compile` on — pkg/opencorpora/loader.go:386-392 -/
def compileLog (env : Env) (w : World) : List LogLine :=
  parseLog env w ++
  match parseUpdate env w with
  | (.ok (), _) => []
  | (_, _) => [.compileFailed]

/-- What `Update` logs from the label `unpack` on — pkg/opencorpora/loader.go:375-384 -/
def unpackLog (cfg : LoaderCfg) (env : Env) (w : World) : List LogLine :=
  match unpackUpdate cfg env w with
  | (.ok (), w1) => .unpacked :: compileLog env (w1.note (.unpacked true))
  | (_, _) => [.unpackFailed]

/-- What `Update` logs from the download on — pkg/opencorpora/loader.go:364-374. A panic ends the log. -/
def downloadLog (cfg : LoaderCfg) (env : Env) (w : World) : List LogLine :=
  requiredLog env w ++
  match downloadUpdate cfg env w with
  | (.ok true, w1) => .downloaded :: unpackLog cfg env (w1.note (.downloaded true))
  | (.ok false, _) => [.notUpdated]
  | (.err, _) => [.downloadFailed]
  | (.panic, _) => []

/-- What the first `switch` of `Update` logs — pkg/opencorpora/loader.go:339-362 -/
def decideLog (check : Option Bool) (force downloaded unpacked : Bool) : List LogLine :=
  match check with
  | none =>
    if force && unpacked then [.recompileUnpacked]
    else if force && downloaded then [.recompileDownloaded]
    else [.checkFailed]
  | some false => .upToDate :: if force then [.recompile] else []
  | some true => [.downloading]

/-- What `Update` logs — pkg/opencorpora/loader.go:330-393 -/
def updateLog (cfg : LoaderCfg) (env : Env) (force : Bool) (w : World) : List LogLine :=
  .checkUpdates :: (requiredLog env w ++
  match isUpdateRequired env w with
  | (.panic, _) => []
  | (check, w1) =>
    match fileExists env .archive w1 with
    | (downloaded, w2) =>
      match fileExists env .xml w2 with
      | (unpacked, w3) =>
        let c := match check with | .ok b => some b | _ => none
        existsLog env .archive w1 ++ existsLog env .xml w2 ++ decideLog c force downloaded unpacked ++
        match decideUpdate c force downloaded unpacked with
        | .compile => compileLog env w3
        | .unpack => unpackLog cfg env w3
        | .download => downloadLog cfg env w3
        | .ret _ => [])

/-- What `LoadIndex` logs — pkg/opencorpora/loader.go:238-270. A panic passes the deferred function with a nil error. -/
def loadLog (env : Env) (w : World) : List LogLine :=
  .opening ::
  match openFile env .compiled w with
  | (none, _) => []
  | (some (bytes, _), _) =>
    .createInstance :: .loadData :: .loadFinished ::
    match Index.new.load bytes with
    | .err _ => [.closeIndex, .loadError]
    | _ => [.loaded]

end Verif
