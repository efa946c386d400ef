import Verif.Model.UpdateLog
import Verif.Model.ParserLog
import Verif.Model.OptimizeTold

/-!
# What an update logs, by all of its loggers

The loader, the parser and `Optimize` log with loggers of their own (pkg/opencorpora/loader.go:35, parser.go:67,
internal/index/idx.go:489), but into one log; each line carries the name of its logger. Here is that log, in order. As in
`Model/ParserLog.lean` the speed reports of the parser are left out. `Optimize` is taken to end as `Index.optimize` says; on
every index made by calls within capacity the messages make no difference to that (C121).
-/

namespace Verif

/-- A line in the log: the logger and the message — pkg/opencorpora/loader.go:35, parser.go:67, internal/index/idx.go:489 -/
inductive WholeLine where
  /-- logged by "loader" -/
  | loader (l : LogLine)
  /-- logged by "parser" -/
  | parser (l : ParseLine)
  /-- logged by "optimize" -/
  | optimize (l : OptLine)
  deriving DecidableEq, Repr

/-- The log while `SaveIndex` runs — pkg/opencorpora/loader.go:272-307; see `saveLog`. -/
def saveWhole (env : Env) (ix : Index) (w : World) : List WholeLine :=
  .loader .saveStart ::
  match createFile env .compiled w with
  | (false, _) => []
  | (true, w1) =>
    .loader (.indexed ix.wordsCount ix.nodesCount) :: .loader .optimizing :: (ix.optimizeTold.1.map .optimize ++
    match ix.optimize with
    | (ix', .ok ()) =>
      let taken := accepted (env.room w1.n) ix'.save.bytes
      .loader .saving :: .loader .finishing ::
      if ix'.save.err ≠ none ∨ (taken ≠ ix'.save.bytes ∧ env.late w1.n = false) then
        .loader .closeIndex :: .loader .saveError :: if env.removeErr (w1.n + 1) then [.loader .removeError] else []
      else [.loader .saved]
    | (_, _) => [.loader .finishing, .loader .saved])

/-- The log while `ParseUpdate` runs — pkg/opencorpora/loader.go:309-328; see `parseLog`. -/
def parseWhole (env : Env) (w : World) : List WholeLine :=
  .loader .startParse ::
  match openFile env .xml w with
  | (none, _) => []
  | (some (bytes, whole), w1) =>
    (PState.runLog env.floatOK (PState.init Index.new 0) (env.tokens bytes).1).map .parser ++
    match (PState.init Index.new 0).run env.floatOK (env.tokens bytes).1 with
    | (s, e) =>
      if e = some .controlledStop ∨ (e = none ∧ whole = true ∧ (env.tokens bytes).2 = true) then saveWhole env s.ix w1
      else []

/-- The log of `Update` from the label `compile` on — pkg/opencorpora/loader.go:386-392 -/
def compileWhole (env : Env) (w : World) : List WholeLine :=
  parseWhole env w ++
  match parseUpdate env w with
  | (.ok (), _) => []
  | (_, _) => [.loader .compileFailed]

/-- The log of `Update` from the label `unpack` on — pkg/opencorpora/loader.go:375-384 -/
def unpackWhole (cfg : LoaderCfg) (env : Env) (w : World) : List WholeLine :=
  match unpackUpdate cfg env w with
  | (.ok (), w1) => .loader .unpacked :: compileWhole env (w1.note (.unpacked true))
  | (_, _) => [.loader .unpackFailed]

/-- The log of `Update` from the download on — pkg/opencorpora/loader.go:364-374 -/
def downloadWhole (cfg : LoaderCfg) (env : Env) (w : World) : List WholeLine :=
  (requiredLog env w).map .loader ++
  match downloadUpdate cfg env w with
  | (.ok true, w1) => .loader .downloaded :: unpackWhole cfg env (w1.note (.downloaded true))
  | (.ok false, _) => [.loader .notUpdated]
  | (.err, _) => [.loader .downloadFailed]
  | (.panic, _) => []

/-- The log of `Update` — pkg/opencorpora/loader.go:330-393; see `updateLog`. -/
def updateWhole (cfg : LoaderCfg) (env : Env) (force : Bool) (w : World) : List WholeLine :=
  .loader .checkUpdates :: ((requiredLog env w).map .loader ++
  match isUpdateRequired env w with
  | (.panic, _) => []
  | (check, w1) =>
    match fileExists env .archive w1 with
    | (downloaded, w2) =>
      match fileExists env .xml w2 with
      | (unpacked, w3) =>
        let c := match check with | .ok b => some b | _ => none
        (existsLog env .archive w1 ++ existsLog env .xml w2 ++ decideLog c force downloaded unpacked).map .loader ++
        match decideUpdate c force downloaded unpacked with
        | .compile => compileWhole env w3
        | .unpack => unpackWhole cfg env w3
        | .download => downloadWhole cfg env w3
        | .ret _ => [])

end Verif
