import Verif.Model.UpdateText

/-!
# Words for reading the loader's log as bytes
-/

namespace Verif

/-- The message shows a text from elsewhere. -/
def LogLine.shows : LogLine → Bool
  | .remoteError | .remoteTime _ | .fileAccess _ | .fileFound _ _ _ | .recompileUnpacked | .recompileDownloaded
  | .checkFailed | .downloadFailed | .unpackFailed | .closeIndex | .saveError | .removeError | .compileFailed
  | .loadError => true
  | _ => false

/-- A message without its times: those are shown only as formatted elsewhere, that is, by the text it shows. -/
def LogLine.timeless : LogLine → LogLine
  | .fileFound f _ size => .fileFound f 0 size
  | .remoteTime _ => .remoteTime .absent
  | l => l

/-- What of a message its text can say: the message without its times, and the text it shows if it shows one. -/
def LogLine.readable (m : LogLine × Str) : LogLine × Str := (m.1.timeless, if m.1.shows then m.2 else [])

/-- The messages of the levels that the logger lets through. -/
def heard (keep : LogLevel → Bool) (A : List (LogLine × Str)) : List (LogLine × Str) := A.filter fun m => keep m.1.level

/-- A log of an update with its texts: the messages are those of the update, and the error shown by the message of a failed
check is that of the check (pkg/opencorpora/loader.go:335, 341-347). All other texts may be any. -/
structure UpdateTexts (cfg : LoaderCfg) (env : Env) (force : Bool) (w : World) (A : List (LogLine × Str)) : Prop where
  lines : A.map Prod.fst = updateLog cfg env force w
  error : ∀ m ∈ A, (m.1 = .recompileUnpacked ∨ m.1 = .recompileDownloaded ∨ m.1 = .checkFailed) →
    ∀ c ∈ A, ∀ e, checkError c = some e → m.2 = e

end Verif
