import Verif.Model.UpdateLog
import Verif.Model.Paths
import Verif.Model.Texts

/-!
# Model of the texts of the loader's messages, as bytes

`fmt` is taken to format as documented; how the logger decorates a message is not part of this. What comes from elsewhere
— the texts of errors, of times and of headers — is given for each message.
-/

namespace Verif

/-- The paths of the loader's files, as shown in messages — pkg/opencorpora/loader.go:52-69 -/
def FName.shown (dataPath : Str) : FName → Str
  | .archive => loaderFilePath dataPath .downloaded
  | .xml => loaderFilePath dataPath .unpacked
  | .compiled => loaderFilePath dataPath .compiled

/-- Where the dictionary is downloaded from — pkg/opencorpora/const.go:5 -/
def remoteURL : Str := str "http://opencorpora.org/files/export/dict/dict.opcorpora.xml.bz2"

/-- The text of a message — pkg/opencorpora/loader.go:73-390. `x` is what the message shows of an error, of a time or of the
header `Last-Modified`. (`checkExists .compiled` does not occur.) -/
def LogLine.text (dataPath x : Str) : LogLine → Str
  | .checkUpdates => str "check OpenCorpora updates"
  | .checkRequired => str "check if update required"
  | .checkFile f => str "check file " ++ f.shown dataPath
  | .noArchive => str "file not exists, update required: " ++ FName.archive.shown dataPath
  | .checkRemote => str "check remote " ++ remoteURL
  | .remoteError => str "remote " ++ (remoteURL ++ (str ": error: " ++ x))
  | .remoteStatus status => str "remote " ++ (remoteURL ++ (str ": status: " ++ itoa status))
  | .remoteTime _ => str "remote " ++ (str "Last-Modified" ++ (str ": [" ++ (x ++ str "]")))
  | .remoteNoTime => str "remote " ++ (str "Last-Modified" ++ str ": missed, assume no update required")
  | .checkExists .archive => str "check if downloaded file exists"
  | .checkExists .xml => str "check if unpacked file exists"
  | .checkExists .compiled => str "check if compiled file exists"
  | .fileMissing f => str "file not exists at " ++ f.shown dataPath
  | .fileAccess f => str "file access: " ++ (f.shown dataPath ++ (str ": " ++ x))
  | .fileFound f _ size => str "exists: " ++ (f.shown dataPath ++ (str ": modified " ++ (x ++ (str ": size " ++ itoa size))))
  | .recompileUnpacked => str "check update: " ++ (x ++ str ", force recompile using previous unpacked file")
  | .recompileDownloaded => str "check update: " ++ (x ++ str ", force recompile using previous downloaded file")
  | .checkFailed => str "check update: " ++ x
  | .upToDate => str "lemmata up to date"
  | .recompile => str "do recompile as force update required"
  | .downloading => str "update required, downloading"
  | .downloadFailed => str "download: " ++ x
  | .notUpdated => str "files not updated, no errors"
  | .downloaded => str "downloaded, unpacking"
  | .unpackFailed => str "unpack: " ++ x
  | .unpacked => str "lemmata updated, compile"
  | .startParse => str "start parse"
  | .saveStart => str "save compiled index"
  | .indexed words nodes => str "indexed " ++ (itoa words ++ (str " words " ++ (itoa nodes ++ str " nodes")))
  | .optimizing => str "optimize index"
  | .saving => str "saving index"
  | .finishing => str "finishing " ++ FName.compiled.shown dataPath
  | .closeIndex => str "close index: " ++ x
  | .saveError => str "opencorpora: save index: " ++ x
  | .removeError => str "remove incomplete index: " ++ x
  | .saved => str "compiled index saved at " ++ FName.compiled.shown dataPath
  | .compileFailed => str "compile: " ++ x
  | .opening => str "opening " ++ FName.compiled.shown dataPath
  | .createInstance => str "create index instance"
  | .loadData => str "load index data"
  | .loadFinished => str "loading finished " ++ FName.compiled.shown dataPath
  | .loadError => str "opencorpora: read index: " ++ x
  | .loaded => str "compiled index loaded from " ++ FName.compiled.shown dataPath

/-- A message as it is given to the logger: its level and its text — pkg/opencorpora/loader.go:73-390 -/
def LogLine.bytes (dataPath : Str) (m : LogLine × Str) : LogLevel × Str := (m.1.level, m.1.text dataPath m.2)

/-- The error of a failed check — pkg/opencorpora/loader.go:133-142: what `http.Head` returned, shown in the message about
it, or the status of the answer -/
def checkError (m : LogLine × Str) : Option Str :=
  match m.1 with
  | .remoteError => some m.2
  | .remoteStatus status => some (str "unexpected response code " ++ itoa status)
  | _ => none

end Verif
