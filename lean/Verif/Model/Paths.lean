import Verif.Model.Go

/-!
# Model of the computation of paths

`path.Clean`, `path.Join`, `filepath.Abs`, `filepath.Split` and `filepath.Ext` are standard library functions; they are
modelled after their documentation, for slash-separated paths (on Windows `filepath` differs).
-/

namespace Verif

/-- The elements of a path between slashes. For pkg/common/utils.go:18, 35. -/
def splitSlash : Str → List Str
  | [] => [[]]
  | b :: s =>
    if b = 0x2f then [] :: splitSlash s
    else match splitSlash s with
      | [] => [[b]]
      | x :: xs => (b :: x) :: xs

/-- Elements joined by slashes. For pkg/common/utils.go:18, 35. -/
def joinSlash : List Str → Str
  | [] => []
  | [a] => a
  | a :: b :: l => a ++ 0x2f :: joinSlash (b :: l)

/-- The path starts with a slash. For pkg/common/utils.go:23, pkg/dag/utils.go:21. -/
def isRooted (p : Str) : Bool := p.head? = some 0x2f

/-- One element of a path in `path.Clean`; the stack holds the elements so far, the last on top. For
pkg/common/utils.go:18, 35. -/
def cleanStep (rooted : Bool) (stack : List Str) (c : Str) : List Str :=
  if c = [] ∨ c = str "." then stack
  else if c = str ".." then
    match stack with
    | [] => if rooted then [] else [c]
    | t :: r => if t = str ".." then c :: t :: r else r
  else c :: stack

/-- `path.Clean`. Used at pkg/common/utils.go:18, 35. -/
def cleanPath (p : Str) : Str :=
  let st := ((splitSlash p).foldl (cleanStep (isRooted p)) []).reverse
  if isRooted p then 0x2f :: joinSlash st
  else if st = [] then str "." else joinSlash st

/-- `path.Join` of two elements. Used at pkg/common/utils.go:18, 35, pkg/opencorpora/loader.go:53. -/
def pathJoin (a b : Str) : Str :=
  if a = [] then (if b = [] then [] else cleanPath b)
  else if b = [] then cleanPath a else cleanPath (a ++ 0x2f :: b)

/-- `common.DomainDataPath` — pkg/common/utils.go:13-19 -/
def domainDataPath (domain : Str) : Str := pathJoin (str ".data") domain

/-- `common.DomainFilePath` — pkg/common/utils.go:34-36 -/
def domainFilePath (domain file : Str) : Str := pathJoin (domainDataPath domain) file

/-- The data path of a loader made by `NewLoader`, or given to `SetDataPath` — pkg/opencorpora/loader.go:29-38, 44-50;
`DataPath` — 40-42: `path.Join` of one non-empty element cleans it. -/
def loaderDataPath (dataPath : Str) : Str :=
  cleanPath (if dataPath = [] then domainDataPath (str "opencorpora") else dataPath)

/-- The three files of a loader — pkg/opencorpora/const.go:6-8 -/
inductive LoaderFile where
  | downloaded | unpacked | compiled
  deriving DecidableEq, Repr

/-- Their names — pkg/opencorpora/const.go:6-8 -/
def LoaderFile.name : LoaderFile → Str
  | .downloaded => str "dict.xml.bz2"
  | .unpacked => str "dict.xml"
  | .compiled => str "opencorpora.dat"

/-- `downloadedFilePath`, `unpackedFilePath`, `compiledFilePath` — pkg/opencorpora/loader.go:52-69 -/
def loaderFilePath (dataPath : Str) (f : LoaderFile) : Str := pathJoin (loaderDataPath dataPath) f.name

/-- `filepath.Abs` in the working directory `cwd`, which never fails when the working directory is known. Used at
pkg/common/utils.go:23, pkg/dag/utils.go:21. -/
def absPath (cwd p : Str) : Str := if isRooted p then cleanPath p else pathJoin cwd p

/-- `filepath.Split`. Used at pkg/dag/utils.go:26. -/
def splitFile (p : Str) : Str × Str :=
  let name := (p.reverse.takeWhile (· ≠ 0x2f)).reverse
  (p.take (p.length - name.length), name)

/-- `filepath.Ext` of a name without slashes. Used at pkg/dag/utils.go:27. -/
def extOf (name : Str) : Str :=
  let t := name.reverse.takeWhile (· ≠ 0x2e)
  if t.length = name.length then [] else 0x2e :: t.reverse

/-- What `ResolveFilePath` returns: the three parts and whether there was an error. For pkg/dag/utils.go:14-40. -/
structure Resolved where
  dirname : Str
  filename : Str
  ext : Str
  failed : Bool
  deriving DecidableEq, Repr

/-- `ResolveFilePath` — pkg/dag/utils.go:14-40; `exist` says whether `os.Stat` succeeds. The name it reports is the last
element of the path, and `/` for the root. -/
def resolveFilePath (cwd : Str) (exist : Str → Bool) (p : Str) : Resolved :=
  let abs := absPath cwd p
  let s := splitFile abs
  let ext := extOf s.2
  let name := s.2.take (s.2.length - ext.length)
  let statName := if abs = [0x2f] then [0x2f] else s.2
  { dirname := s.1, filename := name, ext := ext,
    failed := if !exist abs then true else statName ≠ s.2 }

end Verif
