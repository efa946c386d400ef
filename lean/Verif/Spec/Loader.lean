import Verif.Model.Loader

/-!
# Words for the properties of the loader

Nothing here refers to how the loader works: only to the disk before and after, and to the answers of later calls.
-/

namespace Verif

/-- Whatever else happens, `LoadIndex` with this disk returns an error. -/
def LoadFails (fs : FS) : Prop := ∀ env v, v.fs = fs → (loadIndex env v).1 = .err

/-- `LoadIndex` with this disk returns an error or this index. -/
def LoadsAtMost (fs : FS) (ix : Index) : Prop :=
  ∀ env v, v.fs = fs → (loadIndex env v).1 = .err ∨ (loadIndex env v).1 = .ok ix

/-- `LoadIndex` with this disk returns this index, if the file can be opened and read. -/
def LoadsTo (fs : FS) (ix : Index) : Prop :=
  ∀ env v, v.fs = fs → env.openErr v.n = false → env.readable v.n = none → (loadIndex env v).1 = .ok ix

/-- Between two worlds only the files in `S` were written, at no time another one; `l` are the states of the disk
passed on the way. -/
def Touched (S : FName → Prop) (w w' : World) : Prop :=
  ∃ l, w'.past = w.past ++ l ∧ ∀ fs ∈ l ++ [w'.fs], ∀ g, ¬ S g → fs.file g = w.fs.file g

/-- The files the steps `es` write. -/
def Writes (es : List Ev) (g : FName) : Prop :=
  match g with
  | .archive => ∃ b, Ev.downloaded b ∈ es
  | .xml => ∃ b, Ev.unpacked b ∈ es
  | .compiled => ∃ b, Ev.compiled b ∈ es

/-- The step succeeded. -/
def Ev.good : Ev → Bool
  | .downloaded ok => ok
  | .notUpdated => true
  | .unpacked ok => ok
  | .compiled ok => ok

/-- Nothing fails: no call to the operating system or the server. -/
structure Env.Calm (env : Env) : Prop where
  stat : ∀ n, env.statErr n = false
  mkdir : ∀ n, env.mkdirErr n = false
  create : ∀ n, env.createErr n = false
  opens : ∀ n, env.openErr n = false
  room : ∀ n, env.room n = none
  reads : ∀ n, env.readable n = none

end Verif
