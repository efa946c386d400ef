import Verif.Model.Loader
import Verif.Spec.DocRoom

/-!
# Specification: what can be on the disk

Histories of the data directory: the methods of the loader are called any number of times, in any environments, and the process may
die at any moment. And where the content of a file comes from.
-/

namespace Verif

/-- A public method of the loader that writes files. -/
inductive LoaderCall where
  | download
  | unpack
  | parse
  | update (force : Bool)

/-- The world after a call. -/
def LoaderCall.exec (cfg : LoaderCfg) (env : Env) (w : World) : LoaderCall → World
  | .download => (downloadUpdate cfg env w).2
  | .unpack => (unpackUpdate cfg env w).2
  | .parse => (parseUpdate env w).2
  | .update force => (Verif.update cfg env force w).2

/-- The disk is `fs` at the end, or was so at some moment on the way. -/
def Passed (w w' : World) (fs : FS) : Prop := ∃ l, w'.past = w.past ++ l ∧ fs ∈ l ++ [w'.fs]

/-- States of the disk after any number of calls, each ended or cut short at any moment. The environments (server, disk, decoders)
are any of `E`, another one for each call. -/
inductive DiskReached (E : Env → Prop) : FS → Prop where
  | start (dir : Bool) : DiskReached E ⟨dir, fun _ => none⟩
  | call {fs fs' : FS} (cfg : LoaderCfg) (env : Env) (c : LoaderCall) (n : Nat) : DiskReached E fs → E env →
      Passed ⟨fs, [], n, []⟩ (c.exec cfg env ⟨fs, [], n, []⟩) fs' → DiskReached E fs'

/-- Bytes that are the beginning of something the server sent. -/
def Sent (E : Env → Prop) (a : Str) : Prop :=
  ∃ env n status body complete, E env ∧ env.get n = .answer status body complete ∧ a <+: body

/-- Bytes that are the beginning of what such bytes unpack to. -/
def UnpackedFrom (E : Env → Prop) (x : Str) : Prop := ∃ env a, E env ∧ Sent E a ∧ x <+: (env.bunzip a).1

/-- An index built from such a text that ends properly and is imported without error. -/
def CompiledFrom (E : Env → Prop) (ix : Index) : Prop :=
  ∃ env x s, E env ∧ UnpackedFrom E x ∧ (env.tokens x).2 = true ∧
    (PState.init Index.new 0).run env.floatOK (env.tokens x).1 = (s, none) ∧ ix = s.ix.optimize.1

/-! ## A server that offers dictionaries -/

/-- An element. -/
def Xml.isElem : Xml → Bool
  | .elem .. => true
  | _ => false

/-- One element at the top. -/
def OneRoot (doc : List Xml) : Prop := (doc.filter Xml.isElem).length = 1

instance (doc : List Xml) : Decidable (OneRoot doc) := by unfold OneRoot; infer_instance

/-- The first trees of a document, perhaps followed by a piece of text. -/
def CutOf (part doc : List Xml) : Prop := ∃ p rest, doc = p ++ rest ∧ (part = p ∨ ∃ d, part = p ++ [.text d])

/-- The decoders are the same in all environments. What a part of an archive unpacks to is a part of what the archive unpacks to. An
empty text has no tokens. If a text that is cut off is not rejected for its end, then it consists of the first trees of the
document. -/
structure Decoders (E : Env → Prop) (bunzip : Str → Str × Bool) (tokens : Str → List XTok × Bool) (floatOK : Str → Bool) : Prop where
  same : ∀ env, E env → env.bunzip = bunzip ∧ env.tokens = tokens ∧ env.floatOK = floatOK
  mono : ∀ a b, a <+: b → (bunzip a).1 <+: (bunzip b).1
  nothing : (tokens []).1 = []
  cut : ∀ x y doc, x <+: y → tokens y = (Xml.tokensAll doc, true) → (tokens x).2 = true →
    ∃ part, (tokens x).1 = Xml.tokensAll part ∧ CutOf part doc

/-- The bytes are an archive of the document, which is of the format, declares its tags and is within capacity. -/
def ArchiveOf (bunzip : Str → Str × Bool) (tokens : Str → List XTok × Bool) (floatOK : Str → Bool) (body : Str)
    (doc : List Xml) : Prop :=
  tokens (bunzip body).1 = (Xml.tokensAll doc, true) ∧ OneRoot doc ∧ Xml.ValidAll floatOK [] doc ∧ Declared (entriesOf doc) ∧
    DocRoom (entriesOf doc)

/-- The document has been offered: an answer of the server is (the beginning of) an archive of it. -/
def Offered (E : Env → Prop) (bunzip : Str → Str × Bool) (tokens : Str → List XTok × Bool) (floatOK : Str → Bool)
    (doc : List Xml) : Prop :=
  ∃ env n status body complete full, E env ∧ env.get n = .answer status body complete ∧ body <+: full ∧
    ArchiveOf bunzip tokens floatOK full doc

/-- Every answer of the server is (the beginning of) such an archive, or nothing that unpacks (an error page, for example). -/
def Publishes (E : Env → Prop) (bunzip : Str → Str × Bool) (tokens : Str → List XTok × Bool) (floatOK : Str → Bool) : Prop :=
  ∀ env n status body complete, E env → env.get n = .answer status body complete →
    (bunzip body).1 = [] ∨ ∃ full doc, body <+: full ∧ ArchiveOf bunzip tokens floatOK full doc

end Verif
