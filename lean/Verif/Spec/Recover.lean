import Verif.Spec.UpdateCmd
import Verif.Props.Exact

/-!
# Putting a data directory right

What it takes for an update to have something to deliver, and several updates in a row.
-/

namespace Verif

/-- Nothing fails, and the server offers the dictionary `doc`, as of time `t`, as an archive that unpacks to `text`. -/
structure Env.Offers (env : Env) (t : Int) (text : Str) (doc : List Xml) : Prop where
  calm : env.Calm
  head : ∀ n, env.head n = .answer 200 (.time t)
  get : ∃ body, (∀ n, env.get n = .answer 200 body true) ∧ env.bunzip body = (text, true)
  tokens : env.tokens text = (Xml.tokensAll doc, true)
  valid : Xml.ValidAll env.floatOK [] doc
  declared : Declared (entriesOf doc)
  room : DocRoom (entriesOf doc)

/-- `LoadIndex` now returns an index that answers exactly what the document says. -/
def Restored (doc : List Xml) (fs : FS) : Prop := ∃ ix, LoadsTo fs ix ∧ ServesExactly doc ix

/-- `Update` called again and again, forced or not. -/
def updates (cfg : LoaderCfg) (env : Env) : List Bool → World → World
  | [], w => w
  | force :: rest, w => updates cfg env rest (update cfg env force w).2

/-- The text is not a dictionary: reading it to the end gives an error. -/
def Garbage (env : Env) (text : Str) : Prop :=
  ((PState.init Index.new 0).run env.floatOK (env.tokens text).1).2 ≠ some .controlledStop ∧
  (((PState.init Index.new 0).run env.floatOK (env.tokens text).1).2 = none → (env.tokens text).2 = false)

end Verif
