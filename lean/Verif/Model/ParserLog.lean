import Verif.Model.Parser

/-!
# Model of the messages of `pkg/opencorpora/parser.go`

What the parser writes to its log while it works through the tokens, beside `Model/Parser.lean`, which says what it
does. A message is kept as what it is made of, not as text. The speed report (line 309) depends on the clock and is the
subject of C85. "> path" (line 116) is for an element without `processStart`; there is none in the table of
processors, so it is left out.
-/

namespace Verif

/-- The messages of the parser — pkg/opencorpora/parser.go:132, 153, 293-297 -/
inductive ParseLine where
  /-- "= path" -/
  | data (path : Str)
  /-- "< path" -/
  | closed (path : Str)
  /-- "IDX+ I… P… … form [tags]": the item of the node — its ID, its parent and its variants are shown —, the form and
  its tags -/
  | word (item : Item) (form : Str) (tags : List Str)
  deriving DecidableEq, Repr

namespace PState

/-- The messages of the loop over the forms of a lemma — pkg/opencorpora/parser.go:278-301: a form is reported after
its word was added and its tags were attached, with the item of the node as it is then
(internal/index/node.go:19-21). -/
def formsLog (lg : List Str) : Index → List (Option WForm) → List ParseLine
  | _, [] => []
  | _, none :: _ => []
  | ix, some w :: rest =>
    match ix.addString w.form with
    | (ix, .ok id) => match ix.addTagSet id (lg ++ w.g) with
      | (ix, .ok ()) => .word (ix.items.items.getD id.toNat zeroItem) w.form (lg ++ w.g) :: formsLog lg ix rest
      | _ => []
    | _ => []

/-- The messages for one token — pkg/opencorpora/parser.go:107-160. Of the processors only that of a form has no
`processData` (lines 245-262) and only that of the dictionary has no `processEnd` (lines 183-191). -/
def tokenLog (s : PState) : XTok → List ParseLine
  | .start _ _ => []
  | .chars _ => match handlerOf s.path with
    | some .f => [.data s.path]
    | _ => []
  | .stop _ => match handlerOf s.path with
    | some .dictionary => [.closed s.path]
    | some .lem => match s.lem with
      | none => []
      | some l => formsLog l.lg s.ix l.f
    | _ => []
  | .other => []

/-- The messages for the tokens in order, up to the first error. For pkg/opencorpora/loader.go:322. -/
def runLog (floatOK : Str → Bool) : PState → List XTok → List ParseLine
  | _, [] => []
  | s, t :: ts => s.tokenLog t ++ match s.token floatOK t with
    | (s, none) => runLog floatOK s ts
    | (_, some _) => []

end PState

end Verif
