import Verif.Model.Parser
import Verif.Model.Cost

/-!
# How many steps an import takes

`Model.Parser` with a count, in the steps of `Model.Cost`: a step is one call of a `Process…` method, one round of a loop,
or one call of a recursive function. Not counted, besides what is left out there: the decoder, the path string, the map
of processors, numbers in attributes, logging.
-/

namespace Verif

/-- `getAttr` and `Attr.GetString` — pkg/opencorpora/xmlutils.go:11-19, 37-45: one step for each attribute looked at -/
def getAttrT (name : Str) : List XAttr → Timed (Option Str)
  | [] => (none, 0)
  | a :: as =>
    if a.name = name then (some a.value, 1)
    else
      let (res, k) := getAttrT name as
      (res, k + 1)

/-- The attributes looked at by the `processStart` functions — pkg/opencorpora/parser.go:183-349. The loop of
`Dictionary.processElem` (dictionary.go:31-46) is counted in full, also if it ends early with an error. -/
def attrRounds (attrs : List XAttr) : Handler → Nat
  | .mute => 0
  | .grammemeName => 0
  | .dictionary => attrs.length
  | .grammeme => (getAttrT (str "parent") attrs).2
  | .lem => (getAttrT (str "id") attrs).2 + if intAttrOK (str "id") attrs then (getAttrT (str "rev") attrs).2 else 0
  | .l => (getAttrT (str "t") attrs).2
  | .f => (getAttrT (str "t") attrs).2
  | .lg => (getAttrT (str "v") attrs).2
  | .fg => (getAttrT (str "v") attrs).2

/-- `AddString` — internal/index/idx.go:249-255 -/
def Index.addStringT (ix : Index) (w : Str) : Timed (Index × Out ID) :=
  if w.length = 0 then ((ix, .err .emptyWord), 0) else Index.addLoopT 0 ix 0 (decodeRunes w)

namespace PState

/-- The loop over the forms of a lemma — pkg/opencorpora/parser.go:278-299: one step for each form, one for each tag in
`GetTagsFromSet` (form_item.go:32-40), and those of the calls of the index -/
def addFormsT (lg : List Str) : Index → List (Option WForm) → Timed (Index × Option PErr)
  | ix, [] => ((ix, none), 0)
  | ix, none :: _ => ((ix, some .nilDeref), 1)
  | ix, some w :: rest =>
    match ix.addStringT w.form with
    | ((ix, .ok id), k) => match ix.addTagSetT id (lg ++ w.g) with
      | ((ix, .ok ()), k') =>
        let (res, k'') := addFormsT lg ix rest
        (res, 1 + k + (lg ++ w.g).length + k' + k'')
      | ((ix, .err e), k') => ((ix, some (.index e)), 1 + k + (lg ++ w.g).length + k')
      | ((ix, _), k') => ((ix, some .inner), 1 + k + (lg ++ w.g).length + k')
    | ((ix, .err e), k) => ((ix, some (.index e)), 1 + k)
    | ((ix, _), k) => ((ix, some .inner), 1 + k)

/-- The calls of the index made by the `processEnd` functions — pkg/opencorpora/parser.go:183-349: `TagID`
(pkg/dag/idx.go:100-115), which searches the tags, and the loop over the forms -/
def endSteps (s : PState) : Handler → Nat
  | .grammeme => match s.grammeme with
    | none => 0
    | some g => (tagsFindT g.name 0 s.ix.tags).2
  | .lem => match s.lem with
    | none => 0
    | some l => (addFormsT l.lg s.ix l.f).2
  | _ => 0

/-- The calls of the index made for a token — pkg/opencorpora/parser.go:107-172 -/
def callSteps (s : PState) : XTok → Nat
  | .stop _ => match handlerOf s.path with
    | none => 0
    | some h => s.endSteps h
  | _ => 0

/-- The attributes looked at for a token — pkg/opencorpora/parser.go:107-172 -/
def scanSteps (s : PState) : XTok → Nat
  | .start n as => match handlerOf (s.path ++ 0x2e :: n) with
    | none => 0
    | some h => attrRounds as h
  | _ => 0

/-- One token — pkg/opencorpora/parser.go:107-172: one step for the call, those for its attributes, those of the calls of
the index -/
def tokenT (floatOK : Str → Bool) (s : PState) (t : XTok) : Timed (PState × Option PErr) :=
  (s.token floatOK t, 1 + s.scanSteps t + s.callSteps t)

/-- The tokens in order, up to the first error, as `PState.run`. For pkg/opencorpora/loader.go:322. -/
def runT (floatOK : Str → Bool) : PState → List XTok → Timed (PState × Option PErr)
  | s, [] => ((s, none), 0)
  | s, t :: ts => match s.tokenT floatOK t with
    | ((s, none), k) =>
      let (res, k') := runT floatOK s ts
      (res, k + k')
    | ((s, some e), k) => ((s, some e), k)

end PState

end Verif
