import Verif.Model.Index

/-!
# Model of `pkg/opencorpora/parser.go`, `xmlutils.go`, `dictionary.go`

The parser is driven by `libxml.ParseXMLFile`, which is not part of the repository: it is taken to call the
`Process…` methods for the tokens of Go's `encoding/xml` in order and to stop at the first error. Logging is dropped.
-/

namespace Verif

/-- `xml.Attr`: local name and value. Used at pkg/opencorpora/parser.go:199-342. -/
structure XAttr where
  name : Str
  value : Str
  deriving DecidableEq, Repr

/-- The tokens of `encoding/xml`; names are local names. `other` is a comment, a processing instruction or a
directive. Used at pkg/opencorpora/parser.go:107-172. -/
inductive XTok where
  | start (name : Str) (attrs : List XAttr)
  | chars (data : Str)
  | stop (name : Str)
  | other
  deriving DecidableEq, Repr

/-- `WordForm` — pkg/opencorpora/form_item.go:10-13; a `Category` is its tag name — category_item.go:8-10 -/
structure WForm where
  form : Str
  g : List Str
  deriving DecidableEq, Repr

/-- `Lemma` — pkg/opencorpora/lemma_item.go:11-20. `IdAttr`, `RevAttr` and `L.Form` are written but never read by
the parser and are left out; the elements of `F` are pointers that may be nil. Slices are values here; their sharing
is the subject of C51. -/
structure LemmaRec where
  lg : List Str
  f : List (Option WForm)
  deriving DecidableEq, Repr

/-- `newLemma` — pkg/opencorpora/lemma_item.go:22-29 -/
def newLemma : LemmaRec := { lg := [], f := [] }

/-- `newWordForm` — pkg/opencorpora/form_item.go:15-20 -/
def newWordForm : WForm := { form := [], g := [] }

/-- Why parsing stops — pkg/opencorpora/parser.go:107-348 -/
inductive PErr where
  /-- "unexpected start/char/end" -/
  | unexpected
  /-- a required attribute is missing or not a number -/
  | attr
  /-- an error of `AddString` or `AddTagSet` -/
  | index (e : Err)
  /-- `ErrControlledStop` -/
  | controlledStop
  /-- panic: nil `currentGrammeme`, `currentLemma`, `currentForm` or list element -/
  | nilDeref
  /-- panic: the path is shorter than the name of the element that ends -/
  | slice
  /-- panic inside the index -/
  | inner
  deriving DecidableEq, Repr

/-- `Parser` — pkg/opencorpora/parser.go:34-53, without logging, timing, `collectedData` and the version attributes
of the dictionary, which are never read. -/
structure PState where
  ix : Index
  path : Str
  grammeme : Option Tag
  lem : Option LemmaRec
  form : Option WForm
  parsedLemmas : Nat
  maxLemmas : Int

/-- `newParser` — pkg/opencorpora/parser.go:55-101, and `SetMaxLemmas`, 103-105 -/
def PState.init (ix : Index) (maxLemmas : Int) : PState :=
  { ix := ix, path := [], grammeme := none, lem := none, form := none, parsedLemmas := 0, maxLemmas := maxLemmas }

/-- The element processors — pkg/opencorpora/parser.go:183-349 -/
inductive Handler where
  | mute | dictionary | grammeme | grammemeName | lem | l | lg | f | fg
  deriving DecidableEq, Repr

/-- The table of processors — pkg/opencorpora/parser.go:78-98 -/
def handlers : List (Str × Handler) := [
  ([], .mute),
  (str ".dictionary", .dictionary),
  (str ".dictionary.grammemes", .mute),
  (str ".dictionary.grammemes.grammeme", .grammeme),
  (str ".dictionary.grammemes.grammeme.name", .grammemeName),
  (str ".dictionary.grammemes.grammeme.alias", .mute),
  (str ".dictionary.grammemes.grammeme.description", .mute),
  (str ".dictionary.restrictions", .mute),
  (str ".dictionary.restrictions.restr", .mute),
  (str ".dictionary.restrictions.restr.left", .mute),
  (str ".dictionary.restrictions.restr.right", .mute),
  (str ".dictionary.lemmata", .mute),
  (str ".dictionary.lemmata.lemma", .lem),
  (str ".dictionary.lemmata.lemma.l", .l),
  (str ".dictionary.lemmata.lemma.l.g", .lg),
  (str ".dictionary.lemmata.lemma.f", .f),
  (str ".dictionary.lemmata.lemma.f.g", .fg),
  (str ".dictionary.link_types", .mute),
  (str ".dictionary.link_types.type", .mute),
  (str ".dictionary.links", .mute),
  (str ".dictionary.links.link", .mute)]

/-- `parser.parsers[path]` — pkg/opencorpora/parser.go:110, 126, 142 -/
def handlerOf (path : Str) : Option Handler := handlers.lookup path

/-- `getAttr` and `Attr.GetString` — pkg/opencorpora/xmlutils.go:11-19, 37-45 -/
def getAttr (name : Str) (attrs : List XAttr) : Option Str := (attrs.find? fun a => a.name = name).map (·.value)

/-- Value of a string of decimal digits. For pkg/opencorpora/xmlutils.go:47-58. -/
def digits (s : Str) : Option Nat :=
  s.foldl (fun acc c => acc.bind fun n =>
    if 0x30 ≤ c.toNat ∧ c.toNat ≤ 0x39 then some (n * 10 + (c.toNat - 0x30)) else none) (some 0)

/-- Does `strconv.Atoi` (64-bit `int`) accept the string? An optional sign, at least one digit, no overflow. Used at
pkg/opencorpora/xmlutils.go:54, pkg/opencorpora/dictionary.go:40. -/
def atoiOK (s : Str) : Bool :=
  let neg := s.head? = some 0x2d
  let ds := if s.head? = some 0x2d ∨ s.head? = some 0x2b then s.tail else s
  ds ≠ [] && match digits ds with
    | none => false
    | some n => if neg then n ≤ 2 ^ 63 else n < 2 ^ 63

/-- `getIntAttr` succeeds — pkg/opencorpora/xmlutils.go:47-58 -/
def intAttrOK (name : Str) (attrs : List XAttr) : Bool :=
  match getAttr name attrs with
  | none => false
  | some v => atoiOK v

/-- `Dictionary.processElem` succeeds — pkg/opencorpora/dictionary.go:31-46. `floatOK` says which strings
`strconv.ParseFloat` accepts; nothing is assumed about it. -/
def dictionaryOK (floatOK : Str → Bool) (attrs : List XAttr) : Bool :=
  attrs.all fun a =>
    if a.name = str "version" then floatOK a.value else if a.name = str "revision" then atoiOK a.value else true

namespace PState

/-- The `processStart` functions — pkg/opencorpora/parser.go:183-349 -/
def onStart (floatOK : Str → Bool) (s : PState) (attrs : List XAttr) : Handler → PState × Option PErr
  | .mute => (s, none)
  | .dictionary => (s, if dictionaryOK floatOK attrs then none else some .attr)
  | .grammeme =>
    match getAttr (str "parent") attrs with
    | none => ({ s with grammeme := some { parent := [], name := [] } }, some .attr)
    | some p => ({ s with grammeme := some { parent := p, name := [] } }, none)
  | .grammemeName => (s, none)
  | .lem =>
    ({ s with lem := some newLemma },
      if intAttrOK (str "id") attrs ∧ intAttrOK (str "rev") attrs then none else some .attr)
  | .l => match s.lem with
    | none => (s, some .nilDeref)
    | some _ => (s, if (getAttr (str "t") attrs).isSome then none else some .attr)
  | .lg => match getAttr (str "v") attrs with
    | none => (s, some .attr)
    | some v => match s.lem with
      | none => (s, some .nilDeref)
      | some l => ({ s with lem := some { l with lg := l.lg ++ [v] } }, none)
  | .f => match getAttr (str "t") attrs with
    | none => ({ s with form := some newWordForm }, some .attr)
    | some t => ({ s with form := some { newWordForm with form := t } }, none)
  | .fg => match getAttr (str "v") attrs with
    | none => (s, some .attr)
    | some v => match s.form with
      | none => (s, some .nilDeref)
      | some w => ({ s with form := some { w with g := w.g ++ [v] } }, none)

/-- `ProcessStartElement` — pkg/opencorpora/parser.go:107-123 -/
def startElement (floatOK : Str → Bool) (s : PState) (name : Str) (attrs : List XAttr) : PState × Option PErr :=
  let s := { s with path := s.path ++ 0x2e :: name }
  match handlerOf s.path with
  | none => (s, some .unexpected)
  | some h => s.onStart floatOK attrs h

/-- `ProcessCharData` — pkg/opencorpora/parser.go:125-139; only the grammeme name has a `processData` that does
something, lines 218-221 -/
def charData (s : PState) (data : Str) : PState × Option PErr :=
  match handlerOf s.path with
  | none => (s, some .unexpected)
  | some .grammemeName => match s.grammeme with
    | none => (s, some .nilDeref)
    | some g => ({ s with grammeme := some { g with name := data } }, none)
  | some _ => (s, none)

/-- The loop over the forms of a lemma — pkg/opencorpora/parser.go:278-299 -/
def addForms (lg : List Str) : Index → List (Option WForm) → Index × Option PErr
  | ix, [] => (ix, none)
  | ix, none :: _ => (ix, some .nilDeref)
  | ix, some w :: rest =>
    match ix.addString w.form with
    | (ix, .ok id) => match ix.addTagSet id (lg ++ w.g) with
      | (ix, .ok ()) => addForms lg ix rest
      | (ix, .err e) => (ix, some (.index e))
      | (ix, _) => (ix, some .inner)
    | (ix, .err e) => (ix, some (.index e))
    | (ix, _) => (ix, some .inner)

/-- The `processEnd` functions — pkg/opencorpora/parser.go:183-349 -/
def onEnd (s : PState) : Handler → PState × Option PErr
  | .grammeme => match s.grammeme with
    | none => (s, some .nilDeref)
    | some g => ({ s with ix := (s.ix.tagID g.name g.parent).1, grammeme := none }, none)
  | .f => match s.lem with
    | none => (s, some .nilDeref)
    | some l => ({ s with lem := some { l with f := l.f ++ [s.form] }, form := none }, none)
  | .lem => match s.lem with
    | none => (s, some .nilDeref)
    | some l =>
      match addForms l.lg s.ix l.f with
      | (ix, some e) => ({ s with ix := ix }, some e)
      | (ix, none) =>
        ({ s with ix := ix, lem := none, parsedLemmas := s.parsedLemmas + 1 },
          if 0 < s.maxLemmas ∧ s.maxLemmas ≤ s.parsedLemmas + 1 then some .controlledStop else none)
  | _ => (s, none)

/-- `ProcessEndElement` — pkg/opencorpora/parser.go:141-160; the path is shortened when the function returns -/
def endElement (s : PState) (name : Str) : PState × Option PErr :=
  match handlerOf s.path with
  | none => (s, some .unexpected)
  | some h =>
    let r := s.onEnd h
    if s.path.length < name.length + 1 then (r.1, some .slice)
    else ({ r.1 with path := s.path.take (s.path.length - name.length - 1) }, r.2)

/-- One token — pkg/opencorpora/parser.go:107-172 -/
def token (floatOK : Str → Bool) (s : PState) : XTok → PState × Option PErr
  | .start n as => s.startElement floatOK n as
  | .chars d => s.charData d
  | .stop n => s.endElement n
  | .other => (s, none)

/-- The tokens in order, up to the first error: the loop of `libxml.ParseXMLFile` (outside the repository). For
pkg/opencorpora/loader.go:322. -/
def run (floatOK : Str → Bool) : PState → List XTok → PState × Option PErr
  | s, [] => (s, none)
  | s, t :: ts => match s.token floatOK t with
    | (s, none) => run floatOK s ts
    | (s, some e) => (s, some e)

end PState

end Verif
