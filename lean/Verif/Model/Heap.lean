import Verif.Model.Parser

/-!
# Slices as references

The rest of the model treats Go slices as values. Here a slice is what it is in Go, a reference to a backing array
with a length, so that the sharing of arrays can be stated. Slices start at the first element of their array:
nothing modelled here reslices. The capacity of a slice is the length of its array.
-/

namespace Verif

/-- The backing arrays. For pkg/opencorpora/parser.go:234, 280, 342. -/
abbrev Heap (α : Type) := List (List α)

/-- A slice header. For pkg/opencorpora/parser.go:234, 280, 342. -/
structure Slice where
  arr : Nat
  len : Nat
  deriving DecidableEq, Repr

/-- How much more than needed `append` allocates: any function; Go's depends on version and element type. For
pkg/opencorpora/parser.go:234, 280, 342. -/
abbrev Growth (α : Type) := Heap α → Slice → Nat → Nat

namespace Heap

variable {α : Type}

/-- The elements of a slice. For pkg/opencorpora/parser.go:286. -/
def read (h : Heap α) (s : Slice) : List α := (h.getD s.arr []).take s.len

/-- `make([]T, 0)`. As at pkg/opencorpora/form_item.go:18. -/
def makeEmpty (h : Heap α) : Heap α × Slice := (h ++ [[]], { arr := h.length, len := 0 })

/-- A new array with the given elements, for `make` followed by assignments to all elements. As at
internal/index/variant_def.go:119-121. -/
def makeWith (h : Heap α) (xs : List α) : Heap α × Slice := (h ++ [xs], { arr := h.length, len := xs.length })

/-- Go's built-in `append(s, xs...)`: in place if the capacity suffices, else into a new array with room to spare
(the spare elements are zero values, here `zero`). As at pkg/opencorpora/parser.go:234, 280, 342. -/
def append (grow : Growth α) (zero : α) (h : Heap α) (s : Slice) (xs : List α) : Heap α × Slice :=
  let a := h.getD s.arr []
  if s.len + xs.length ≤ a.length then
    (h.set s.arr (a.take s.len ++ xs ++ a.drop (s.len + xs.length)), { s with len := s.len + xs.length })
  else
    (h ++ [a.take s.len ++ xs ++ List.replicate (grow h s xs.length) zero],
      { arr := h.length, len := s.len + xs.length })

/-- Overwrite the elements of a slice, for an in-place `sort.Sort` or assignments `s[i] = v`; `xs` has the length of
the slice. As at internal/index/tagset_def.go:90. -/
def write (h : Heap α) (s : Slice) (xs : List α) : Heap α :=
  h.set s.arr (xs ++ (h.getD s.arr []).drop s.len)

end Heap

/-! ## The parser, with the slices of a lemma as references -/

/-- `WordForm` — pkg/opencorpora/form_item.go:10-13 -/
structure HForm where
  form : Str
  g : Slice

/-- `Lemma` — pkg/opencorpora/lemma_item.go:11-20 -/
structure HLemma where
  lg : Slice
  f : List (Option HForm)

/-- `Parser` — pkg/opencorpora/parser.go:34-53; the fields `lem` and `form` of `st` are not used. The heap holds the
arrays of `CategoryList`s; a `*Category` is never changed and is represented by its tag name. -/
structure HState where
  st : PState
  heap : Heap Str
  lem : Option HLemma
  form : Option HForm

namespace HState

/-- `newParser` — pkg/opencorpora/parser.go:55-101 -/
def init (ix : Index) (maxLemmas : Int) : HState :=
  { st := PState.init ix maxLemmas, heap := [], lem := none, form := none }

/-- The `processStart` functions — pkg/opencorpora/parser.go:183-349, `newWordForm` — form_item.go:15-20,
`newLemma` — lemma_item.go:22-29. -/
def onStart (grow : Growth Str) (floatOK : Str → Bool) (s : HState) (attrs : List XAttr) :
    Handler → HState × Option PErr
  | .lem =>
    let (heap, lg) := s.heap.makeEmpty
    ({ s with heap := heap, lem := some { lg := lg, f := [] } },
      if intAttrOK (str "id") attrs ∧ intAttrOK (str "rev") attrs then none else some .attr)
  | .l => match s.lem with
    | none => (s, some .nilDeref)
    | some _ => (s, if (getAttr (str "t") attrs).isSome then none else some .attr)
  | .lg => match getAttr (str "v") attrs with
    | none => (s, some .attr)
    | some v => match s.lem with
      | none => (s, some .nilDeref)
      | some l =>
        let (heap, lg) := s.heap.append grow [] l.lg [v]
        ({ s with heap := heap, lem := some { l with lg := lg } }, none)
  | .f =>
    let (heap, g) := s.heap.makeEmpty
    match getAttr (str "t") attrs with
    | none => ({ s with heap := heap, form := some { form := [], g := g } }, some .attr)
    | some t => ({ s with heap := heap, form := some { form := t, g := g } }, none)
  | .fg => match getAttr (str "v") attrs with
    | none => (s, some .attr)
    | some v => match s.form with
      | none => (s, some .nilDeref)
      | some w =>
        let (heap, g) := s.heap.append grow [] w.g [v]
        ({ s with heap := heap, form := some { w with g := g } }, none)
  | h =>
    let r := s.st.onStart floatOK attrs h
    ({ s with st := r.1 }, r.2)

/-- `ProcessStartElement` — pkg/opencorpora/parser.go:107-123 -/
def startElement (grow : Growth Str) (floatOK : Str → Bool) (s : HState) (name : Str) (attrs : List XAttr) :
    HState × Option PErr :=
  let s := { s with st := { s.st with path := s.st.path ++ 0x2e :: name } }
  match handlerOf s.st.path with
  | none => (s, some .unexpected)
  | some h => s.onStart grow floatOK attrs h

/-- The loop over the forms of a lemma — pkg/opencorpora/parser.go:278-299. `variant.G = append(lemma.L.G, …)` may
write into the array of the lemma's list; `GetTagsFromSet` (form_item.go:32-40) copies the list before the next
form. -/
def addForms (grow : Growth Str) (lg : Slice) : Heap Str → Index → List (Option HForm) →
    Heap Str × Index × Option PErr
  | h, ix, [] => (h, ix, none)
  | h, ix, none :: _ => (h, ix, some .nilDeref)
  | h, ix, some w :: rest =>
    let (h, g) := h.append grow [] lg (h.read w.g)
    match ix.addString w.form with
    | (ix, .ok id) => match ix.addTagSet id (h.read g) with
      | (ix, .ok ()) => addForms grow lg h ix rest
      | (ix, .err e) => (h, ix, some (.index e))
      | (ix, _) => (h, ix, some .inner)
    | (ix, .err e) => (h, ix, some (.index e))
    | (ix, _) => (h, ix, some .inner)

/-- The `processEnd` functions — pkg/opencorpora/parser.go:183-349 -/
def onEnd (grow : Growth Str) (s : HState) : Handler → HState × Option PErr
  | .f => match s.lem with
    | none => (s, some .nilDeref)
    | some l => ({ s with lem := some { l with f := l.f ++ [s.form] }, form := none }, none)
  | .lem => match s.lem with
    | none => (s, some .nilDeref)
    | some l =>
      match addForms grow l.lg s.heap s.st.ix l.f with
      | (h, ix, some e) => ({ s with heap := h, st := { s.st with ix := ix } }, some e)
      | (h, ix, none) =>
        ({ s with heap := h, st := { s.st with ix := ix, parsedLemmas := s.st.parsedLemmas + 1 }, lem := none },
          if 0 < s.st.maxLemmas ∧ s.st.maxLemmas ≤ s.st.parsedLemmas + 1 then some .controlledStop else none)
  | h =>
    let r := s.st.onEnd h
    ({ s with st := r.1 }, r.2)

/-- `ProcessEndElement` — pkg/opencorpora/parser.go:141-160 -/
def endElement (grow : Growth Str) (s : HState) (name : Str) : HState × Option PErr :=
  match handlerOf s.st.path with
  | none => (s, some .unexpected)
  | some h =>
    let r := s.onEnd grow h
    if s.st.path.length < name.length + 1 then (r.1, some .slice)
    else ({ r.1 with st := { r.1.st with path := s.st.path.take (s.st.path.length - name.length - 1) } }, r.2)

/-- One token — pkg/opencorpora/parser.go:107-172 -/
def token (grow : Growth Str) (floatOK : Str → Bool) (s : HState) : XTok → HState × Option PErr
  | .start n as => s.startElement grow floatOK n as
  | .chars d =>
    let r := s.st.charData d
    ({ s with st := r.1 }, r.2)
  | .stop n => s.endElement grow n
  | .other => (s, none)

/-- The tokens in order, up to the first error. For pkg/opencorpora/parser.go:107-160. -/
def run (grow : Growth Str) (floatOK : Str → Bool) : HState → List XTok → HState × Option PErr
  | s, [] => (s, none)
  | s, t :: ts => match s.token grow floatOK t with
    | (s, none) => run grow floatOK s ts
    | (s, some e) => (s, some e)

end HState

end Verif
