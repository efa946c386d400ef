import Verif.Model.Codec
import Verif.Model.Texts

/-!
# Error values

`Model.Go` keeps the error values as constructors with their payload. This file has the values a caller of the Go API
gets: the text printed for the error, and the package-level errors `errors.Is` finds in it.
-/

namespace Verif

/-- Package-level error variables: `index.Error` (internal/index/item_def.go:13), `dag.Error` (pkg/dag/name.go:21),
`common.ErrMarshal`, `common.ErrUnmarshal` (pkg/common/errors.go:8-9), `opencorpora.Error`
(pkg/opencorpora/errors.go:7), and from the standard library `io.EOF` and `os.ErrNotExist`. -/
inductive Sentinel where
  | index
  | grammar
  | marshal
  | unmarshal
  | opencorpora
  | eof
  | notExist
  deriving DecidableEq, Repr

/-- A Go error value: its text, and the package-level errors met when it is unwrapped. As built at
internal/index/idx.go:251. -/
structure GoError where
  text : Str
  chain : List Sentinel
  deriving DecidableEq, Repr

/-- `errors.Is`. For errors such as the one of internal/index/idx.go:251. -/
def GoError.Is (e : GoError) (s : Sentinel) : Prop := s ∈ e.chain

/-- One piece of a format string with its argument: literal text, `%w` and `%v` of an error, `%s` (or `%v`) of a string,
`%d` of a number. As used at internal/index/idx.go:251, 282, 378. -/
inductive Piece where
  | lit (s : String)
  | wrap (e : GoError)
  | val (e : GoError)
  | txt (t : Str)
  | num (n : Nat)

/-- The text a piece contributes. As at internal/index/idx.go:378. -/
def Piece.text : Piece → Str
  | .lit s => str s
  | .wrap e => e.text
  | .val e => e.text
  | .txt t => t
  | .num n => itoa n

/-- The errors a piece keeps in the chain: those of a `%w`. As at internal/index/idx.go:90. -/
def Piece.chain : Piece → List Sentinel
  | .wrap e => e.chain
  | _ => []

/-- `fmt.Errorf`. As at internal/index/idx.go:251. -/
def errorf (ps : List Piece) : GoError := { text := ps.flatMap Piece.text, chain := ps.flatMap Piece.chain }

/-- `index.Error` — internal/index/item_def.go:13 -/
def indexError : GoError := { text := str "index", chain := [.index] }
/-- `common.ErrMarshal` — pkg/common/errors.go:9 -/
def marshalError : GoError := { text := str "marshal", chain := [.marshal] }
/-- `opencorpora.Error` — pkg/opencorpora/errors.go:7 -/
def opencorporaError : GoError := { text := str "opencorpora", chain := [.opencorpora] }

/-- The error values of the calls that work on the index in memory — internal/index/idx.go:251 (empty word), 333 and 366
(empty runes), 399 (empty runes of an add), 405 (no parent), 282 (no such node), 345 and 378 (not found), 474 (no such
tag id), internal/index/node.go:58 (unknown tag). `adding`: the call is `AddToNode`, `AddRunes` or `AddString`. The other
constructors of `Err` belong to files; they have no value here. -/
def Err.go (adding : Bool) : Err → Option GoError
  | .emptyWord => some (errorf [.wrap indexError, .lit ": empty word"])
  | .emptyRunes => some (if adding then errorf [.wrap indexError, .lit ": add: empty runes"]
      else errorf [.wrap indexError, .lit ": empty runes"])
  | .noParent id => some (errorf [.wrap indexError, .lit ": add: no parent: ", .num id.toNat])
  | .noSuchNode id => some (errorf [.wrap indexError, .lit ": no such node: ", .num id.toNat])
  | .notFound word r => some (errorf [.wrap indexError, .lit ": fetch: not found: `", .txt word, .lit "[",
      .txt (encodeRune r), .lit "]`"])
  | .unknownTag name => some (errorf [.wrap indexError, .lit ": add tag set: unknown tag: ", .txt name])
  | .noSuchTag id => some (errorf [.lit "no such tagID ", .num id.toNat])
  | _ => none

/-- The calls of the index that can return an error and do not touch files — internal/index/idx.go:244-283, 323-424,
469-480, internal/index/node.go:52-70 -/
inductive MemCall where
  | addRunes (rs : List Rune)
  | addString (w : Str)
  | addToNode (id : ID) (rs : List Rune)
  | fetchRunes (rs : List Rune)
  | fetchString (w : Str)
  | fetchFromItem (id : ID) (rs : List Rune)
  | fetchItemFromParent (id : ID) (rs : List Rune)
  | get (id : ID)
  | addTagSet (id : ID) (names : List Str)
  | tagSet (t : TagSet)

/-- The error of a result. As returned at internal/index/idx.go:399. -/
def Out.error {α : Type} : Out α → Option Err
  | .err e => some e
  | _ => none

/-- The error the call returns on the index, if any — internal/index/idx.go:244-283, 323-424, 469-480,
internal/index/node.go:52-70 -/
def MemCall.err (ix : Index) : MemCall → Option Err
  | .addRunes rs => (ix.addRunes rs).2.error
  | .addString w => (ix.addString w).2.error
  | .addToNode id rs => (ix.addToNode id rs).2.error
  | .fetchRunes rs => (ix.fetchRunes rs).2.error
  | .fetchString w => (ix.fetchString w).2.error
  | .fetchFromItem id rs => (ix.fetchFromItem id rs).2.error
  | .fetchItemFromParent id rs => (ix.fetchItemFromParent id rs).2.error
  | .get id => (ix.get id).error
  | .addTagSet id names => (ix.addTagSet id names).2.error
  | .tagSet t => (ix.tagSet t).error

/-- The calls that report an empty word as `AddToNode` does — internal/index/idx.go:398-400 -/
def MemCall.adds : MemCall → Bool
  | .addRunes _ => true
  | .addString _ => true
  | .addToNode _ _ => true
  | _ => false

/-- The error value the caller gets — internal/index/idx.go:244-283, 323-424, 469-480, internal/index/node.go:52-70 -/
def MemCall.goError (ix : Index) (c : MemCall) : Option GoError := (c.err ix).bind (Err.go c.adds)

/-! ## Files -/

/-- Loop of `Idx.BinaryWriteTo` — pkg/dag/idx.go:73-77: the error names the position of the tag and drops the cause -/
def writeTagsError : Nat → List Tag → Option GoError
  | _, [] => none
  | i, t :: ts =>
    if (writeTag t).err = none then writeTagsError (i + 1) ts
    else some (errorf [.wrap marshalError, .lit ": cant write indexed ", .num i])

/-- The error of `Index.BinaryWriteTo` on a healthy writer — internal/index/idx.go:76-78 with 58-60: only the tags can
fail -/
def Index.saveError (ix : Index) : Option GoError :=
  (writeTagsError 0 ix.tags).map fun e => errorf [.wrap indexError, .lit ": write: tags index: ", .val e]

/-- What the four `read…Definitions` write around the error of the body of their section — internal/index/idx.go:97, 131,
165, 199 (two of them say "write") -/
def bodyLabel : Fin 4 → String
  | 0 => ": read: tags index: "
  | 1 => ": write: tags sets index: "
  | 2 => ": write: tags set collections index: "
  | 3 => ": read: node index: "

/-- What `BinaryReadFrom` does with the error of a section — internal/index/idx.go:224-235: the last one is returned as it
is -/
def outerError (n : Fin 4) (e : GoError) : GoError :=
  match n with
  | 0 => errorf [.wrap indexError, .lit ": read: tags: ", .val e]
  | 1 => errorf [.wrap indexError, .lit ": read: tags: ", .val e]
  | 2 => errorf [.wrap indexError, .lit ": read: collections index: ", .val e]
  | 3 => e

/-- The error of reading section `n` with prefix `pfx` — internal/index/idx.go:86-101, 120-135, 154-169, 188-203. `cause`
stands for the error values of the reader and of the bodies, which depend on the binutils library. -/
def sectionError {α : Type} (cause : Err → GoError) (n : Fin 4) (pfx : Str) (r : Rd α) (s : Str) : Option GoError :=
  match readStringZ s with
  | .err e => some (errorf [.wrap indexError, .lit ": read: tags prefix: ", .val (cause e)])
  | .ok (p, s) =>
    if p ≠ pfx then some (errorf [.wrap indexError, .lit ": read: expected section ", .txt pfx, .lit " "])
    else (r s).error.map fun e => errorf [.wrap indexError, .lit (bodyLabel n), .val (cause e)]
  | _ => none

/-- The error of `BinaryReadFrom` — internal/index/idx.go:220-240 -/
def loadError (cause : Err → GoError) (s : Str) : Option GoError :=
  match readSection prefixTD readTags s with
  | .ok (_, s) => match readSection prefixTI readTagSetIndex s with
    | .ok (_, s) => match readSection prefixCD readVariantsIndex s with
      | .ok (_, s) => (sectionError cause 3 prefixID readItems s).map (outerError 3)
      | _ => (sectionError cause 2 prefixCD readVariantsIndex s).map (outerError 2)
    | _ => (sectionError cause 1 prefixTI readTagSetIndex s).map (outerError 1)
  | _ => (sectionError cause 0 prefixTD readTags s).map (outerError 0)

/-- The error of `LoadIndex` when the file cannot be opened, for the reason `e` — pkg/opencorpora/loader.go:244-246 -/
def openIndexError (e : GoError) : GoError := errorf [.wrap opencorporaError, .lit ": open index: ", .val e]
/-- The error of `LoadIndex` when the file cannot be read, for the reason `e` — pkg/opencorpora/loader.go:265-267 -/
def readIndexError (e : GoError) : GoError := errorf [.wrap opencorporaError, .lit ": read index: ", .val e]

end Verif
