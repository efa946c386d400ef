import Mathlib.Data.List.Sort

/-!
# Go run-time notions shared by the whole model

Nothing here models a file of the repository; it fixes how Go values and results are represented.
-/

namespace Verif

/-- A Go `string` or `[]byte`: a list of bytes. As at internal/index/idx.go:249. -/
abbrev Str := List UInt8

/-- Go `rune` (an `int32`). As at internal/index/idx.go:244. -/
abbrev Rune := Int32

/-- ASCII literal as a Go string. As at pkg/opencorpora/parser.go:78-98. -/
def str (s : String) : Str := s.toList.map (fun c => UInt8.ofNat c.toNat)

/-- The error values the API distinguishes. Error texts are in `Model.Errors`. As at
internal/index/idx.go:251, 282, 366, 378, 399, 405. -/
inductive Err where
  /-- `AddString`: "empty word" -/
  | emptyWord
  /-- `AddToNode`/`FetchFromItem`: "empty runes" -/
  | emptyRunes
  /-- `AddToNode`: "add: no parent" -/
  | noParent (id : UInt32)
  /-- `Index.Get`: "no such node" -/
  | noSuchNode (id : UInt32)
  /-- `FetchFromItem`: "fetch: not found: `word[rune]`" -/
  | notFound (word : Str) (r : Rune)
  /-- `AddTagSet`: "unknown tag" -/
  | unknownTag (name : Str)
  /-- `Index.TagSet`: "no such tagID" -/
  | noSuchTag (id : UInt8)
  /-- `TagName.MarshalBinary`: wrong length -/
  | marshal (name : Str)
  /-- any `binutils` read running out of bytes -/
  | eof
  /-- an unexpected section prefix in an index file -/
  | section
  deriving DecidableEq, Repr

/-- Result of a Go call: a value, an error, a run-time panic, or no result at all
(unbounded recursion; Go kills the process with a stack overflow). For all calls, e.g. internal/index/idx.go:244-424.
-/
inductive Out (α : Type) where
  | ok (a : α)
  | err (e : Err)
  | panic
  | diverge
  deriving DecidableEq, Repr

namespace Out
variable {α β : Type}

/-- Sequencing: `if err != nil { return err }`; panics and divergence propagate. As at internal/index/idx.go:224-235.
-/
def bind (x : Out α) (f : α → Out β) : Out β :=
  match x with
  | ok a => f a
  | err e => err e
  | panic => panic
  | diverge => diverge

instance : Monad Out where
  pure := ok
  bind := bind

/-- The call returned a value. For internal/index/idx.go:244-424. -/
def isOk : Out α → Bool
  | ok _ => true
  | _ => false

/-- The call returned (a value or an error): no panic, no divergence. For internal/index/idx.go:244-424. -/
def returns : Out α → Bool
  | ok _ => true
  | err _ => true
  | _ => false

@[simp] theorem bind_ok (a : α) (f : α → Out β) : (ok a).bind f = f a := rfl
@[simp] theorem bind_err (e : Err) (f : α → Out β) : (err e).bind f = err e := rfl
@[simp] theorem bind_panic (f : α → Out β) : (panic : Out α).bind f = panic := rfl
@[simp] theorem bind_diverge (f : α → Out β) : (diverge : Out α).bind f = diverge := rfl
@[simp] theorem monad_bind_eq (x : Out α) (f : α → Out β) : (x >>= f) = x.bind f := rfl
@[simp] theorem pure_eq (a : α) : (pure a : Out α) = ok a := rfl

end Out

/-- `sort.Sort` on a slice of unsigned integers with `<`: the ascending permutation
(unique, because equal integers are indistinguishable). Used at internal/index/tagset_def.go:90,
internal/index/variant_table.go:72, internal/index/variant_idx.go:78, internal/index/variant_def.go:122. -/
def sortAsc {α : Type} [LE α] [DecidableRel (α := α) (· ≤ ·)] (l : List α) : List α :=
  l.insertionSort (· ≤ ·)

/-- UTF-8 encoding of one rune, as Go's `string(r)` / `utf8.EncodeRune`:
surrogates and values outside Unicode become U+FFFD. Arithmetic replaces shifts and masks. Used at
internal/index/node.go:73-90. -/
def encodeRune (r : Rune) : Str :=
  let n := r.toUInt32.toNat
  if n ≤ 0x7F then [UInt8.ofNat n]
  else if n ≤ 0x7FF then [UInt8.ofNat (0xC0 + n / 64), UInt8.ofNat (0x80 + n % 64)]
  else if n > 0x10FFFF ∨ (0xD800 ≤ n ∧ n ≤ 0xDFFF) then [0xEF, 0xBF, 0xBD]
  else if n ≤ 0xFFFF then
    [UInt8.ofNat (0xE0 + n / 4096), UInt8.ofNat (0x80 + n / 64 % 64), UInt8.ofNat (0x80 + n % 64)]
  else
    [UInt8.ofNat (0xF0 + n / 262144), UInt8.ofNat (0x80 + n / 4096 % 64),
     UInt8.ofNat (0x80 + n / 64 % 64), UInt8.ofNat (0x80 + n % 64)]

/-- `string(runes)` / repeated `prefix + string(letter)`. Used at internal/index/node.go:73-90. -/
def encodeRunes (rs : List Rune) : Str := rs.flatMap encodeRune

/-- `utf8.RuneError`, U+FFFD. For internal/index/idx.go:254, 266. -/
def runeError : Rune := 0xFFFD

/-- Rune with a given code point. For internal/index/idx.go:254, 266. -/
def runeOfNat (n : Nat) : Rune := (UInt32.ofNat n).toInt32

/-- First rune of a non-empty byte string and its width in bytes, as Go's `utf8.DecodeRune`
(including the restricted ranges of the second byte); an invalid start gives U+FFFD, width 1. For
internal/index/idx.go:254, 266. -/
def decodeRune (s : Str) : Rune × Nat :=
  match s with
  | [] => (runeError, 0)
  | b0 :: t =>
    let a := b0.toNat
    let bad := (runeError, 1)
    if a < 0x80 then (runeOfNat a, 1)
    else if a < 0xC2 then bad
    else if a < 0xE0 then
      match t with
      | b1 :: _ =>
        if 0x80 ≤ b1.toNat ∧ b1.toNat ≤ 0xBF then
          (runeOfNat ((a - 0xC0) * 64 + (b1.toNat - 0x80)), 2)
        else bad
      | _ => bad
    else if a < 0xF0 then
      match t with
      | b1 :: b2 :: _ =>
        let lo := if a = 0xE0 then 0xA0 else 0x80
        let hi := if a = 0xED then 0x9F else 0xBF
        if lo ≤ b1.toNat ∧ b1.toNat ≤ hi ∧ 0x80 ≤ b2.toNat ∧ b2.toNat ≤ 0xBF then
          (runeOfNat ((a - 0xE0) * 4096 + (b1.toNat - 0x80) * 64 + (b2.toNat - 0x80)), 3)
        else bad
      | _ => bad
    else if a < 0xF5 then
      match t with
      | b1 :: b2 :: b3 :: _ =>
        let lo := if a = 0xF0 then 0x90 else 0x80
        let hi := if a = 0xF4 then 0x8F else 0xBF
        if lo ≤ b1.toNat ∧ b1.toNat ≤ hi ∧ 0x80 ≤ b2.toNat ∧ b2.toNat ≤ 0xBF ∧
            0x80 ≤ b3.toNat ∧ b3.toNat ≤ 0xBF then
          (runeOfNat ((a - 0xF0) * 262144 + (b1.toNat - 0x80) * 4096 + (b2.toNat - 0x80) * 64
            + (b3.toNat - 0x80)), 4)
        else bad
      | _ => bad
    else bad

/-- Loop of `[]rune(s)`; the first argument bounds the number of steps. For internal/index/idx.go:254, 266. -/
def decodeAux : Nat → Str → List Rune
  | 0, _ => []
  | _ + 1, [] => []
  | n + 1, s => (decodeRune s).1 :: decodeAux n (s.drop (decodeRune s).2)

/-- Go's conversion `[]rune(s)`. Used at internal/index/idx.go:254, 266. -/
def decodeRunes (s : Str) : List Rune := decodeAux s.length s

end Verif
