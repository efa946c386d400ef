import Verif.Model.Codec

/-!
# Model of `WriteTo` and `ReadFrom` of `Set8` and `Set16` on streams that fail

`Model/Codec.lean` models the bytes. Here are the calls with their effects: a writer that takes some bytes and then fails, a
stream that ends early, the count reported, what the error wraps and what is left in the receiver.
-/

namespace Verif

/-- An `io.Writer` that takes `room` more bytes and then fails; `got` is what it took. Given to `WriteTo` at
pkg/storage/set8.go:58, set16.go:58. -/
structure Sink where
  got : Str
  room : Nat
deriving DecidableEq, Repr

/-- One write of the binary writer: the sink takes what it has room for, and the write succeeds if that is everything. For
`WriteUint8`, `WriteUint16` at pkg/storage/set8.go:62, 69, set16.go:62, 69. -/
def Sink.write (k : Sink) (bs : Str) : Sink × Bool :=
  ({ got := k.got ++ bs.take k.room, room := k.room - bs.length }, decide (bs.length ≤ k.room))

/-- What the error of a call wraps with `%w`: `ErrSet8` (`ErrSet16`), or the error of the writer or reader. The other one is
text only (`%v`). For pkg/storage/set8.go:63, 70, 91, 99, set16.go:63, 70, 91, 99. -/
inductive SetErr where
  | kind
  | cause
deriving DecidableEq, Repr

/-- What a call of `WriteTo` leaves: the sink, the count reported and the error. For pkg/storage/set8.go:58-77. -/
structure SetWrite where
  sink : Sink
  count : Nat
  err : Option SetErr
deriving DecidableEq, Repr

/-- The element loop of `WriteTo`; every element is written by one call — pkg/storage/set8.go:68-74, set16.go:68-74 -/
def setWriteLoop {α : Type} (enc : α → Str) : List α → Sink → Nat → SetWrite
  | [], k, n => { sink := k, count := n, err := none }
  | x :: xs, k, n =>
    match k.write (enc x) with
    | (k, true) => setWriteLoop enc xs k (n + (enc x).length)
    | (k, false) => { sink := k, count := n, err := some .cause }

/-- `Set8.WriteTo` — pkg/storage/set8.go:58-77 -/
def set8WriteSink (s : List UInt8) (k : Sink) : SetWrite :=
  match k.write [UInt8.ofNat s.length] with
  | (k, true) => setWriteLoop (fun b => [b]) s k 1
  | (k, false) => { sink := k, count := 0, err := some .kind }

/-- `Set16.WriteTo` — pkg/storage/set16.go:58-77 -/
def set16WriteSink (s : List UInt16) (k : Sink) : SetWrite :=
  match k.write (u16Bytes (UInt16.ofNat s.length)) with
  | (k, true) => setWriteLoop u16Bytes s k 2
  | (k, false) => { sink := k, count := 0, err := some .kind }

/-- What a call of `ReadFrom` leaves: the receiver, the count reported, the error and the rest of the stream. For
pkg/storage/set8.go:82-107. -/
structure SetRead (α : Type) where
  val : List α
  count : Nat
  err : Option SetErr
  rest : Str
deriving DecidableEq, Repr

/-- The element loop of `ReadFrom` on a receiver of `n` zeros — pkg/storage/set8.go:97-104, set16.go:97-104. A read that fails
has taken what was left of the stream (as `io.ReadFull` does). -/
def setReadLoop {α : Type} (rd : Rd α) (width : Nat) (zero : α) : Nat → Str → Nat → SetRead α
  | 0, s, taken => { val := [], count := taken, err := none, rest := s }
  | n + 1, s, taken =>
    match rd s with
    | .ok (x, s) =>
      let y := setReadLoop rd width zero n s (taken + width)
      { y with val := x :: y.val }
    | _ => { val := List.replicate (n + 1) zero, count := taken, err := some .cause, rest := [] }

/-- `Set8.ReadFrom` into a receiver that holds `old` — pkg/storage/set8.go:82-107; `TagSet.ReadFrom` is the same —
internal/index/tagset_def.go:121-146 -/
def set8Fill (old : List UInt8) (s : Str) : SetRead UInt8 :=
  match readU8 s with
  | .ok (n, s) => setReadLoop readU8 1 0 n.toNat s 1
  | _ => { val := old, count := 0, err := some .cause, rest := [] }

/-- `Set16.ReadFrom` into a receiver that holds `old` — pkg/storage/set16.go:82-107 -/
def set16Fill (old : List UInt16) (s : Str) : SetRead UInt16 :=
  match readU16 s with
  | .ok (n, s) => setReadLoop readU16 2 0 n.toNat s 2
  | _ => { val := old, count := 0, err := some .cause, rest := [] }

end Verif
