import Verif.Model.Go

/-! # Specification: whole numbers as they are written in Go

After "Integer literals" of the Go language specification. -/

namespace Verif

/-- The digit `c` stands for `d`. -/
def IsDigit (c : UInt8) (d : Nat) : Prop :=
  (str "0123456789abcdef")[d]? = some c ∨ (str "0123456789ABCDEF")[d]? = some c

/-- Digits of base `b`, with single underscores between them, that stand for `n`. -/
inductive Digits (b : Nat) : Str → Nat → Prop
  | one {c d} : IsDigit c d → d < b → Digits b [c] d
  | more {s n c d} : Digits b s n → IsDigit c d → d < b → Digits b (s ++ [c]) (n * b + d)
  | under {s n c d} : Digits b s n → IsDigit c d → d < b → Digits b (s ++ str "_" ++ [c]) (n * b + d)

/-- An integer literal `s` of Go that stands for `n`: decimal digits that do not begin with 0; a single 0; octal digits
after a 0; binary, octal or hexadecimal digits after a prefix. One underscore may follow the 0 or the prefix. -/
inductive IntLit : Str → Nat → Prop
  | decimal {s n} : Digits 10 s n → s.head? ≠ some 0x30 → IntLit s n
  | zero : IntLit (str "0") 0
  | based {p u s b n} : (p, b) ∈ [(str "0", 8), (str "0b", 2), (str "0B", 2), (str "0o", 8), (str "0O", 8), (str "0x", 16),
      (str "0X", 16)] → u = [] ∨ u = str "_" → Digits b s n → IntLit (p ++ u ++ s) n

/-- An integer literal with or without a sign. -/
def SignedLit (s : Str) (z : Int) : Prop :=
  ∃ n : Nat, (IntLit s n ∧ z = n) ∨ (∃ t, s = str "+" ++ t ∧ IntLit t n ∧ z = n) ∨
    ∃ t, s = str "-" ++ t ∧ IntLit t n ∧ z = -(n : Int)

/-- Decimal digits, with or without a sign; zeros at the front and no underscores. -/
def SignedDecimal (s : Str) (z : Int) : Prop :=
  ∃ (t : Str) (n : Nat), Digits 10 t n ∧ 0x5f ∉ t ∧
    ((s = t ∧ z = n) ∨ (s = str "+" ++ t ∧ z = n) ∨ (s = str "-" ++ t ∧ z = -(n : Int)))

/-- What fits into an `int` of 64 bits. -/
def FitsInt (z : Int) : Prop := -9223372036854775808 ≤ z ∧ z ≤ 9223372036854775807

end Verif
