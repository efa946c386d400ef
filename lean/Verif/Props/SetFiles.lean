import Verif.Lemmas.Codec

/-!
# C30 — stand-alone set files: `Set8`, `Set16`, `TagSet` `WriteTo` / `ReadFrom`

`set8WriteTo`/`set8ReadFrom` model `storage.Set8` as well as `index.TagSet` (same code).
-/

namespace Verif

theorem set8ReadLoop_append (s t : Str) (taken : Nat) (acc : List UInt8) :
    set8ReadLoop s.length (s ++ t) taken acc = (.ok (acc ++ s), taken + s.length, t) := by
  induction s generalizing taken acc with
  | nil => simp [set8ReadLoop]
  | cons a s ih =>
    simp only [List.length_cons, List.cons_append, set8ReadLoop, readU8]
    rw [ih]
    simp only [List.append_assoc, List.cons_append, List.nil_append]
    congr 2
    omega

theorem set8ReadLoop_short (s : Str) (n taken : Nat) (acc : List UInt8) (h : s.length < n) :
    set8ReadLoop n s taken acc = (.err .eof, taken + s.length, []) := by
  induction n generalizing s taken acc with
  | zero => omega
  | succ n ih =>
    cases s with
    | nil => rfl
    | cons a s =>
      simp only [set8ReadLoop, readU8]
      rw [ih _ _ _ (by simpa using h)]
      simp only [List.length_cons]
      congr 2
      omega

theorem readU16_u16Bytes (x : UInt16) (t : Str) : readU16 (u16Bytes x ++ t) = .ok (x, t) := RT_U16 x t

theorem set16ReadLoop_append (s : List UInt16) (t : Str) (taken : Nat) (acc : List UInt16) :
    set16ReadLoop s.length (s.flatMap u16Bytes ++ t) taken acc
      = (.ok (acc ++ s), taken + 2 * s.length, t) := by
  induction s generalizing taken acc with
  | nil => simp [set16ReadLoop]
  | cons a s ih =>
    simp only [List.length_cons, List.flatMap_cons, List.append_assoc, set16ReadLoop, readU16_u16Bytes]
    rw [ih]
    simp only [List.append_assoc, List.cons_append, List.nil_append]
    congr 2
    omega

theorem set16ReadLoop_short (s : Str) (n taken : Nat) (acc : List UInt16) (h : s.length < 2 * n) :
    ∃ k rest, set16ReadLoop n s taken acc = (.err .eof, k, rest) := by
  induction n generalizing s taken acc with
  | zero => omega
  | succ n ih =>
    match s with
    | [] => exact ⟨_, _, rfl⟩
    | [_] => exact ⟨_, _, rfl⟩
    | a :: b :: s =>
      simp only [set16ReadLoop, readU16]
      exact ih _ _ _ (by simp only [List.length_cons] at h; omega)

theorem length_flatMap_u16Bytes (s : List UInt16) : (s.flatMap u16Bytes).length = 2 * s.length := by
  induction s with
  | nil => rfl
  | cons a s ih =>
    rw [List.flatMap_cons, List.length_append, ih]
    simp only [u16Bytes, writeU16, Wr.put, List.length_cons, List.length_nil]
    omega

/-- C30, part 1: sets of at most 255 one-byte elements (`Set8`, `TagSet`) survive, whatever follows in
the stream; both calls report the number of bytes of the encoding. -/
theorem C30_set8 (s : List UInt8) (h : s.length ≤ 255) (rest : Str) :
    set8ReadFrom ((set8WriteTo s).1 ++ rest) = (.ok s, (set8WriteTo s).1.length, rest) ∧
    (set8WriteTo s).2 = (set8WriteTo s).1.length := by
  have hn : (UInt8.ofNat s.length).toNat = s.length := by
    rw [UInt8.toNat_ofNat']; omega
  refine ⟨?_, by simp [set8WriteTo]; omega⟩
  simp only [set8WriteTo, List.cons_append, set8ReadFrom, readU8, hn]
  rw [set8ReadLoop_append]
  simp only [List.nil_append, List.length_cons]
  congr 2
  omega

/-- C30, part 2: the same for `Set16` and 65535 elements. -/
theorem C30_set16 (s : List UInt16) (h : s.length ≤ 65535) (rest : Str) :
    set16ReadFrom ((set16WriteTo s).1 ++ rest) = (.ok s, (set16WriteTo s).1.length, rest) ∧
    (set16WriteTo s).2 = (set16WriteTo s).1.length := by
  have hn : (UInt16.ofNat s.length).toNat = s.length := by
    rw [UInt16.toNat_ofNat']; omega
  have hl : (set16WriteTo s).1.length = 2 + 2 * s.length := by
    simp only [set16WriteTo, List.length_append, length_flatMap_u16Bytes]
    rfl
  refine ⟨?_, hl.symm⟩
  rw [hl]
  simp only [set16WriteTo, List.append_assoc, set16ReadFrom, readU16_u16Bytes, hn]
  rw [set16ReadLoop_append]
  rfl

/-- C30, part 3: a file cut anywhere is rejected. -/
theorem C30_truncated8 (s : List UInt8) (h : s.length ≤ 255) (p q : Str)
    (hq : q ≠ []) (hpq : (set8WriteTo s).1 = p ++ q) : ∃ e, (set8ReadFrom p).1 = .err e := by
  have hn : (UInt8.ofNat s.length).toNat = s.length := by
    rw [UInt8.toNat_ofNat']; omega
  cases p with
  | nil => exact ⟨_, rfl⟩
  | cons a p =>
    simp only [set8WriteTo, List.cons_append, List.cons.injEq] at hpq
    obtain ⟨rfl, hpq⟩ := hpq
    have hl := congrArg List.length hpq
    have hq' := List.length_pos_iff.2 hq
    rw [List.length_append] at hl
    simp only [set8ReadFrom, readU8, hn]
    rw [set8ReadLoop_short _ _ _ _ (by omega)]
    exact ⟨_, rfl⟩

theorem C30_truncated16 (s : List UInt16) (h : s.length ≤ 65535) (p q : Str)
    (hq : q ≠ []) (hpq : (set16WriteTo s).1 = p ++ q) : ∃ e, (set16ReadFrom p).1 = .err e := by
  have hn : (UInt16.ofNat s.length).toNat = s.length := by
    rw [UInt16.toNat_ofNat']; omega
  have hl := congrArg List.length hpq
  have hq' := List.length_pos_iff.2 hq
  rw [List.length_append] at hl
  simp only [set16WriteTo, List.length_append, length_flatMap_u16Bytes] at hl
  match p with
  | [] => exact ⟨_, rfl⟩
  | [_] => exact ⟨_, rfl⟩
  | a :: b :: p =>
    have h2 : readU16 (a :: b :: p) = .ok (UInt16.ofNat s.length, p) := by
      have h1 := readU16_u16Bytes (UInt16.ofNat s.length) (s.flatMap u16Bytes)
      simp only [set16WriteTo] at hpq
      rw [hpq] at h1
      simp only [List.cons_append, readU16, Out.ok.injEq, Prod.mk.injEq] at h1 ⊢
      exact ⟨h1.1, trivial⟩
    simp only [set16ReadFrom, h2, hn]
    have : (u16Bytes (UInt16.ofNat s.length)).length = 2 := rfl
    simp only [List.length_cons, this] at hl
    obtain ⟨k, rest, hk⟩ := set16ReadLoop_short p s.length 2 [] (by omega)
    rw [hk]
    exact ⟨_, rfl⟩

/-- C30 is false beyond 255 elements: every longer set is read back, without an error, as its first
`length % 256` elements. -/
theorem not_C30_long8 (s : List UInt8) (h : 255 < s.length) :
    ∃ s', (set8ReadFrom (set8WriteTo s).1).1 = .ok s' ∧ s' = s.take (s.length % 256) ∧ s' ≠ s := by
  refine ⟨_, ?_, rfl, ?_⟩
  · have hn : (UInt8.ofNat s.length).toNat = (s.take (s.length % 256)).length := by
      rw [UInt8.toNat_ofNat', List.length_take]; omega
    simp only [set8WriteTo, set8ReadFrom, readU8, hn]
    conv => lhs; rw [← List.take_append_drop (s.length % 256) s]
    rw [List.take_append_drop]
    have := set8ReadLoop_append (s.take (s.length % 256)) (s.drop (s.length % 256)) 1 []
    rw [List.take_append_drop] at this
    rw [this]
    rfl
  · intro he
    have := congrArg List.length he
    rw [List.length_take] at this
    omega

/-- The same for `Set16` beyond 65535 elements. -/
theorem not_C30_long16 (s : List UInt16) (h : 65535 < s.length) :
    ∃ s', (set16ReadFrom (set16WriteTo s).1).1 = .ok s' ∧ s' = s.take (s.length % 65536) ∧
      s' ≠ s := by
  refine ⟨_, ?_, rfl, ?_⟩
  · have hn : (UInt16.ofNat s.length).toNat = (s.take (s.length % 65536)).length := by
      rw [UInt16.toNat_ofNat', List.length_take]; omega
    simp only [set16WriteTo, set16ReadFrom, readU16_u16Bytes, hn]
    have := set16ReadLoop_append (s.take (s.length % 65536))
      ((s.drop (s.length % 65536)).flatMap u16Bytes) 2 []
    rw [← List.flatMap_append, List.take_append_drop] at this
    rw [this]
    rfl
  · intro he
    have := congrArg List.length he
    rw [List.length_take] at this
    omega

/-- C30, whatever the length: reading gives the first `length % 256` elements and leaves the others in the stream, before
what follows; the set comes back if and only if it has at most 255 elements. -/
theorem C30_exact8 (s : List UInt8) (rest : Str) :
    set8ReadFrom ((set8WriteTo s).1 ++ rest) =
      (.ok (s.take (s.length % 256)), 1 + s.length % 256, s.drop (s.length % 256) ++ rest) ∧
    (set8WriteTo s).2 = (set8WriteTo s).1.length ∧
    ((set8ReadFrom ((set8WriteTo s).1 ++ rest)).1 = .ok s ↔ s.length ≤ 255) := by
  have hl : (s.take (s.length % 256)).length = s.length % 256 := by
    rw [List.length_take]; omega
  have hn : (UInt8.ofNat s.length).toNat = (s.take (s.length % 256)).length := by
    rw [UInt8.toNat_ofNat', hl]
  have h1 : set8ReadFrom ((set8WriteTo s).1 ++ rest) =
      (.ok (s.take (s.length % 256)), 1 + s.length % 256, s.drop (s.length % 256) ++ rest) := by
    simp only [set8WriteTo, List.cons_append, set8ReadFrom, readU8, hn]
    have := set8ReadLoop_append (s.take (s.length % 256)) (s.drop (s.length % 256) ++ rest) 1 []
    rw [← List.append_assoc, List.take_append_drop] at this
    rw [this, hl]
    rfl
  refine ⟨h1, by simp [set8WriteTo]; omega, ?_⟩
  rw [h1]
  constructor
  · intro h
    have := congrArg List.length (Out.ok.inj h)
    omega
  · intro h
    show Out.ok _ = _
    rw [Nat.mod_eq_of_lt (by omega), List.take_length]

/-- The same for `Set16`. -/
theorem C30_exact16 (s : List UInt16) (rest : Str) :
    set16ReadFrom ((set16WriteTo s).1 ++ rest) =
      (.ok (s.take (s.length % 65536)), 2 + 2 * (s.length % 65536),
        (s.drop (s.length % 65536)).flatMap u16Bytes ++ rest) ∧
    (set16WriteTo s).2 = (set16WriteTo s).1.length ∧
    ((set16ReadFrom ((set16WriteTo s).1 ++ rest)).1 = .ok s ↔ s.length ≤ 65535) := by
  have hl : (s.take (s.length % 65536)).length = s.length % 65536 := by
    rw [List.length_take]; omega
  have hn : (UInt16.ofNat s.length).toNat = (s.take (s.length % 65536)).length := by
    rw [UInt16.toNat_ofNat', hl]
  have h1 : set16ReadFrom ((set16WriteTo s).1 ++ rest) =
      (.ok (s.take (s.length % 65536)), 2 + 2 * (s.length % 65536),
        (s.drop (s.length % 65536)).flatMap u16Bytes ++ rest) := by
    simp only [set16WriteTo, List.append_assoc, set16ReadFrom, readU16_u16Bytes, hn]
    have := set16ReadLoop_append (s.take (s.length % 65536))
      ((s.drop (s.length % 65536)).flatMap u16Bytes ++ rest) 2 []
    rw [← List.append_assoc, ← List.flatMap_append, List.take_append_drop] at this
    rw [this, hl]
    rfl
  refine ⟨h1, ?_, ?_⟩
  · simp only [set16WriteTo, List.length_append, length_flatMap_u16Bytes]
    rfl
  · rw [h1]
    constructor
    · intro h
      have := congrArg List.length (Out.ok.inj h)
      omega
    · intro h
      show Out.ok _ = _
      rw [Nat.mod_eq_of_lt (by omega), List.take_length]

example : set8WriteTo [3, 1, 2] = ([3, 3, 1, 2], 4) ∧
    set8ReadFrom [3, 3, 1, 2, 9] = (.ok [3, 1, 2], 4, [9]) := by decide
example : set16WriteTo [0x0102, 7] = ([0, 2, 1, 2, 0, 7], 6) := by decide
example : 255 < (List.replicate 256 (1 : UInt8)).length := by rw [List.length_replicate]; decide

end Verif
