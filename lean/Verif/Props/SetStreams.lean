import Verif.Model.SetStreams
import Verif.Props.SetFiles

/-!
# C103 — what `WriteTo` and `ReadFrom` of a set report is true, also on a stream that fails

The bytes of a set are those of `set8WriteTo` and `set16WriteTo` (C30): the number of elements, then the elements.
-/

namespace Verif

/-! ## Writing -/

theorem Sink.write_ok {k : Sink} {bs : Str} (h : bs.length ≤ k.room) :
    k.write bs = ({ got := k.got ++ bs, room := k.room - bs.length }, true) := by
  unfold Sink.write
  rw [List.take_of_length_le h, decide_eq_true h]

theorem Sink.write_fail {k : Sink} {bs : Str} (h : k.room < bs.length) :
    k.write bs = ({ got := k.got ++ bs.take k.room, room := 0 }, false) := by
  unfold Sink.write
  rw [decide_eq_false (by omega), Nat.sub_eq_zero_of_le (by omega)]

/-- The loop, for elements of `w` bytes. -/
theorem setWriteLoop_eq {α : Type} (enc : α → Str) {w : Nat} (hw : 0 < w) (he : ∀ x, (enc x).length = w)
    (xs : List α) (k : Sink) (n : Nat) :
    (setWriteLoop enc xs k n).sink.got = k.got ++ (xs.flatMap enc).take k.room ∧
    (setWriteLoop enc xs k n).count = n + w * min xs.length (k.room / w) ∧
    (setWriteLoop enc xs k n).err = if w * xs.length ≤ k.room then none else some .cause := by
  induction xs generalizing k n with
  | nil => simp [setWriteLoop]
  | cons x xs ih =>
    rw [setWriteLoop]
    by_cases h : w ≤ k.room
    · rw [Sink.write_ok (by rw [he]; exact h)]
      obtain ⟨i1, i2, i3⟩ := ih { got := k.got ++ enc x, room := k.room - (enc x).length } (n + (enc x).length)
      refine ⟨?_, ?_, ?_⟩
      · rw [i1, List.flatMap_cons, List.take_append, List.append_assoc, List.take_of_length_le (l := enc x) (by rw [he]; exact h)]
      · rw [i2]
        simp only [he, List.length_cons]
        have e : k.room / w = (k.room - w) / w + 1 := by
          rw [← Nat.div_eq_sub_div hw h]
        rw [e, Nat.succ_min_succ, Nat.mul_succ]
        omega
      · rw [i3]
        simp only [he, List.length_cons, Nat.mul_succ]
        by_cases hc : w * xs.length ≤ k.room - w
        · rw [if_pos hc, if_pos (by omega)]
        · rw [if_neg hc, if_neg (by omega)]
    · rw [Sink.write_fail (by rw [he]; omega)]
      refine ⟨?_, ?_, ?_⟩
      · simp only [List.flatMap_cons]
        rw [List.take_append_of_le_length (by rw [he]; omega)]
      · simp only
        rw [Nat.div_eq_of_lt (by omega), Nat.min_zero, Nat.mul_zero, Nat.add_zero]
      · rw [if_neg]
        have : w * 1 ≤ w * (x :: xs).length := Nat.mul_le_mul_left _ (by simp)
        omega

/-- C103, `Set8.WriteTo`: the writer gets the beginning of the bytes that it has room for, the count is what it got, and there
is an error exactly if that is not everything. -/
theorem C103_write8 (s : List UInt8) (k : Sink) :
    (set8WriteSink s k).sink.got = k.got ++ (set8WriteTo s).1.take k.room ∧
    (set8WriteSink s k).count = min (set8WriteTo s).1.length k.room ∧
    ((set8WriteSink s k).err = none ↔ (set8WriteTo s).1.length ≤ k.room) := by
  have hf : s.flatMap (fun b => [b]) = s := by induction s with
    | nil => rfl
    | cons a s ih => rw [List.flatMap_cons, ih]; rfl
  unfold set8WriteSink set8WriteTo
  by_cases h : 1 ≤ k.room
  · rw [Sink.write_ok (by simpa using h)]
    obtain ⟨i1, i2, i3⟩ := setWriteLoop_eq (fun b : UInt8 => [b]) (w := 1) (by omega) (fun _ => rfl) s
      { got := k.got ++ [UInt8.ofNat s.length], room := k.room - 1 } 1
    obtain ⟨r, hr⟩ : ∃ r, k.room = r + 1 := ⟨k.room - 1, by omega⟩
    refine ⟨?_, ?_, ?_⟩
    · simp only [List.length_cons, List.length_nil, Nat.zero_add]
      rw [i1, hf, hr]
      simp
    · simp only [List.length_cons, List.length_nil, Nat.zero_add]
      rw [i2, hr]
      simp only [Nat.add_sub_cancel, Nat.div_one]
      omega
    · simp only [List.length_cons, List.length_nil, Nat.zero_add]
      rw [i3, hr]
      simp only [Nat.add_sub_cancel, Nat.one_mul]
      by_cases hc : s.length ≤ r
      · rw [if_pos hc]; simp [hc]
      · rw [if_neg hc]; simp; omega
  · rw [Sink.write_fail (by simp; omega)]
    have : k.room = 0 := by omega
    simp [this]

/-- C103, `Set16.WriteTo`: the same, but the count is rounded down to whole elements. -/
theorem C103_write16 (s : List UInt16) (k : Sink) :
    (set16WriteSink s k).sink.got = k.got ++ (set16WriteTo s).1.take k.room ∧
    (set16WriteSink s k).count = 2 * (min (set16WriteTo s).1.length k.room / 2) ∧
    ((set16WriteSink s k).err = none ↔ (set16WriteTo s).1.length ≤ k.room) := by
  have hl : (set16WriteTo s).1.length = 2 + 2 * s.length := by
    simp only [set16WriteTo, List.length_append, length_flatMap_u16Bytes]
    rfl
  have h2 : ∀ x : UInt16, (u16Bytes x).length = 2 := fun _ => rfl
  rw [hl]
  unfold set16WriteSink set16WriteTo
  by_cases h : 2 ≤ k.room
  · rw [Sink.write_ok (by rw [h2]; exact h)]
    obtain ⟨i1, i2, i3⟩ := setWriteLoop_eq u16Bytes (w := 2) (by omega) h2 s
      { got := k.got ++ u16Bytes (UInt16.ofNat s.length), room := k.room - 2 } 2
    refine ⟨?_, ?_, ?_⟩
    · simp only [h2]
      rw [i1, List.take_append, h2, List.append_assoc, List.take_of_length_le (l := u16Bytes _) (by rw [h2]; exact h)]
    · simp only [h2]
      rw [i2]
      simp only
      omega
    · simp only [h2]
      rw [i3]
      simp only
      by_cases hc : 2 * s.length ≤ k.room - 2
      · rw [if_pos hc]; simp; omega
      · rw [if_neg hc]; simp; omega
  · rw [Sink.write_fail (by rw [h2]; omega)]
    refine ⟨?_, ?_, ?_⟩
    · simp only
      rw [List.take_append_of_le_length (by rw [h2]; omega)]
    · simp only; omega
    · simp; omega

/-! ## Reading -/

theorem setReadLoop8_eq (n : Nat) (s : Str) (taken : Nat) :
    setReadLoop readU8 1 0 n s taken =
      { val := s.take n ++ List.replicate (n - s.length) 0, count := taken + min n s.length,
        err := if n ≤ s.length then none else some .cause, rest := s.drop n } := by
  induction n generalizing s taken with
  | zero => simp [setReadLoop]
  | succ n ih =>
    cases s with
    | nil => simp [setReadLoop, readU8]
    | cons a s =>
      simp only [setReadLoop, readU8, ih, List.length_cons, List.take_succ_cons, List.drop_succ_cons, List.cons_append,
        Nat.succ_sub_succ, Nat.succ_min_succ, Nat.succ_le_succ_iff]
      congr 1
      omega

/-- C103, `Set8.ReadFrom` (and `TagSet.ReadFrom`) of any stream into any receiver: the first byte says how many follow; the
receiver holds those that are there, the count is what was taken, and there is an error exactly if some are missing. Nothing is
done with an empty stream. -/
theorem C103_read8 (old : List UInt8) (n : UInt8) (s : Str) :
    set8Fill old [] = { val := old, count := 0, err := some .cause, rest := [] } ∧
    set8Fill old (n :: s) =
      { val := s.take n.toNat ++ List.replicate (n.toNat - s.length) 0, count := 1 + min n.toNat s.length,
        err := if n.toNat ≤ s.length then none else some .cause, rest := s.drop n.toNat } :=
  ⟨rfl, by simp only [set8Fill, readU8, setReadLoop8_eq]⟩

/-- The whole elements of two bytes in a stream. -/
def wholeWords : Str → List UInt16
  | a :: b :: s => UInt16.ofNat (a.toNat * 256 + b.toNat) :: wholeWords s
  | _ => []

theorem setReadLoop16_eq (n : Nat) (s : Str) (taken : Nat) :
    setReadLoop readU16 2 0 n s taken =
      { val := (wholeWords s).take n ++ List.replicate (n - s.length / 2) 0, count := taken + 2 * min n (s.length / 2),
        err := if 2 * n ≤ s.length then none else some .cause, rest := s.drop (2 * n) } := by
  induction n generalizing s taken with
  | zero => simp [setReadLoop]
  | succ n ih =>
    match s with
    | [] => simp [setReadLoop, readU16, wholeWords]
    | [_] => simp [setReadLoop, readU16, wholeWords]; omega
    | a :: b :: s =>
      have e : (s.length + 1 + 1) / 2 = s.length / 2 + 1 := by omega
      have e2 : (2 * (n + 1) ≤ s.length + 1 + 1) = (2 * n ≤ s.length) := by
        apply propext; omega
      have e3 : 2 * (n + 1) = 2 * n + 1 + 1 := by omega
      simp only [setReadLoop, readU16, ih, List.length_cons, wholeWords, List.take_succ_cons, e, Nat.succ_sub_succ,
        Nat.succ_min_succ, List.cons_append]
      simp only [e2]
      simp only [e3, List.drop_succ_cons]
      congr 1
      omega

/-- C103, `Set16.ReadFrom` of any stream into any receiver: the first two bytes say how many elements follow; the receiver
holds those that are there as a whole, and there is an error exactly if some are missing. The count is what was taken, rounded
down to whole elements. -/
theorem C103_read16 (old : List UInt16) (a b : UInt8) (s : Str) (n : Nat) (hn : n = a.toNat * 256 + b.toNat) :
    set16Fill old [] = { val := old, count := 0, err := some .cause, rest := [] } ∧
    set16Fill old [a] = { val := old, count := 0, err := some .cause, rest := [] } ∧
    set16Fill old (a :: b :: s) =
      { val := (wholeWords s).take n ++ List.replicate (n - s.length / 2) 0, count := 2 + 2 * min n (s.length / 2),
        err := if 2 * n ≤ s.length then none else some .cause, rest := s.drop (2 * n) } := by
  refine ⟨rfl, rfl, ?_⟩
  have ha := a.toNat_lt
  have hb := b.toNat_lt
  simp only [set16Fill, readU16, setReadLoop16_eq]
  rw [UInt16.toNat_ofNat', Nat.mod_eq_of_lt (by omega), ← hn]

/-! ## Sending a set through a stream that may break -/

/-- C103: a set is written to a stream that takes `r` bytes, and what came through is read. Either both calls succeed and the
set arrives, or both fail; then the elements that came through are at their places and zeros at the others. The counts of both
calls are the number of bytes that came through. -/
theorem C103_sent8 (s old : List UInt8) (h : s.length ≤ 255) (r : Nat) :
    let w := set8WriteSink s { got := [], room := r }
    let x := set8Fill old w.sink.got
    w.count = w.sink.got.length ∧ x.count = w.sink.got.length ∧ x.rest = [] ∧
    (w.err = none ↔ s.length < r) ∧ (x.err = none ↔ s.length < r) ∧
    (s.length < r → x.val = s) ∧ (r = 0 → x.val = old) ∧
    (0 < r → x.val = s.take (r - 1) ++ List.replicate (s.length - (r - 1)) 0) := by
  intro w x
  have hn : (UInt8.ofNat s.length).toNat = s.length := by
    rw [UInt8.toNat_ofNat']; omega
  obtain ⟨w1, w2, w3⟩ := C103_write8 s { got := [], room := r }
  have hl : (set8WriteTo s).1.length = 1 + s.length := by simp [set8WriteTo]; omega
  rw [List.nil_append] at w1
  have hgl : w.sink.got.length = min r (1 + s.length) := by
    rw [w1, List.length_take, hl]
  have hwe : w.err = none ↔ s.length < r := by
    rw [w3, hl]; simp only; omega
  have hx : x = set8Fill old ((set8WriteTo s).1.take r) := by rw [← w1]
  have hwc : w.count = w.sink.got.length := by rw [w2, hgl, hl, Nat.min_comm]
  cases r with
  | zero =>
    have : x = { val := old, count := 0, err := some .cause, rest := [] } := by
      rw [hx, List.take_zero]; rfl
    rw [hgl, this]
    refine ⟨hwc.trans (hgl), by simp, rfl, hwe, by simp, by simp, by simp, by simp⟩
  | succ r =>
    have e : (set8WriteTo s).1.take (r + 1) = UInt8.ofNat s.length :: s.take r := rfl
    rw [e, (C103_read8 old _ _).2, hn] at hx
    simp only [List.length_take, List.take_take, List.drop_take] at hx
    rw [hgl, hx]
    refine ⟨hwc.trans hgl, by simp only; omega, ?_, hwe, ?_, ?_, by simp, ?_⟩
    · simp
    · simp only
      by_cases hc : s.length ≤ min r s.length
      · rw [if_pos hc]; simp; omega
      · rw [if_neg hc]; simp; omega
    · intro hlt
      simp only
      rw [List.take_of_length_le (by omega), Nat.sub_eq_zero_of_le (by omega)]
      simp
    · intro _
      simp only [Nat.add_sub_cancel]
      rw [Nat.min_comm r, show s.length - min s.length r = s.length - r by omega]
      congr 1
      by_cases hc : r ≤ s.length
      · rw [Nat.min_eq_right hc]
      · rw [Nat.min_eq_left (by omega), List.take_length, List.take_of_length_le (by omega)]

theorem wholeWords_take (s : List UInt16) (m : Nat) : wholeWords ((s.flatMap u16Bytes).take m) = s.take (m / 2) := by
  induction s generalizing m with
  | nil => simp [wholeWords]
  | cons x s ih =>
    match m with
    | 0 => simp [wholeWords]
    | 1 =>
      rw [List.flatMap_cons]
      simp [u16Bytes, writeU16, Wr.put, wholeWords]
    | m + 2 =>
      rw [show (m + 2) / 2 = m / 2 + 1 by omega, List.take_succ_cons, ← ih m, List.flatMap_cons]
      have h1 := readU16_u16Bytes x (s.flatMap u16Bytes)
      obtain ⟨a, b, e⟩ : ∃ a b, u16Bytes x = [a, b] := ⟨_, _, rfl⟩
      rw [e] at h1 ⊢
      simp only [List.cons_append, List.nil_append, readU16, Out.ok.injEq, Prod.mk.injEq] at h1
      simp only [List.cons_append, List.nil_append, List.take_succ_cons, wholeWords, h1.1]

/-- C103, the same for `Set16`; for the counts see `C103_count16_exact`. -/
theorem C103_sent16 (s old : List UInt16) (h : s.length ≤ 65535) (r : Nat) :
    let w := set16WriteSink s { got := [], room := r }
    let x := set16Fill old w.sink.got
    x.count = w.count ∧ x.rest = [] ∧ (w.err = none ↔ 2 + 2 * s.length ≤ r) ∧ (x.err = none ↔ 2 + 2 * s.length ≤ r) ∧
    (2 + 2 * s.length ≤ r → x.val = s) ∧ (r < 2 → x.val = old) ∧
    (2 ≤ r → x.val = s.take (r / 2 - 1) ++ List.replicate (s.length - (r / 2 - 1)) 0) := by
  intro w x
  have hn : (UInt16.ofNat s.length).toNat = s.length := by
    rw [UInt16.toNat_ofNat']; omega
  obtain ⟨w1, w2, w3⟩ := C103_write16 s { got := [], room := r }
  have hl : (set16WriteTo s).1.length = 2 + 2 * s.length := by
    simp only [set16WriteTo, List.length_append, length_flatMap_u16Bytes]
    rfl
  rw [hl] at w2 w3
  rw [List.nil_append] at w1
  have hx : x = set16Fill old ((set16WriteTo s).1.take r) := by rw [← w1]
  obtain ⟨a, b, e⟩ : ∃ a b, u16Bytes (UInt16.ofNat s.length) = [a, b] := ⟨_, _, rfl⟩
  have hab : s.length = a.toNat * 256 + b.toNat := by
    have h1 := readU16_u16Bytes (UInt16.ofNat s.length) []
    rw [e] at h1
    simp only [List.cons_append, List.nil_append, readU16, Out.ok.injEq, Prod.mk.injEq] at h1
    have ha := a.toNat_lt
    have hb := b.toNat_lt
    rw [← hn, ← h1.1, UInt16.toNat_ofNat', Nat.mod_eq_of_lt (by omega)]
  have ew : (set16WriteTo s).1 = a :: b :: s.flatMap u16Bytes := by
    unfold set16WriteTo; rw [e]; rfl
  rw [ew] at hx
  change w.count = 2 * (min (2 + 2 * s.length) r / 2) at w2
  change w.err = none ↔ 2 + 2 * s.length ≤ r at w3
  clear_value w x
  match r with
  | 0 =>
    rw [List.take_zero, (C103_read16 old a b [] _ rfl).1] at hx
    rw [hx]
    exact ⟨by rw [w2]; simp, rfl, w3, by simp, by simp, by simp, by simp⟩
  | 1 =>
    rw [show (a :: b :: s.flatMap u16Bytes).take 1 = [a] from rfl, (C103_read16 old a b [] _ rfl).2.1] at hx
    rw [hx]
    exact ⟨by rw [w2]; simp; omega, rfl, w3, by simp; omega, by intro hc; omega, by simp, by simp⟩
  | r + 2 =>
    rw [List.take_succ_cons, List.take_succ_cons, (C103_read16 old a b _ _ hab).2.2, wholeWords_take, List.length_take,
      length_flatMap_u16Bytes, List.drop_take] at hx
    have hc : 2 * s.length ≤ min r (2 * s.length) ↔ 2 + 2 * s.length ≤ r + 2 := by omega
    rw [hx]
    refine ⟨by rw [w2]; simp only; omega, ?_, w3, ?_, ?_, by omega, ?_⟩
    · simp only
      rw [List.drop_of_length_le (by rw [length_flatMap_u16Bytes]), List.take_nil]
    · simp only [hc]
      split <;> simp_all
    · intro hr
      simp only
      rw [List.take_of_length_le (l := s) (by omega), List.take_of_length_le (by omega), Nat.sub_eq_zero_of_le (by omega)]
      simp
    · intro _
      simp only [List.take_take]
      rw [show (r + 2) / 2 - 1 = r / 2 by omega]
      by_cases hr : r / 2 ≤ s.length
      · rw [Nat.min_eq_right hr, show s.length - min r (2 * s.length) / 2 = s.length - r / 2 by omega]
      · rw [Nat.min_eq_left (by omega), List.take_length, List.take_of_length_le (by omega),
          show s.length - min r (2 * s.length) / 2 = s.length - r / 2 by omega]

/-- What C30 says of the calls is said of these. -/
theorem C103_same8 (s : Str) (old : List UInt8) :
    set8ReadFrom s = (match set8Fill old s with
      | { val := v, count := c, err := none, rest := r } => (.ok v, c, r)
      | { val := _, count := c, err := some _, rest := r } => (.err .eof, c, r)) := by
  cases s with
  | nil => rfl
  | cons n s =>
    rw [(C103_read8 old n s).2]
    simp only [set8ReadFrom, readU8]
    by_cases h : n.toNat ≤ s.length
    · have := set8ReadLoop_append (s.take n.toNat) (s.drop n.toNat) 1 []
      rw [List.take_append_drop, List.length_take, Nat.min_eq_left h] at this
      rw [this, if_pos h]
      simp [h]
    · rw [set8ReadLoop_short _ _ _ _ (by omega), if_neg h]
      simp only
      rw [List.drop_of_length_le (by omega), Nat.min_eq_right (by omega)]

/-! ## What is not true -/

/-- C103 is false of `Set16`: cut inside an element, the count is not what the writer got, and not what the reader took. -/
theorem not_C103_count16 : ∃ s k, (set16WriteSink s k).count ≠ (set16WriteSink s k).sink.got.length ∧
    (set16Fill [] (set16WriteSink s k).sink.got).count ≠ (set16WriteSink s k).sink.got.length :=
  ⟨[1, 2], { got := [], room := 3 }, by decide, by decide⟩

/-- Exactly then: the stream breaks after an odd number of bytes, before the end of the set. -/
theorem C103_count16_exact (s : List UInt16) (r : Nat) :
    (set16WriteSink s { got := [], room := r }).count ≠ (set16WriteSink s { got := [], room := r }).sink.got.length ↔
      r % 2 = 1 ∧ r < 2 + 2 * s.length := by
  obtain ⟨w1, w2, _⟩ := C103_write16 s { got := [], room := r }
  have hl : (set16WriteTo s).1.length = 2 + 2 * s.length := by
    simp only [set16WriteTo, List.length_append, length_flatMap_u16Bytes]
    rfl
  rw [w1, w2, List.nil_append, List.length_take, hl]
  simp only
  omega

/-- C103 is false of the errors: whether the error of `WriteTo` can be recognised as one of sets or as that of the writer
depends on where the stream breaks. It is the former if not even the length was written, the latter otherwise; errors of
`ReadFrom` are those of the reader. -/
theorem C103_error_exact8 (s old : List UInt8) (k : Sink) (t : Str) :
    ((set8WriteSink s k).err = some .kind ↔ k.room = 0) ∧
    ((set8WriteSink s k).err = some .cause ↔ 0 < k.room ∧ k.room < (set8WriteTo s).1.length) ∧
    (set8Fill old t).err ≠ some .kind := by
  have hl : (set8WriteTo s).1.length = 1 + s.length := by simp [set8WriteTo]; omega
  rw [hl]
  refine ⟨?_, ?_, ?_⟩
  · unfold set8WriteSink
    by_cases h : 1 ≤ k.room
    · rw [Sink.write_ok (by simpa using h)]
      simp only
      rw [(setWriteLoop_eq (fun b : UInt8 => [b]) (w := 1) (by omega) (fun _ => rfl) s _ 1).2.2]
      split <;> simp <;> omega
    · rw [Sink.write_fail (by simp; omega)]
      simp; omega
  · unfold set8WriteSink
    by_cases h : 1 ≤ k.room
    · rw [Sink.write_ok (by simpa using h)]
      simp only
      rw [(setWriteLoop_eq (fun b : UInt8 => [b]) (w := 1) (by omega) (fun _ => rfl) s _ 1).2.2]
      simp only [List.length_cons, List.length_nil, Nat.one_mul]
      split <;> simp <;> omega
    · rw [Sink.write_fail (by simp; omega)]
      simp; omega
  · cases t with
    | nil => simp [set8Fill, readU8]
    | cons n t =>
      rw [(C103_read8 old n t).2]
      simp only
      split <;> simp

/-- The same for `Set16`, whose length is two bytes. -/
theorem C103_error_exact16 (s old : List UInt16) (k : Sink) (t : Str) :
    ((set16WriteSink s k).err = some .kind ↔ k.room < 2) ∧
    ((set16WriteSink s k).err = some .cause ↔ 2 ≤ k.room ∧ k.room < (set16WriteTo s).1.length) ∧
    (set16Fill old t).err ≠ some .kind := by
  have hl : (set16WriteTo s).1.length = 2 + 2 * s.length := by
    simp only [set16WriteTo, List.length_append, length_flatMap_u16Bytes]
    rfl
  have h2 : ∀ x : UInt16, (u16Bytes x).length = 2 := fun _ => rfl
  rw [hl]
  refine ⟨?_, ?_, ?_⟩
  · unfold set16WriteSink
    by_cases h : 2 ≤ k.room
    · rw [Sink.write_ok (by rw [h2]; exact h)]
      simp only
      rw [(setWriteLoop_eq u16Bytes (w := 2) (by omega) h2 s _ 2).2.2]
      split <;> simp <;> omega
    · rw [Sink.write_fail (by rw [h2]; omega)]
      simp; omega
  · unfold set16WriteSink
    by_cases h : 2 ≤ k.room
    · rw [Sink.write_ok (by rw [h2]; exact h)]
      simp only
      rw [(setWriteLoop_eq u16Bytes (w := 2) (by omega) h2 s _ 2).2.2]
      simp only [h2]
      split <;> simp <;> omega
    · rw [Sink.write_fail (by rw [h2]; omega)]
      simp; omega
  · match t with
    | [] => simp [(C103_read16 old 0 0 [] 0 rfl).1]
    | [a] => simp [(C103_read16 old a 0 [] _ rfl).2.1]
    | a :: b :: t =>
      rw [(C103_read16 old a b t _ rfl).2.2]
      simp only
      split <;> simp

/-- The negation on concrete streams: the same set, the same writer's fault, and once the error is `ErrSet8`, once it is not. -/
theorem not_C103_error : ∃ s k k', (set8WriteSink s k).err = some .kind ∧ (set8WriteSink s k').err = some .cause :=
  ⟨[1, 2], { got := [], room := 0 }, { got := [], room := 2 }, by decide, by decide⟩

example : set8WriteSink [3, 1, 2] { got := [9], room := 2 } =
    { sink := { got := [9, 3, 3], room := 0 }, count := 2, err := some .cause } := by decide
example : set8Fill [7] [3, 3] = { val := [3, 0, 0], count := 2, err := some .cause, rest := [] } := by decide
example : set16Fill [7] [0, 2, 1, 2, 5] = { val := [0x0102, 0], count := 4, err := some .cause, rest := [] } := by decide

end Verif
