import Verif.Model.Storage

/-! # Helper lemmas: packed ids as arithmetic -/

namespace Verif

theorem toNat_upper8 (x : UInt16) : (upper8 x).toNat = x.toNat / 256 := by
  have h := x.toNat_lt
  have e : (255 : Nat) = 2 ^ 8 - 1 := rfl
  simp only [upper8, UInt16.toNat_toUInt8, UInt16.toNat_and, UInt16.toNat_shiftRight]
  have : (255 : UInt16).toNat = 255 := rfl
  have h8 : (8 : UInt16).toNat % 16 = 8 := rfl
  rw [this, h8, e, Nat.and_two_pow_sub_one_eq_mod, Nat.shiftRight_eq_div_pow]
  omega

theorem toNat_lower8 (x : UInt16) : (lower8 x).toNat = x.toNat % 256 := by
  have h := x.toNat_lt
  have e : (255 : Nat) = 2 ^ 8 - 1 := rfl
  simp only [lower8, UInt16.toNat_toUInt8, UInt16.toNat_and]
  have : (255 : UInt16).toNat = 255 := rfl
  rw [this, Nat.and_comm, e, Nat.and_two_pow_sub_one_eq_mod]
  omega

theorem toNat_combine8 (hi lo : UInt8) : (combine8 hi lo).toNat = hi.toNat * 256 + lo.toNat := by
  have h := hi.toNat_lt
  have h' := lo.toNat_lt
  have h8 : (8 : UInt16).toNat % 16 = 8 := rfl
  simp only [combine8, UInt16.toNat_or, UInt16.toNat_shiftLeft, UInt8.toNat_toUInt16, h8]
  have e : (hi.toNat <<< 8) % 2 ^ 16 = hi.toNat <<< 8 := by
    rw [Nat.shiftLeft_eq]; omega
  rw [e, ← Nat.shiftLeft_add_eq_or_of_lt (by omega), Nat.shiftLeft_eq]

theorem toNat_upper16 (x : UInt32) : (upper16 x).toNat = x.toNat / 65536 := by
  have h := x.toNat_lt
  have e : (65535 : Nat) = 2 ^ 16 - 1 := rfl
  simp only [upper16, UInt32.toNat_toUInt16, UInt32.toNat_and, UInt32.toNat_shiftRight]
  have : (65535 : UInt32).toNat = 65535 := rfl
  have h8 : (16 : UInt32).toNat % 32 = 16 := rfl
  rw [this, h8, e, Nat.and_two_pow_sub_one_eq_mod, Nat.shiftRight_eq_div_pow]
  omega

theorem toNat_lower16 (x : UInt32) : (lower16 x).toNat = x.toNat % 65536 := by
  have h := x.toNat_lt
  have e : (65535 : Nat) = 2 ^ 16 - 1 := rfl
  simp only [lower16, UInt32.toNat_toUInt16, UInt32.toNat_and]
  have : (65535 : UInt32).toNat = 65535 := rfl
  rw [this, Nat.and_comm, e, Nat.and_two_pow_sub_one_eq_mod]
  omega

theorem toNat_combine16 (hi lo : UInt16) :
    (combine16 hi lo).toNat = hi.toNat * 65536 + lo.toNat := by
  have h := hi.toNat_lt
  have h' := lo.toNat_lt
  have h8 : (16 : UInt32).toNat % 32 = 16 := rfl
  simp only [combine16, UInt32.toNat_or, UInt32.toNat_shiftLeft, UInt16.toNat_toUInt32, h8]
  have e : (hi.toNat <<< 16) % 2 ^ 32 = hi.toNat <<< 16 := by
    rw [Nat.shiftLeft_eq]; omega
  rw [e, ← Nat.shiftLeft_add_eq_or_of_lt (by omega), Nat.shiftLeft_eq]

theorem toNat_ofNat8 {n : Nat} (h : n < 256) : (UInt8.ofNat n).toNat = n := by
  rw [UInt8.toNat_ofNat']; omega
theorem toNat_ofNat16 {n : Nat} (h : n < 65536) : (UInt16.ofNat n).toNat = n := by
  rw [UInt16.toNat_ofNat']; omega
theorem toNat_ofNat32 {n : Nat} (h : n < 4294967296) : (UInt32.ofNat n).toNat = n := by
  rw [UInt32.toNat_ofNat']; omega

theorem upper16_combine16 (hi lo : UInt16) : upper16 (combine16 hi lo) = hi := by
  apply UInt16.toNat_inj.1
  have := lo.toNat_lt
  rw [toNat_upper16, toNat_combine16]; omega
theorem lower16_combine16 (hi lo : UInt16) : lower16 (combine16 hi lo) = lo := by
  apply UInt16.toNat_inj.1
  have := lo.toNat_lt
  rw [toNat_lower16, toNat_combine16]; omega
theorem combine16_upper_lower (x : UInt32) : combine16 (upper16 x) (lower16 x) = x := by
  apply UInt32.toNat_inj.1
  rw [toNat_combine16, toNat_upper16, toNat_lower16]; omega
theorem upper8_combine8 (hi lo : UInt8) : upper8 (combine8 hi lo) = hi := by
  apply UInt8.toNat_inj.1
  have := lo.toNat_lt
  rw [toNat_upper8, toNat_combine8]; omega
theorem lower8_combine8 (hi lo : UInt8) : lower8 (combine8 hi lo) = lo := by
  apply UInt8.toNat_inj.1
  have := lo.toNat_lt
  rw [toNat_lower8, toNat_combine8]; omega
theorem combine8_upper_lower (x : UInt16) : combine8 (upper8 x) (lower8 x) = x := by
  apply UInt16.toNat_inj.1
  rw [toNat_combine8, toNat_upper8, toNat_lower8]; omega

/-- packing a (column, position) pair into 32 bits is injective for 16-bit components -/
theorem combine16_ofNat_inj {a b c d : Nat} (ha : a < 65536) (hb : b < 65536) (hc : c < 65536)
    (hd : d < 65536)
    (h : combine16 (UInt16.ofNat a) (UInt16.ofNat b) = combine16 (UInt16.ofNat c) (UInt16.ofNat d)) :
    a = c ∧ b = d := by
  have h1 := congrArg upper16 h
  have h2 := congrArg lower16 h
  rw [upper16_combine16, upper16_combine16] at h1
  rw [lower16_combine16, lower16_combine16] at h2
  have h1 := congrArg UInt16.toNat h1
  have h2 := congrArg UInt16.toNat h2
  rw [toNat_ofNat16 ha, toNat_ofNat16 hc] at h1
  rw [toNat_ofNat16 hb, toNat_ofNat16 hd] at h2
  exact ⟨h1, h2⟩

theorem combine8_ofNat_inj {a b c d : Nat} (ha : a < 256) (hb : b < 256) (hc : c < 256)
    (hd : d < 256)
    (h : combine8 (UInt8.ofNat a) (UInt8.ofNat b) = combine8 (UInt8.ofNat c) (UInt8.ofNat d)) :
    a = c ∧ b = d := by
  have h1 := congrArg upper8 h
  have h2 := congrArg lower8 h
  rw [upper8_combine8, upper8_combine8] at h1
  rw [lower8_combine8, lower8_combine8] at h2
  have h1 := congrArg UInt8.toNat h1
  have h2 := congrArg UInt8.toNat h2
  rw [toNat_ofNat8 ha, toNat_ofNat8 hc] at h1
  rw [toNat_ofNat8 hb, toNat_ofNat8 hd] at h2
  exact ⟨h1, h2⟩

end Verif
