import Verif.Spec.Utf8
import Verif.Lemmas.Pack

/-! # Helper lemmas: UTF-8 coding -/

namespace Verif

theorem codePoint_runeOfNat {n : Nat} (h : n < 4294967296) : codePoint (runeOfNat n) = n := by
  unfold codePoint runeOfNat
  rw [show (UInt32.ofNat n).toInt32.toUInt32 = UInt32.ofNat n from rfl, toNat_ofNat32 h]

theorem codePoint_inj {a b : Rune} (h : codePoint a = codePoint b) : a = b := by
  unfold codePoint at h
  have h1 := UInt32.toNat_inj.1 h
  cases a; cases b
  exact congrArg Int32.ofUInt32 h1

theorem runeOfNat_codePoint (r : Rune) : runeOfNat (codePoint r) = r := by
  apply codePoint_inj
  exact codePoint_runeOfNat r.toUInt32.toNat_lt

theorem encodeRune_ne_nil (r : Rune) : encodeRune r ≠ [] := by
  unfold encodeRune
  simp only
  split
  · simp
  · split
    · simp
    · split
      · simp
      · split <;> simp

theorem decode_encode {r : Rune} (h : IsScalar r) (t : Str) :
    decodeRune (encodeRune r ++ t) = (r, (encodeRune r).length) := by
  obtain ⟨h1, h2⟩ := h
  have hr := runeOfNat_codePoint r
  unfold encodeRune
  change codePoint r ≤ _ at h1
  simp only [show r.toUInt32.toNat = codePoint r from rfl]
  generalize codePoint r = n at *
  by_cases c1 : n ≤ 0x7F
  · rw [if_pos c1]
    have e0 : (UInt8.ofNat n).toNat = n := toNat_ofNat8 (by omega)
    simp only [List.cons_append, List.nil_append, decodeRune, e0]
    rw [if_pos (by omega), hr]; rfl
  · rw [if_neg c1]
    by_cases c2 : n ≤ 0x7FF
    · rw [if_pos c2]
      have e0 : (UInt8.ofNat (0xC0 + n / 64)).toNat = 0xC0 + n / 64 := toNat_ofNat8 (by omega)
      have e1 : (UInt8.ofNat (0x80 + n % 64)).toNat = 0x80 + n % 64 := toNat_ofNat8 (by omega)
      simp only [List.cons_append, List.nil_append, decodeRune, e0, e1]
      rw [if_neg (by omega), if_neg (by omega), if_pos (by omega), if_pos (by omega)]
      rw [show (192 + n / 64 - 192) * 64 + (128 + n % 64 - 128) = n by omega, hr]; rfl
    · rw [if_neg c2, if_neg (by omega)]
      by_cases c3 : n ≤ 0xFFFF
      · rw [if_pos c3]
        have e0 : (UInt8.ofNat (0xE0 + n / 4096)).toNat = 0xE0 + n / 4096 := toNat_ofNat8 (by omega)
        have e1 : (UInt8.ofNat (0x80 + n / 64 % 64)).toNat = 0x80 + n / 64 % 64 := toNat_ofNat8 (by omega)
        have e2 : (UInt8.ofNat (0x80 + n % 64)).toNat = 0x80 + n % 64 := toNat_ofNat8 (by omega)
        simp only [List.cons_append, List.nil_append, decodeRune, e0, e1, e2]
        rw [if_neg (by omega), if_neg (by omega), if_neg (by omega), if_pos (by omega), if_pos]
        · rw [show (224 + n / 4096 - 224) * 4096 + (128 + n / 64 % 64 - 128) * 64 +
              (128 + n % 64 - 128) = n by omega, hr]; rfl
        · refine ⟨?_, ?_, by omega, by omega⟩
          · split <;> omega
          · split <;> omega
      · rw [if_neg c3]
        have e0 : (UInt8.ofNat (0xF0 + n / 262144)).toNat = 0xF0 + n / 262144 := toNat_ofNat8 (by omega)
        have e1 : (UInt8.ofNat (0x80 + n / 4096 % 64)).toNat = 0x80 + n / 4096 % 64 := toNat_ofNat8 (by omega)
        have e2 : (UInt8.ofNat (0x80 + n / 64 % 64)).toNat = 0x80 + n / 64 % 64 := toNat_ofNat8 (by omega)
        have e3 : (UInt8.ofNat (0x80 + n % 64)).toNat = 0x80 + n % 64 := toNat_ofNat8 (by omega)
        simp only [List.cons_append, List.nil_append, decodeRune, e0, e1, e2, e3]
        rw [if_neg (by omega), if_neg (by omega), if_neg (by omega), if_neg (by omega), if_pos (by omega),
          if_pos]
        · rw [show (240 + n / 262144 - 240) * 262144 + (128 + n / 4096 % 64 - 128) * 4096 +
              (128 + n / 64 % 64 - 128) * 64 + (128 + n % 64 - 128) = n by omega, hr]; rfl
        · refine ⟨?_, ?_, by omega, by omega, by omega, by omega⟩
          · split <;> omega
          · split <;> omega

theorem ofNat8_toNat (b : UInt8) {n : Nat} (h : n = b.toNat) : UInt8.ofNat n = b := by
  subst h; simp

/-- What `decodeRune` finds is a character, or a lone bad byte. -/
theorem decodeRune_cases (b : UInt8) (t : Str) :
    (∃ r rest, IsScalar r ∧ b :: t = encodeRune r ++ rest ∧
      decodeRune (b :: t) = (r, (encodeRune r).length)) ∨
    decodeRune (b :: t) = (runeError, 1) := by
  have hb := b.toNat_lt
  have good : ∀ (n : Nat) (e rest : Str), n ≤ 0x10FFFF → ¬ (0xD800 ≤ n ∧ n ≤ 0xDFFF) →
      encodeRune (runeOfNat n) = e → b :: t = e ++ rest →
      (∃ r rest, IsScalar r ∧ b :: t = encodeRune r ++ rest ∧
        decodeRune (b :: t) = (r, (encodeRune r).length)) := by
    intro n e rest h1 h2 he hbt
    have hs : IsScalar (runeOfNat n) := by
      unfold IsScalar; rw [codePoint_runeOfNat (by omega)]; exact ⟨h1, h2⟩
    refine ⟨runeOfNat n, rest, hs, by rw [he]; exact hbt, ?_⟩
    rw [hbt, ← he]
    exact decode_encode hs rest
  have enc : ∀ n : Nat, n < 4294967296 → (runeOfNat n).toUInt32.toNat = n :=
    fun n hn => codePoint_runeOfNat hn
  have hd : decodeRune (b :: t) = decodeRune (b :: t) := rfl
  conv at hd => rhs; unfold decodeRune
  simp only at hd
  split at hd
  · rename_i c
    refine .inl (good b.toNat [b] t (by omega) (by omega) ?_ rfl)
    unfold encodeRune
    simp only [enc b.toNat (by omega)]
    rw [if_pos (by omega), ofNat8_toNat b rfl]
  · split at hd
    · exact .inr hd
    · split at hd
      · split at hd
        · rename_i b1 t'
          have hb1 := b1.toNat_lt
          split at hd
          · refine .inl (good ((b.toNat - 0xC0) * 64 + (b1.toNat - 0x80)) [b, b1] t' ?_ ?_ ?_ rfl)
            · omega
            · omega
            · unfold encodeRune
              simp only [enc _ (show (b.toNat - 0xC0) * 64 + (b1.toNat - 0x80) < 4294967296 by omega)]
              rw [if_neg (by omega), if_pos (by omega), ofNat8_toNat b (by omega),
                ofNat8_toNat b1 (by omega)]
          · exact .inr hd
        · exact .inr hd
      · split at hd
        · split at hd
          · rename_i b1 b2 t'
            have hb1 := b1.toNat_lt
            have hb2 := b2.toNat_lt
            generalize hl : (if b.toNat = 0xE0 then 0xA0 else 0x80) = lo at hd
            generalize hh : (if b.toNat = 0xED then 0x9F else 0xBF) = hi at hd
            split at hd
            · rename_i hc
              have hlo : b.toNat = 0xE0 → 0xA0 ≤ b1.toNat := by
                intro h; rw [if_pos h] at hl; omega
              have hlo' : 0x80 ≤ b1.toNat := by
                split at hl <;> omega
              have hhi : b.toNat = 0xED → b1.toNat ≤ 0x9F := by
                intro h; rw [if_pos h] at hh; omega
              have hhi' : b1.toNat ≤ 0xBF := by
                split at hh <;> omega
              have h2 := hc.2.2
              clear hc hd
              refine .inl (good ((b.toNat - 0xE0) * 4096 + (b1.toNat - 0x80) * 64 + (b2.toNat - 0x80))
                [b, b1, b2] t' ?_ ?_ ?_ rfl)
              · omega
              · omega
              · unfold encodeRune
                simp only [enc _ (show (b.toNat - 0xE0) * 4096 + (b1.toNat - 0x80) * 64 + (b2.toNat - 0x80)
                  < 4294967296 by omega)]
                rw [if_neg (by omega), if_neg (by omega), if_neg (by omega), if_pos (by omega),
                  ofNat8_toNat b (by omega), ofNat8_toNat b1 (by omega), ofNat8_toNat b2 (by omega)]
            · exact .inr hd
          · exact .inr hd
        · split at hd
          · split at hd
            · rename_i b1 b2 b3 t'
              have hb1 := b1.toNat_lt
              have hb2 := b2.toNat_lt
              have hb3 := b3.toNat_lt
              generalize hl : (if b.toNat = 0xF0 then 0x90 else 0x80) = lo at hd
              generalize hh : (if b.toNat = 0xF4 then 0x8F else 0xBF) = hi at hd
              split at hd
              · rename_i hc
                have hlo : b.toNat = 0xF0 → 0x90 ≤ b1.toNat := by
                  intro h; rw [if_pos h] at hl; omega
                have hlo' : 0x80 ≤ b1.toNat := by
                  split at hl <;> omega
                have hhi : b.toNat = 0xF4 → b1.toNat ≤ 0x8F := by
                  intro h; rw [if_pos h] at hh; omega
                have hhi' : b1.toNat ≤ 0xBF := by
                  split at hh <;> omega
                have h2 := hc.2.2
                clear hc hd
                refine .inl (good ((b.toNat - 0xF0) * 262144 + (b1.toNat - 0x80) * 4096 +
                  (b2.toNat - 0x80) * 64 + (b3.toNat - 0x80)) [b, b1, b2, b3] t' ?_ ?_ ?_ rfl)
                · omega
                · omega
                · unfold encodeRune
                  simp only [enc _ (show (b.toNat - 0xF0) * 262144 + (b1.toNat - 0x80) * 4096 +
                    (b2.toNat - 0x80) * 64 + (b3.toNat - 0x80) < 4294967296 by omega)]
                  rw [if_neg (by omega), if_neg (by omega), if_neg (by omega), if_neg (by omega),
                    ofNat8_toNat b (by omega), ofNat8_toNat b1 (by omega), ofNat8_toNat b2 (by omega),
                    ofNat8_toNat b3 (by omega)]
              · exact .inr hd
            · exact .inr hd
          · exact .inr hd

theorem decodeAux_encode (rs : List Rune) (h : ∀ r ∈ rs, IsScalar r) (n : Nat)
    (hn : (encodeRunes rs).length ≤ n) : decodeAux n (encodeRunes rs) = rs := by
  induction rs generalizing n with
  | nil => cases n <;> rfl
  | cons r rs ih =>
    have hlen : 0 < (encodeRune r).length := List.length_pos_iff.2 (encodeRune_ne_nil r)
    have e : encodeRunes (r :: rs) = encodeRune r ++ encodeRunes rs := by simp [encodeRunes]
    rw [e] at hn ⊢
    rw [List.length_append] at hn
    cases n with
    | zero => omega
    | succ n =>
      have hd := decode_encode (h r (by simp)) (encodeRunes rs)
      have hne : encodeRune r ++ encodeRunes rs ≠ [] := by simp [encodeRune_ne_nil]
      cases hs : encodeRune r ++ encodeRunes rs with
      | nil => exact absurd hs hne
      | cons b t =>
        unfold decodeAux
        rw [← hs, hd]
        simp only [List.drop_left]
        rw [ih (fun x hx => h x (by simp [hx])) n (by omega)]

theorem decodeAux_sanitized (n : Nat) (s : Str) (hn : s.length ≤ n) :
    (∀ r ∈ decodeAux n s, IsScalar r) ∧ Sanitized s (encodeRunes (decodeAux n s)) := by
  induction n generalizing s with
  | zero =>
    have := List.length_eq_zero_iff.1 (Nat.le_zero.1 hn)
    subst this
    exact ⟨by simp [decodeAux], .nil⟩
  | succ n ih =>
    cases s with
    | nil => exact ⟨by simp [decodeAux], .nil⟩
    | cons b t =>
      unfold decodeAux
      rcases decodeRune_cases b t with ⟨r, rest, hr, hbt, hd⟩ | hd
      · have hlen : 0 < (encodeRune r).length := List.length_pos_iff.2 (encodeRune_ne_nil r)
        have hl : (b :: t).length = (encodeRune r).length + rest.length := by
          rw [hbt, List.length_append]
        have := ih rest (by omega)
        rw [hd]
        simp only
        rw [hbt, List.drop_left]
        constructor
        · intro x hx
          rcases List.mem_cons.1 hx with rfl | hx
          · exact hr
          · exact this.1 x hx
        · have e : encodeRunes (r :: decodeAux n rest) = encodeRune r ++ encodeRunes (decodeAux n rest) := by
            simp [encodeRunes]
          rw [e]
          exact .good hr this.2
      · have := ih t (by simpa using hn)
        have hbad : ∀ r, IsScalar r → ¬ encodeRune r <+: b :: t := by
          rintro r hr ⟨rest, he⟩
          have h1 := decode_encode hr rest
          rw [he, hd] at h1
          obtain ⟨rfl, h2⟩ := Prod.mk.inj h1
          have : (encodeRune runeError).length = 3 := by decide
          omega
        rw [hd]
        simp only [List.drop_succ_cons, List.drop_zero]
        constructor
        · intro x hx
          rcases List.mem_cons.1 hx with rfl | hx
          · decide
          · exact this.1 x hx
        · have e : encodeRunes (runeError :: decodeAux n t) =
              [0xEF, 0xBF, 0xBD] ++ encodeRunes (decodeAux n t) := by
            simp only [encodeRunes, List.flatMap_cons]
            rfl
          rw [e]
          exact .bad hbad this.2

theorem Sanitized.unique {w a b : Str} (ha : Sanitized w a) (hb : Sanitized w b) : a = b := by
  induction ha generalizing b with
  | nil =>
    generalize hw : ([] : Str) = w at hb
    cases hb with
    | nil => rfl
    | good h1 h2 => exact absurd hw.symm (by simp [encodeRune_ne_nil])
    | bad h1 h2 => cases hw
  | @good r rest rest' hr _ ih =>
    generalize hw : encodeRune r ++ rest = w at hb
    cases hb with
    | nil => exact absurd hw (by simp [encodeRune_ne_nil])
    | @good r2 rest2 rest2' h1 h2 =>
      have e1 := decode_encode hr rest
      rw [hw, decode_encode h1 rest2] at e1
      obtain ⟨rfl, _⟩ := Prod.mk.inj e1
      have := List.append_cancel_left hw
      subst this
      rw [ih h2]
    | bad h1 h2 => exact absurd ⟨rest, hw⟩ (h1 r hr)
  | @bad c rest rest' hbad _ ih =>
    generalize hw : c :: rest = w at hb
    cases hb with
    | nil => cases hw
    | @good r2 rest2 rest2' h1 h2 => exact absurd ⟨rest2, hw.symm⟩ (hbad r2 h1)
    | bad h1 h2 =>
      obtain ⟨rfl, rfl⟩ := List.cons.inj hw
      rw [ih h2]

theorem Sanitized.of_valid {w : Str} (h : ValidUtf8 w) : Sanitized w w := by
  obtain ⟨rs, hrs, rfl⟩ := h
  induction rs with
  | nil => exact .nil
  | cons r rs ih =>
    have e : encodeRunes (r :: rs) = encodeRune r ++ encodeRunes rs := by simp [encodeRunes]
    rw [e]
    exact .good (hrs r (by simp)) (ih fun x hx => hrs x (by simp [hx]))

end Verif
