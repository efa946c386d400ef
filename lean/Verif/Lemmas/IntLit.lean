import Verif.Spec.IntLit
import Verif.Model.Numbers

/-! # What `strconv` reads as a number -/

namespace Verif

/-- Every byte, one by one. -/
theorem byte_cases {P : UInt8 → Prop} (h : ∀ n : Fin 256, P (UInt8.ofNat n.val)) (c : UInt8) : P c := by
  have := h ⟨c.toNat, c.toNat_lt⟩
  rwa [UInt8.ofNat_toNat] at this

set_option maxRecDepth 20000 in
theorem isDigit_iff (c : UInt8) (d : Nat) : IsDigit c d ↔ digitOf c = some d ∧ d < 16 := by
  by_cases hd : d < 16
  · have key : ∀ d : Fin 16, ∀ n : Fin 256,
        (((str "0123456789abcdef")[d.val]? = some (UInt8.ofNat n.val) ∨
          (str "0123456789ABCDEF")[d.val]? = some (UInt8.ofNat n.val)) ↔ digitOf (UInt8.ofNat n.val) = some d.val) := by decide
    have := key ⟨d, hd⟩ ⟨c.toNat, c.toNat_lt⟩
    simp only [UInt8.ofNat_toNat] at this
    unfold IsDigit
    rw [this]
    exact ⟨fun h => ⟨h, hd⟩, fun h => h.1⟩
  · constructor
    · intro h
      exfalso
      rcases h with h | h
      · exact hd (List.getElem?_eq_some_iff.1 h).1
      · exact hd (List.getElem?_eq_some_iff.1 h).1
    · exact fun h => absurd h.2 hd

theorem digitOf_under : digitOf 0x5f = none := by decide

/-- Digits from left to right; `ok` says that a digit was just before. -/
def scan (b : Nat) : Bool → Nat → Str → Option Nat
  | ok, n, [] => if ok then some n else none
  | ok, n, c :: s =>
    if c = 0x5f then (if ok then scan b false n s else none)
    else match digitOf c with
      | none => none
      | some d => if d < b then scan b true (n * b + d) s else none

theorem scan_digit {b d : Nat} {c : UInt8} {ok : Bool} {n : Nat} {s : Str} (hc : digitOf c = some d) (hd : d < b) :
    scan b ok n (c :: s) = scan b true (n * b + d) s := by
  have : c ≠ 0x5f := by rintro rfl; rw [digitOf_under] at hc; cases hc
  conv_lhs => unfold scan
  rw [if_neg this]
  simp only [hc, if_pos hd]

theorem scan_inv {b : Nat} {c : UInt8} {ok : Bool} {n m : Nat} {s : Str} (h : scan b ok n (c :: s) = some m) :
    (c = 0x5f ∧ ok = true ∧ scan b false n s = some m) ∨
      (c ≠ 0x5f ∧ ∃ d, digitOf c = some d ∧ d < b ∧ scan b true (n * b + d) s = some m) := by
  unfold scan at h
  split at h
  · rename_i hc
    split at h
    · rename_i hok; exact .inl ⟨hc, hok, h⟩
    · cases h
  · rename_i hc
    split at h
    · cases h
    · rename_i d hd
      split at h
      · rename_i hdb; exact .inr ⟨hc, d, hd, hdb, h⟩
      · cases h

theorem scan_append {b : Nat} (t s : Str) : ∀ {ok : Bool} {n m : Nat}, scan b ok n s = some m →
    scan b ok n (s ++ t) = scan b true m t := by
  induction s with
  | nil =>
    intro ok n m h
    cases ok with
    | false => cases h
    | true => obtain rfl := Option.some.inj h; rfl
  | cons c s ih =>
    intro ok n m h
    rcases scan_inv h with ⟨rfl, rfl, h⟩ | ⟨_, d, hd, hdb, h⟩
    · rw [← ih h, List.cons_append]
      conv_lhs => unfold scan
      rw [if_pos rfl, if_pos rfl]
    · rw [List.cons_append, scan_digit hd hdb, ih h]

theorem digits_of_scan {b : Nat} (hb : b ≤ 16) (s : Str) : (∀ pre n m, Digits b pre n → scan b true n s = some m →
      Digits b (pre ++ s) m) ∧
    (∀ pre n m, Digits b pre n → scan b false n s = some m → Digits b (pre ++ str "_" ++ s) m) ∧
    (∀ m, scan b false 0 s = some m → Digits b s m) := by
  induction s with
  | nil =>
    refine ⟨fun pre n m hp h => ?_, fun pre n m hp h => (by cases h), fun m h => (by cases h)⟩
    obtain rfl := Option.some.inj h
    rw [List.append_nil]; exact hp
  | cons c s ih =>
    obtain ⟨i1, i2, _⟩ := ih
    refine ⟨fun pre n m hp h => ?_, fun pre n m hp h => ?_, fun m h => ?_⟩
    · rcases scan_inv h with ⟨rfl, _, h⟩ | ⟨_, d, hd, hdb, h⟩
      · have := i2 pre n m hp h
        rw [List.append_assoc] at this
        exact this
      · have := i1 (pre ++ [c]) _ m (.more hp ((isDigit_iff c d).2 ⟨hd, by omega⟩) hdb) h
        rw [List.append_assoc] at this
        exact this
    · rcases scan_inv h with ⟨_, h, _⟩ | ⟨_, d, hd, hdb, h⟩
      · cases h
      · have := i1 (pre ++ str "_" ++ [c]) _ m (.under hp ((isDigit_iff c d).2 ⟨hd, by omega⟩) hdb) h
        rw [List.append_assoc] at this
        exact this
    · rcases scan_inv h with ⟨_, h, _⟩ | ⟨_, d, hd, hdb, h⟩
      · cases h
      · rw [Nat.zero_mul, Nat.zero_add] at h
        exact i1 [c] d m (.one ((isDigit_iff c d).2 ⟨hd, by omega⟩) hdb) h

theorem digits_iff {b : Nat} (hb : b ≤ 16) (s : Str) (n : Nat) : Digits b s n ↔ scan b false 0 s = some n := by
  refine ⟨fun h => ?_, (digits_of_scan hb s).2.2 n⟩
  induction h with
  | one hc hd => rw [scan_digit ((isDigit_iff _ _).1 hc).1 hd, Nat.zero_mul, Nat.zero_add]; rfl
  | more _ hc hd ih => rw [scan_append _ _ ih, scan_digit ((isDigit_iff _ _).1 hc).1 hd]; rfl
  | @under s n c d _ hc hd ih =>
    rw [List.append_assoc, scan_append _ _ ih]
    have e : scan b true n (str "_" ++ [c]) = scan b false n [c] := by
      show scan b true n (0x5f :: [c]) = _
      conv_lhs => unfold scan
      rw [if_pos rfl, if_pos rfl]
    rw [e, scan_digit ((isDigit_iff _ _).1 hc).1 hd]
    rfl

/-- Digits, or an underscore and digits. -/
theorem scan_true_iff {b : Nat} (hb : b ≤ 16) {s : Str} (hs : s ≠ []) (n : Nat) :
    scan b true 0 s = some n ↔ ∃ u s', (u = [] ∨ u = str "_") ∧ s = u ++ s' ∧ Digits b s' n := by
  constructor
  · intro h
    cases s with
    | nil => exact absurd rfl hs
    | cons c t =>
      rcases scan_inv h with ⟨rfl, _, h⟩ | ⟨_, d, hd, hdb, h⟩
      · exact ⟨str "_", t, .inr rfl, rfl, (digits_iff hb t n).2 h⟩
      · refine ⟨[], c :: t, .inl rfl, rfl, (digits_iff hb _ n).2 ?_⟩
        rw [scan_digit hd hdb]; exact h
  · rintro ⟨u, s', hu, rfl, h⟩
    have h := (digits_iff hb _ n).1 h
    rcases hu with rfl | rfl
    · cases s' with
      | nil => cases h
      | cons c t =>
        rcases scan_inv h with ⟨_, h, _⟩ | ⟨_, d, hd, hdb, h⟩
        · cases h
        · rw [List.nil_append, scan_digit hd hdb]; exact h
    · show scan b true 0 (0x5f :: s') = _
      conv_lhs => unfold scan
      rw [if_pos rfl, if_pos rfl]
      exact h

/-- The prefixes and their bases. -/
def basePrefixes : List (Str × Nat) :=
  [(str "0", 8), (str "0b", 2), (str "0B", 2), (str "0o", 8), (str "0O", 8), (str "0x", 16), (str "0X", 16)]

theorem intLit_iff (s : Str) (n : Nat) : IntLit s n ↔ (s.head? ≠ some 0x30 ∧ scan 10 false 0 s = some n) ∨
    ∃ p b ds, (p, b) ∈ basePrefixes ∧ s = p ++ ds ∧ scan b true 0 ds = some n ∧ (ds ≠ [] ∨ p = str "0") := by
  have hb : ∀ p b, (p, b) ∈ basePrefixes → b ≤ 16 := by
    intro p b h
    simp only [basePrefixes, List.mem_cons, Prod.mk.injEq, List.not_mem_nil, or_false] at h
    omega
  constructor
  · intro h
    cases h with
    | decimal h1 h2 => exact .inl ⟨h2, (digits_iff (by omega) _ _).1 h1⟩
    | zero => exact .inr ⟨str "0", 8, [], by simp [basePrefixes], rfl, rfl, .inr rfl⟩
    | @based p u s b n hp hu hd =>
      have hne : u ++ s ≠ [] := by
        intro e
        obtain ⟨-, rfl⟩ := List.append_eq_nil_iff.1 e
        have := (digits_iff (hb p b hp) _ _).1 hd
        cases this
      refine .inr ⟨p, b, u ++ s, hp, by rw [List.append_assoc], ?_, .inl hne⟩
      exact (scan_true_iff (hb p b hp) hne n).2 ⟨u, s, hu, rfl, hd⟩
  · rintro (⟨h1, h2⟩ | ⟨p, b, ds, hp, rfl, hd, hne⟩)
    · exact .decimal ((digits_iff (by omega) _ _).2 h2) h1
    · by_cases hds : ds = []
      · subst hds
        obtain rfl : p = str "0" := hne.resolve_left fun h => h rfl
        obtain rfl := Option.some.inj hd
        exact .zero
      · obtain ⟨u, s', hu, rfl, h⟩ := (scan_true_iff (hb p b hp) hds n).1 hd
        rw [← List.append_assoc]
        exact .based hp hu h

/-! ## The code -/

theorem scan_le {b : Nat} (hb : 1 ≤ b) (s : Str) : ∀ {ok : Bool} {n m : Nat}, scan b ok n s = some m → n ≤ m := by
  induction s with
  | nil =>
    intro ok n m h
    cases ok with
    | false => cases h
    | true => obtain rfl := Option.some.inj h; exact Nat.le_refl _
  | cons c s ih =>
    intro ok n m h
    rcases scan_inv h with ⟨_, _, h⟩ | ⟨_, d, _, _, h⟩
    · exact ih h
    · have := ih h
      have : n * 1 ≤ n * b := Nat.mul_le_mul_left n hb
      omega

theorem parseLoop_inv {b max : Nat} {c : UInt8} {n m : Nat} {s : Str} : parseLoop b max n (c :: s) = some m ↔
    (c = 0x5f ∧ parseLoop b max n s = some m) ∨
      (c ≠ 0x5f ∧ ∃ d, digitOf c = some d ∧ d < b ∧ n * b + d ≤ max ∧ parseLoop b max (n * b + d) s = some m) := by
  conv_lhs => unfold parseLoop
  by_cases hc : c = 0x5f
  · rw [if_pos hc]
    exact ⟨fun h => .inl ⟨hc, h⟩, fun h => h.elim (·.2) fun h => absurd hc h.1⟩
  · rw [if_neg hc]
    cases hd : digitOf c with
    | none =>
      refine ⟨fun h => (by cases h), fun h => h.elim (fun h => absurd h.1 hc) ?_⟩
      rintro ⟨_, d, h, _⟩
      cases h
    | some d =>
      simp only
      by_cases h : b ≤ d ∨ max < n * b + d
      · rw [if_pos h]
        refine ⟨fun h => (by cases h), fun h' => h'.elim (fun h' => absurd h'.1 hc) ?_⟩
        rintro ⟨_, d', e, h1, h2, _⟩
        obtain rfl := Option.some.inj e
        omega
      · rw [if_neg h]
        refine ⟨fun h' => .inr ⟨hc, d, rfl, by omega, by omega, h'⟩, fun h' => h'.elim (fun h' => absurd h'.1 hc) ?_⟩
        rintro ⟨_, d', e, _, _, h3⟩
        obtain rfl := Option.some.inj e
        exact h3

set_option maxRecDepth 20000 in
/-- What counts as a digit for the underscores includes the digits of the base. -/
theorem under_digit {b : Nat} {hex : Bool} (hb : b ≤ 10 ∨ b = 16 ∧ hex = true) {c : UInt8} {d : Nat}
    (hc : digitOf c = some d) (hd : d < b) : (0x30 ≤ c.toNat ∧ c.toNat ≤ 0x39) ∨
      (hex = true ∧ 0x61 ≤ (lowerByte c).toNat ∧ (lowerByte c).toNat ≤ 0x66) := by
  unfold digitOf at hc
  split at hc
  · rename_i h; exact .inl h
  · split at hc
    · rename_i h
      have := Option.some.inj hc
      rcases hb with hb | ⟨rfl, hx⟩
      · omega
      · exact .inr ⟨hx, h.1, by omega⟩
    · cases hc

theorem underscore_digit {b : Nat} {hex : Bool} (hb : b ≤ 10 ∨ b = 16 ∧ hex = true) {c : UInt8} {d : Nat}
    (hc : digitOf c = some d) (hd : d < b) (saw : UInt8) (s : Str) :
    underscoreLoop hex saw (c :: s) = underscoreLoop hex 0x30 s := by
  conv_lhs => unfold underscoreLoop
  rw [if_pos (under_digit hb hc hd)]

theorem underscore_under (hex : Bool) (saw : UInt8) (s : Str) :
    underscoreLoop hex saw (0x5f :: s) = ((saw == 0x30) && underscoreLoop hex 0x5f s) := by
  conv_lhs => unfold underscoreLoop
  rw [if_neg (by cases hex <;> decide), if_pos rfl]

theorem parse_scan {b max : Nat} {hex : Bool} (hb1 : 1 ≤ b) (hb : b ≤ 10 ∨ b = 16 ∧ hex = true) (s : Str) :
    ∀ (ok : Bool) (n m : Nat), n ≤ max → ((parseLoop b max n s = some m ∧
      underscoreLoop hex (if ok then 0x30 else 0x5f) s = true) ↔ (scan b ok n s = some m ∧ m ≤ max)) := by
  induction s with
  | nil =>
    intro ok n m hn
    cases ok with
    | true =>
      constructor
      · rintro ⟨h, _⟩
        obtain rfl := Option.some.inj h
        exact ⟨rfl, hn⟩
      · rintro ⟨h, _⟩
        obtain rfl := Option.some.inj h
        exact ⟨rfl, rfl⟩
    | false =>
      constructor
      · rintro ⟨_, h⟩; cases h
      · rintro ⟨h, _⟩; cases h
  | cons c s ih =>
    intro ok n m hn
    by_cases hc : c = 0x5f
    · subst hc
      cases ok with
      | true =>
        have e : scan b true n (0x5f :: s) = scan b false n s := by
          conv_lhs => unfold scan
          rw [if_pos rfl, if_pos rfl]
        rw [e, ← ih false n m hn, parseLoop_inv, underscore_under]
        constructor
        · rintro ⟨h1 | h1, h2⟩
          · exact ⟨h1.2, by simpa using h2⟩
          · exact absurd rfl h1.1
        · rintro ⟨h1, h2⟩
          exact ⟨.inl ⟨rfl, h1⟩, by simpa using h2⟩
      | false =>
        rw [underscore_under]
        constructor
        · rintro ⟨_, h⟩; cases h
        · rintro ⟨h, _⟩
          rcases scan_inv h with ⟨_, h, _⟩ | ⟨h, _⟩
          · cases h
          · exact absurd rfl h
    · constructor
      · rintro ⟨h1, h2⟩
        rcases parseLoop_inv.1 h1 with ⟨h, _⟩ | ⟨_, d, hd, hdb, hle, h⟩
        · exact absurd h hc
        · rw [underscore_digit hb hd hdb] at h2
          rw [scan_digit hd hdb]
          exact (ih true _ m hle).1 ⟨h, h2⟩
      · rintro ⟨h1, h2⟩
        rcases scan_inv h1 with ⟨h, _⟩ | ⟨_, d, hd, hdb, h⟩
        · exact absurd h hc
        · have hle := scan_le hb1 s h
          have := (ih true _ m (by omega : n * b + d ≤ max)).2 ⟨h, h2⟩
          rw [underscore_digit hb hd hdb]
          exact ⟨parseLoop_inv.2 (.inr ⟨hc, d, hd, hdb, by omega, this.1⟩), this.2⟩

theorem no_underscore {b max : Nat} {hex : Bool} (hb : b ≤ 10 ∨ b = 16 ∧ hex = true) (s : Str) (hs : 0x5f ∉ s) :
    ∀ n m, parseLoop b max n s = some m → underscoreLoop hex 0x30 s = true := by
  induction s with
  | nil => exact fun _ _ _ => rfl
  | cons c s ih =>
    intro n m h
    rw [List.mem_cons, not_or] at hs
    rcases parseLoop_inv.1 h with ⟨h, _⟩ | ⟨_, d, hd, hdb, _, h⟩
    · exact absurd h.symm hs.1
    · rw [underscore_digit hb hd hdb]
      exact ih hs.2 _ m h

/-- After the 0 or the prefix. -/
theorem parse_based {b max : Nat} {hex : Bool} (hb1 : 1 ≤ b) (hb : b ≤ 10 ∨ b = 16 ∧ hex = true) (ds : Str) (m : Nat) :
    ((parseLoop b max 0 ds = some m ∧ (0x5f ∈ ds → underscoreLoop hex 0x30 ds = true)) ↔
      (scan b true 0 ds = some m ∧ m ≤ max)) := by
  rw [← parse_scan hb1 hb ds true 0 m (Nat.zero_le _)]
  constructor
  · rintro ⟨h1, h2⟩
    refine ⟨h1, ?_⟩
    by_cases hu : 0x5f ∈ ds
    · exact h2 hu
    · exact no_underscore hb ds hu _ _ h1
  · rintro ⟨h1, h2⟩
    exact ⟨h1, fun _ => h2⟩

/-- From the start. -/
theorem parse_plain {max : Nat} (c : UInt8) (t : Str) (m : Nat) :
    ((parseLoop 10 max 0 (c :: t) = some m ∧ (0x5f ∈ c :: t → underscoreLoop false 0x5e (c :: t) = true)) ↔
      (scan 10 false 0 (c :: t) = some m ∧ m ≤ max)) := by
  by_cases hc : c = 0x5f
  · subst hc
    constructor
    · rintro ⟨_, h⟩
      have := h List.mem_cons_self
      rw [underscore_under] at this
      cases this
    · rintro ⟨h, _⟩
      rcases scan_inv h with ⟨_, h, _⟩ | ⟨h, _⟩
      · cases h
      · exact absurd rfl h
  · have hm : (0x5f ∈ c :: t) ↔ 0x5f ∈ t := by
      rw [List.mem_cons]
      exact ⟨fun h => h.resolve_left fun e => hc e.symm, .inr⟩
    rw [hm]
    constructor
    · rintro ⟨h1, h2⟩
      rcases parseLoop_inv.1 h1 with ⟨h, _⟩ | ⟨_, d, hd, hdb, hle, h⟩
      · exact absurd h hc
      · rw [underscore_digit (.inl (Nat.le_refl _)) hd hdb] at h2
        rw [scan_digit hd hdb]
        refine (parse_scan (hex := false) (by omega) (.inl (Nat.le_refl _)) t true _ m hle).1 ⟨h, ?_⟩
        by_cases hu : 0x5f ∈ t
        · exact h2 hu
        · exact no_underscore (.inl (Nat.le_refl _)) t hu _ _ h
    · rintro ⟨h1, h2⟩
      rcases scan_inv h1 with ⟨h, _⟩ | ⟨_, d, hd, hdb, h⟩
      · exact absurd h hc
      · have hle := scan_le (by omega) t h
        have := (parse_scan (hex := false) (max := max) (by omega) (.inl (Nat.le_refl _)) t true _ m (by omega)).2 ⟨h, h2⟩
        rw [underscore_digit (.inl (Nat.le_refl _)) hd hdb]
        exact ⟨parseLoop_inv.2 (.inr ⟨hc, d, hd, hdb, by omega, this.1⟩), fun _ => this.2⟩

theorem parseUint0_unfold {max : Nat} {s : Str} (hs : s ≠ []) (m : Nat) : parseUint0 max s = some m ↔
    (parseLoop (baseOf s).1 max 0 (baseOf s).2 = some m ∧ (0x5f ∈ (baseOf s).2 → underscoreOK s = true)) := by
  unfold parseUint0
  rw [if_neg hs]
  cases hp : parseLoop (baseOf s).1 max 0 (baseOf s).2 with
  | none => exact ⟨fun h => (by cases h), fun h => (by cases h.1)⟩
  | some n =>
    simp only
    split
    · rename_i h
      refine ⟨fun h => (by cases h), fun h' => ?_⟩
      have := h'.2 h.1
      rw [h.2] at this; cases this
    · rename_i h
      refine ⟨fun h' => ⟨h', fun hu => ?_⟩, fun h' => h'.1⟩
      cases hk : underscoreOK s with
      | true => rfl
      | false => exact absurd ⟨hu, hk⟩ h

set_option maxRecDepth 20000 in
theorem lower_iff (c : UInt8) : (lowerByte c = 0x62 ↔ c = 0x62 ∨ c = 0x42) ∧ (lowerByte c = 0x6f ↔ c = 0x6f ∨ c = 0x4f) ∧
    (lowerByte c = 0x78 ↔ c = 0x78 ∨ c = 0x58) := by
  revert c
  exact byte_cases (by decide)

theorem scan_prefix {b : Nat} (hb : b ≤ 8) {c : UInt8}
    (hc : lowerByte c = 0x62 ∨ lowerByte c = 0x6f ∨ lowerByte c = 0x78) (ok : Bool) (n : Nat) (s : Str) :
    scan b ok n (c :: s) = none := by
  cases h : scan b ok n (c :: s) with
  | none => rfl
  | some m =>
    exfalso
    have hl := lower_iff c
    rcases scan_inv h with ⟨rfl, _⟩ | ⟨_, d, hd, hdb, _⟩
    · revert hc; decide
    · have : ∀ d', digitOf c = some d' → 10 ≤ d' := by
        rw [hl.1, hl.2.1, hl.2.2] at hc
        rcases hc with (rfl | rfl) | (rfl | rfl) | rfl | rfl <;> (intro d' h; have := Option.some.inj h; omega)
      have := this d hd
      omega

/-- Literals that begin with 0. -/
theorem intLit_zero (r : Str) (n : Nat) : IntLit (0x30 :: r) n ↔ scan 8 true 0 r = some n ∨
    ∃ c ys, r = c :: ys ∧ ys ≠ [] ∧ ((lowerByte c = 0x62 ∧ scan 2 true 0 ys = some n) ∨
      (lowerByte c = 0x6f ∧ scan 8 true 0 ys = some n) ∨ (lowerByte c = 0x78 ∧ scan 16 true 0 ys = some n)) := by
  rw [intLit_iff]
  have z : str "0" = [0x30] := by decide
  have zb : str "0b" = [0x30, 0x62] := by decide
  have zB : str "0B" = [0x30, 0x42] := by decide
  have zo : str "0o" = [0x30, 0x6f] := by decide
  have zO : str "0O" = [0x30, 0x4f] := by decide
  have zx : str "0x" = [0x30, 0x78] := by decide
  have zX : str "0X" = [0x30, 0x58] := by decide
  constructor
  · rintro (⟨h, _⟩ | ⟨p, b, ds, hp, he, hd, hne⟩)
    · exact absurd rfl h
    · simp only [basePrefixes, List.mem_cons, Prod.mk.injEq, List.not_mem_nil, or_false] at hp
      rcases hp with ⟨rfl, rfl⟩ | hp
      · rw [z] at he
        obtain ⟨-, rfl⟩ := List.cons.inj he
        exact .inl hd
      · right
        have hne' : ds ≠ [] := by
          refine hne.resolve_right ?_
          rintro rfl
          rcases hp with ⟨h, _⟩ | ⟨h, _⟩ | ⟨h, _⟩ | ⟨h, _⟩ | ⟨h, _⟩ | ⟨h, _⟩ <;> exact absurd h (by decide)
        rcases hp with ⟨rfl, rfl⟩ | ⟨rfl, rfl⟩ | ⟨rfl, rfl⟩ | ⟨rfl, rfl⟩ | ⟨rfl, rfl⟩ | ⟨rfl, rfl⟩
        · rw [zb] at he; obtain ⟨-, rfl⟩ := List.cons.inj he; exact ⟨_, ds, rfl, hne', .inl ⟨by decide, hd⟩⟩
        · rw [zB] at he; obtain ⟨-, rfl⟩ := List.cons.inj he; exact ⟨_, ds, rfl, hne', .inl ⟨by decide, hd⟩⟩
        · rw [zo] at he; obtain ⟨-, rfl⟩ := List.cons.inj he; exact ⟨_, ds, rfl, hne', .inr (.inl ⟨by decide, hd⟩)⟩
        · rw [zO] at he; obtain ⟨-, rfl⟩ := List.cons.inj he; exact ⟨_, ds, rfl, hne', .inr (.inl ⟨by decide, hd⟩)⟩
        · rw [zx] at he; obtain ⟨-, rfl⟩ := List.cons.inj he; exact ⟨_, ds, rfl, hne', .inr (.inr ⟨by decide, hd⟩)⟩
        · rw [zX] at he; obtain ⟨-, rfl⟩ := List.cons.inj he; exact ⟨_, ds, rfl, hne', .inr (.inr ⟨by decide, hd⟩)⟩
  · rintro (h | ⟨c, ys, rfl, hne, h⟩)
    · exact .inr ⟨str "0", 8, r, by simp [basePrefixes], by rw [z]; rfl, h, .inr rfl⟩
    · right
      have hl := lower_iff c
      rw [hl.1, hl.2.1, hl.2.2] at h
      rcases h with ⟨rfl | rfl, h⟩ | ⟨rfl | rfl, h⟩ | ⟨rfl | rfl, h⟩
      · exact ⟨str "0b", 2, ys, by simp [basePrefixes], by rw [zb]; rfl, h, .inl hne⟩
      · exact ⟨str "0B", 2, ys, by simp [basePrefixes], by rw [zB]; rfl, h, .inl hne⟩
      · exact ⟨str "0o", 8, ys, by simp [basePrefixes], by rw [zo]; rfl, h, .inl hne⟩
      · exact ⟨str "0O", 8, ys, by simp [basePrefixes], by rw [zO]; rfl, h, .inl hne⟩
      · exact ⟨str "0x", 16, ys, by simp [basePrefixes], by rw [zx]; rfl, h, .inl hne⟩
      · exact ⟨str "0X", 16, ys, by simp [basePrefixes], by rw [zX]; rfl, h, .inl hne⟩

/-- `ParseUint` with base 0 reads the integer literals of Go up to its limit. -/
theorem parseUint0_iff (max : Nat) (s : Str) (m : Nat) : parseUint0 max s = some m ↔ IntLit s m ∧ m ≤ max := by
  cases s with
  | nil =>
    refine ⟨fun h => (by cases h), fun h => ?_⟩
    rcases (intLit_iff _ _).1 h.1 with ⟨_, h⟩ | ⟨p, b, ds, hp, he, _⟩
    · cases h
    · exfalso
      have := (List.append_eq_nil_iff.1 he.symm).1
      subst this
      revert hp
      simp only [basePrefixes, List.mem_cons, Prod.mk.injEq, List.not_mem_nil, or_false]
      have : ∀ w ∈ ["0", "0b", "0B", "0o", "0O", "0x", "0X"], [] ≠ str w := by decide
      rintro (⟨h, _⟩ | ⟨h, _⟩ | ⟨h, _⟩ | ⟨h, _⟩ | ⟨h, _⟩ | ⟨h, _⟩ | ⟨h, _⟩) <;> exact this _ (by simp) h
  | cons c r =>
    rw [parseUint0_unfold (by simp)]
    by_cases hc : c = 0x30
    · subst hc
      rw [intLit_zero]
      -- no prefix
      have plain : baseOf (0x30 :: r) = (8, r) → (0x5f ∈ r → underscoreOK (0x30 :: r) = underscoreLoop false 0x30 r) →
          (∀ c ys, r = c :: ys → ys ≠ [] → ¬(lowerByte c = 0x62 ∨ lowerByte c = 0x6f ∨ lowerByte c = 0x78)) →
          ((parseLoop (baseOf (0x30 :: r)).1 max 0 (baseOf (0x30 :: r)).2 = some m ∧
            (0x5f ∈ (baseOf (0x30 :: r)).2 → underscoreOK (0x30 :: r) = true)) ↔
          (scan 8 true 0 r = some m ∨ ∃ c ys, r = c :: ys ∧ ys ≠ [] ∧ ((lowerByte c = 0x62 ∧ scan 2 true 0 ys = some m) ∨
            (lowerByte c = 0x6f ∧ scan 8 true 0 ys = some m) ∨ (lowerByte c = 0x78 ∧ scan 16 true 0 ys = some m))) ∧ m ≤ max) := by
        intro h1 h2 h3
        rw [h1]
        have e : (0x5f ∈ r → underscoreOK (0x30 :: r) = true) ↔ (0x5f ∈ r → underscoreLoop false 0x30 r = true) := by
          constructor
          · intro h hu; rw [← h2 hu]; exact h hu
          · intro h hu; rw [h2 hu]; exact h hu
        simp only
        rw [e, parse_based (hex := false) (by omega) (.inl (by omega))]
        constructor
        · exact fun h => ⟨.inl h.1, h.2⟩
        · rintro ⟨h | ⟨c, ys, he, hne, h⟩, h'⟩
          · exact ⟨h, h'⟩
          · exact absurd (h.imp (·.1) (Or.imp (·.1) (·.1))) (h3 c ys he hne)
      have first : ∀ s : Str, underscoreLoop false 0x5e (0x30 :: s) = underscoreLoop false 0x30 s := fun s =>
        underscore_digit (b := 10) (d := 0) (.inl (Nat.le_refl _)) (by decide) (by omega) _ s
      cases r with
      | nil => exact plain rfl (fun h => absurd h (by simp)) (fun c ys h => (by cases h))
      | cons x ys =>
        cases ys with
        | nil =>
          refine plain rfl (fun h => ?_) (fun c ys h hne => absurd (List.cons.inj h).2.symm hne)
          obtain rfl : x = 0x5f := (List.mem_singleton.1 h).symm
          rfl
        | cons y t =>
          -- a prefix
          have based : ∀ b hex, 1 ≤ b → b ≤ 10 ∨ b = 16 ∧ hex = true → baseOf (0x30 :: x :: y :: t) = (b, y :: t) →
              underscoreOK (0x30 :: x :: y :: t) = underscoreLoop hex 0x30 (y :: t) →
              ((parseLoop (baseOf (0x30 :: x :: y :: t)).1 max 0 (baseOf (0x30 :: x :: y :: t)).2 = some m ∧
                (0x5f ∈ (baseOf (0x30 :: x :: y :: t)).2 → underscoreOK (0x30 :: x :: y :: t) = true)) ↔
                scan b true 0 (y :: t) = some m ∧ m ≤ max) := by
            intro b hex h1 h2 h3 h4
            rw [h3, h4]
            exact parse_based h1 h2 _ _
          by_cases h1 : lowerByte x = 0x62
          · rw [based 2 false (by omega) (.inl (by omega)) (by simp only [baseOf]; rw [if_pos h1])
              (by simp only [underscoreOK]; rw [if_pos (.inl h1), h1]; rfl),
              scan_prefix (Nat.le_refl _) (.inl h1)]
            constructor
            · exact fun h => ⟨.inr ⟨x, y :: t, rfl, by simp, .inl ⟨h1, h.1⟩⟩, h.2⟩
            · rintro ⟨h | ⟨c, ys, he, _, h⟩, h'⟩
              · cases h
              · obtain ⟨rfl, rfl⟩ := List.cons.inj he
                rcases h with h | h | h
                · exact ⟨h.2, h'⟩
                · rw [h1] at h; exact absurd h.1 (by decide)
                · rw [h1] at h; exact absurd h.1 (by decide)
          · by_cases h2 : lowerByte x = 0x6f
            · rw [based 8 false (by omega) (.inl (by omega)) (by simp only [baseOf]; rw [if_neg h1, if_pos h2])
                (by simp only [underscoreOK]; rw [if_pos (.inr (.inl h2)), h2]; rfl),
                scan_prefix (Nat.le_refl _) (.inr (.inl h2))]
              constructor
              · exact fun h => ⟨.inr ⟨x, y :: t, rfl, by simp, .inr (.inl ⟨h2, h.1⟩)⟩, h.2⟩
              · rintro ⟨h | ⟨c, ys, he, _, h⟩, h'⟩
                · cases h
                · obtain ⟨rfl, rfl⟩ := List.cons.inj he
                  rcases h with h | h | h
                  · rw [h2] at h; exact absurd h.1 (by decide)
                  · exact ⟨h.2, h'⟩
                  · rw [h2] at h; exact absurd h.1 (by decide)
            · by_cases h3 : lowerByte x = 0x78
              · rw [based 16 true (by omega) (.inr ⟨rfl, rfl⟩) (by simp only [baseOf]; rw [if_neg h1, if_neg h2, if_pos h3])
                  (by simp only [underscoreOK]; rw [if_pos (.inr (.inr h3)), h3]; rfl),
                  scan_prefix (Nat.le_refl _) (.inr (.inr h3))]
                constructor
                · exact fun h => ⟨.inr ⟨x, y :: t, rfl, by simp, .inr (.inr ⟨h3, h.1⟩)⟩, h.2⟩
                · rintro ⟨h | ⟨c, ys, he, _, h⟩, h'⟩
                  · cases h
                  · obtain ⟨rfl, rfl⟩ := List.cons.inj he
                    rcases h with h | h | h
                    · rw [h3] at h; exact absurd h.1 (by decide)
                    · rw [h3] at h; exact absurd h.1 (by decide)
                    · exact ⟨h.2, h'⟩
              · refine plain (by simp only [baseOf]; rw [if_neg h1, if_neg h2, if_neg h3]) (fun _ => ?_) ?_
                · simp only [underscoreOK]
                  rw [if_neg (by rintro (h | h | h); exacts [h1 h, h2 h, h3 h]), first]
                · intro c ys he _
                  obtain ⟨rfl, rfl⟩ := List.cons.inj he
                  rintro (h | h | h)
                  exacts [h1 h, h2 h, h3 h]
    · have e1 : baseOf (c :: r) = (10, c :: r) := by
        unfold baseOf
        split
        · rename_i heq; exact absurd (List.cons.inj heq).1 hc
        · rename_i heq; exact absurd (List.cons.inj heq).1 hc
        · rfl
      have e2 : underscoreOK (c :: r) = underscoreLoop false 0x5e (c :: r) := by
        unfold underscoreOK
        split
        · rename_i heq; exact absurd (List.cons.inj heq).1 hc
        · rfl
      rw [e1, e2, intLit_iff]
      simp only
      rw [parse_plain]
      constructor
      · exact fun h => ⟨.inl ⟨fun e => hc (Option.some.inj e), h.1⟩, h.2⟩
      · rintro ⟨⟨_, h⟩ | ⟨p, b, ds, hp, he, _⟩, h'⟩
        · exact ⟨h, h'⟩
        · exfalso
          have : ∀ w ∈ ["0", "0b", "0B", "0o", "0O", "0x", "0X"], (str w).head? = some 0x30 := by decide
          have hh : p.head? = some 0x30 := by
            simp only [basePrefixes, List.mem_cons, Prod.mk.injEq, List.not_mem_nil, or_false] at hp
            rcases hp with ⟨rfl, _⟩ | ⟨rfl, _⟩ | ⟨rfl, _⟩ | ⟨rfl, _⟩ | ⟨rfl, _⟩ | ⟨rfl, _⟩ | ⟨rfl, _⟩ <;> exact this _ (by simp)
          cases p with
          | nil => cases hh
          | cons a p =>
            rw [List.cons_append] at he
            exact hc ((List.cons.inj he).1.trans (Option.some.inj hh))

/-- A literal begins with a digit. -/
theorem intLit_head {s : Str} {n : Nat} (h : IntLit s n) : ∃ c r d, s = c :: r ∧ digitOf c = some d := by
  rcases (intLit_iff _ _).1 h with ⟨_, h⟩ | ⟨p, b, ds, hp, he, _⟩
  · cases s with
    | nil => cases h
    | cons c r =>
      rcases scan_inv h with ⟨_, h, _⟩ | ⟨_, d, hd, _⟩
      · cases h
      · exact ⟨c, r, d, rfl, hd⟩
  · have : ∀ w ∈ ["0", "0b", "0B", "0o", "0O", "0x", "0X"], (str w).head? = some 0x30 := by decide
    have hh : p.head? = some 0x30 := by
      simp only [basePrefixes, List.mem_cons, Prod.mk.injEq, List.not_mem_nil, or_false] at hp
      rcases hp with ⟨rfl, _⟩ | ⟨rfl, _⟩ | ⟨rfl, _⟩ | ⟨rfl, _⟩ | ⟨rfl, _⟩ | ⟨rfl, _⟩ | ⟨rfl, _⟩ <;> exact this _ (by simp)
    cases p with
    | nil => cases hh
    | cons a p =>
      obtain rfl := Option.some.inj hh
      exact ⟨0x30, p ++ ds, 0, he, by decide⟩

/-- `ParseInt` with base 0 reads the integer literals of Go, with or without a sign, within the limits. -/
theorem parseInt0_iff (s : Str) (z : Int) : parseInt0 s = some z ↔
    SignedLit s z ∧ FitsInt z := by
  unfold FitsInt
  have plus : str "+" = [0x2b] := by decide
  have minus : str "-" = [0x2d] := by decide
  have nosign : ∀ (c : UInt8) (t : Str) (n : Nat), IntLit (c :: t) n → c ≠ 0x2d ∧ c ≠ 0x2b := by
    intro c t n h
    obtain ⟨c', r, d, he, hd⟩ := intLit_head h
    obtain ⟨rfl, rfl⟩ := List.cons.inj he
    constructor <;> (rintro rfl; revert hd; decide +revert)
  have pos : ∀ t : Str, (match parseUint0 18446744073709551615 t with
      | some n => if n < 9223372036854775808 then some (n : Int) else none
      | none => none) = some z ↔ ∃ n : Nat, IntLit t n ∧ z = n ∧ n < 9223372036854775808 := by
    intro t
    cases hp : parseUint0 18446744073709551615 t with
    | none =>
      refine ⟨fun h => (by cases h), ?_⟩
      rintro ⟨n, h1, _, h3⟩
      have := (parseUint0_iff 18446744073709551615 t n).2 ⟨h1, by omega⟩
      rw [hp] at this; cases this
    | some n =>
      have hn := (parseUint0_iff _ _ _).1 hp
      simp only
      constructor
      · intro h
        split at h
        · rename_i hlt
          exact ⟨n, hn.1, (Option.some.inj h).symm, hlt⟩
        · cases h
      · rintro ⟨n', h1, rfl, h3⟩
        have := (parseUint0_iff 18446744073709551615 t n').2 ⟨h1, by omega⟩
        rw [hp] at this
        obtain rfl := Option.some.inj this
        rw [if_pos h3]
  unfold parseInt0 SignedLit
  split
  · rename_i t
    cases hp : parseUint0 18446744073709551615 t with
    | none =>
      refine ⟨fun h => (by cases h), ?_⟩
      rintro ⟨⟨n, ⟨h, _⟩ | ⟨t', he, _⟩ | ⟨t', he, h1, rfl⟩⟩, hr⟩
      · exact absurd rfl (nosign _ _ _ h).1
      · rw [plus] at he; exact absurd (List.cons.inj he).1 (by decide)
      · rw [minus] at he
        obtain ⟨-, rfl⟩ := List.cons.inj he
        have := (parseUint0_iff 18446744073709551615 t n).2 ⟨h1, by omega⟩
        rw [hp] at this; cases this
    | some n =>
      have hn := (parseUint0_iff _ _ _).1 hp
      simp only
      constructor
      · intro h
        split at h
        · obtain rfl := Option.some.inj h
          exact ⟨⟨n, .inr (.inr ⟨t, by rw [minus]; rfl, hn.1, rfl⟩)⟩, by omega, by omega⟩
        · cases h
      · rintro ⟨⟨n', ⟨h, _⟩ | ⟨t', he, _⟩ | ⟨t', he, h1, rfl⟩⟩, hr⟩
        · exact absurd rfl (nosign _ _ _ h).1
        · rw [plus] at he; exact absurd (List.cons.inj he).1 (by decide)
        · rw [minus] at he
          obtain ⟨-, rfl⟩ := List.cons.inj he
          have := (parseUint0_iff 18446744073709551615 t n').2 ⟨h1, by omega⟩
          rw [hp] at this
          obtain rfl := Option.some.inj this
          rw [if_pos (by omega)]
  · rename_i t
    refine Iff.trans (pos t) ?_
    constructor
    · rintro ⟨n, h1, rfl, h3⟩
      exact ⟨⟨n, .inr (.inl ⟨t, by rw [plus]; rfl, h1, rfl⟩)⟩, by omega, by omega⟩
    · rintro ⟨⟨n, ⟨h, _⟩ | ⟨t', he, h1, rfl⟩ | ⟨t', he, _⟩⟩, hr⟩
      · exact absurd rfl (nosign _ _ _ h).2
      · rw [plus] at he
        obtain ⟨-, rfl⟩ := List.cons.inj he
        exact ⟨n, h1, rfl, by omega⟩
      · rw [minus] at he; exact absurd (List.cons.inj he).1 (by decide)
  · rename_i hm hp
    refine Iff.trans (pos s) ?_
    constructor
    · rintro ⟨n, h1, rfl, h3⟩
      exact ⟨⟨n, .inl ⟨h1, rfl⟩⟩, by omega, by omega⟩
    · rintro ⟨⟨n, ⟨h, rfl⟩ | ⟨t', he, _⟩ | ⟨t', he, _⟩⟩, hr⟩
      · exact ⟨n, h, rfl, by omega⟩
      · rw [plus] at he; exact absurd he (hp t')
      · rw [minus] at he; exact absurd he (hm t')

/-- A text stands for one number. -/
theorem intLit_unique {s : Str} {n m : Nat} (h1 : IntLit s n) (h2 : IntLit s m) : n = m := by
  have e1 := (parseUint0_iff (max n m) s n).2 ⟨h1, Nat.le_max_left _ _⟩
  have e2 := (parseUint0_iff (max n m) s m).2 ⟨h2, Nat.le_max_right _ _⟩
  rw [e1] at e2
  exact Option.some.inj e2

set_option maxRecDepth 20000 in
theorem digitOf_dec (c : UInt8) : (digitOf c).filter (fun d => decide (d < 10)) =
    if isDigit c then some (c.toNat - 48) else none := by
  revert c
  exact byte_cases (by decide)

theorem scan_dec (s : Str) : ∀ (ok : Bool) (n m : Nat), 0x5f ∉ s → (scan 10 ok n s = some m ↔
    (ok = true ∨ s ≠ []) ∧ s.all isDigit = true ∧ m = s.foldl (fun n c => n * 10 + (c.toNat - 48)) n) := by
  induction s with
  | nil =>
    intro ok n m _
    cases ok with
    | false => simp [scan]
    | true => simp [scan, eq_comm]
  | cons c s ih =>
    intro ok n m hu
    have hc : c ≠ 0x5f := fun h => hu (by rw [h]; exact List.mem_cons_self)
    have hs : (0x5f : UInt8) ∉ s := fun h => hu (List.mem_cons_of_mem _ h)
    have hd := digitOf_dec c
    constructor
    · intro h
      rcases scan_inv h with ⟨h, _⟩ | ⟨_, d, h1, h2, h3⟩
      · exact absurd h hc
      · rw [h1, Option.filter_some_pos (by simpa using h2)] at hd
        have hi : isDigit c = true := by
          by_contra hn
          rw [if_neg hn] at hd; cases hd
        rw [if_pos hi] at hd
        obtain rfl := Option.some.inj hd
        obtain ⟨_, e2, e3⟩ := (ih _ _ _ hs).1 h3
        exact ⟨.inr (by simp), by rw [List.all_cons, hi, e2]; rfl, e3⟩
    · rintro ⟨_, h2, h3⟩
      rw [List.all_cons, Bool.and_eq_true] at h2
      rw [if_pos h2.1] at hd
      obtain ⟨h4, h5⟩ := Option.filter_eq_some_iff.1 hd
      rw [scan_digit h4 (by simpa using h5)]
      exact (ih _ _ _ hs).2 ⟨.inl rfl, h2.2, h3⟩

theorem not_under {s : Str} (h : s.all isDigit = true) : (0x5f : UInt8) ∉ s := fun hm =>
  absurd (List.all_eq_true.1 h _ hm) (by decide)

theorem decimal_iff (t : Str) (n : Nat) : (Digits 10 t n ∧ 0x5f ∉ t) ↔ t ≠ [] ∧ t.all isDigit = true ∧ n = digitsValue t := by
  constructor
  · rintro ⟨h1, h2⟩
    obtain ⟨h3, h4, h5⟩ := (scan_dec t false 0 n h2).1 ((digits_iff (by omega) t n).1 h1)
    exact ⟨h3.resolve_left (by decide), h4, h5⟩
  · rintro ⟨h1, h2, h3⟩
    exact ⟨(digits_iff (by omega) t n).2 ((scan_dec t false 0 n (not_under h2)).2 ⟨.inr h1, h2, h3⟩), not_under h2⟩

/-- `Atoi` reads decimal digits, with or without a sign, within the limits. -/
theorem atoi_iff (s : Str) (z : Int) : atoi s = some z ↔ SignedDecimal s z ∧ FitsInt z := by
  have plus : str "+" = [0x2b] := by decide
  have minus : str "-" = [0x2d] := by decide
  have nosign : ∀ (c : UInt8) (t : Str), (c :: t).all isDigit = true → c ≠ 0x2d ∧ c ≠ 0x2b := by
    intro c t h
    have := List.all_eq_true.1 h c List.mem_cons_self
    constructor <;> (rintro rfl; exact absurd this (by decide))
  have spec : SignedDecimal s z ↔ ∃ t : Str, (t ≠ [] ∧ t.all isDigit = true) ∧
      ((s = t ∧ z = digitsValue t) ∨ (s = 0x2b :: t ∧ z = digitsValue t) ∨ (s = 0x2d :: t ∧ z = -(digitsValue t : Int))) := by
    unfold SignedDecimal
    rw [plus, minus]
    constructor
    · rintro ⟨t, n, h1, h2, h3⟩
      obtain ⟨e1, e2, rfl⟩ := (decimal_iff t n).1 ⟨h1, h2⟩
      exact ⟨t, ⟨e1, e2⟩, h3⟩
    · rintro ⟨t, ⟨h1, h2⟩, h3⟩
      obtain ⟨e1, e2⟩ := (decimal_iff t _).2 ⟨h1, h2, rfl⟩
      exact ⟨t, _, e1, e2, h3⟩
  rw [spec]
  have key : ∀ (t : Str) (v : Int), (if t = [] ∨ t.all isDigit = false then none
      else if -9223372036854775808 ≤ v ∧ v ≤ 9223372036854775807 then some v else none) = some z ↔
      (t ≠ [] ∧ t.all isDigit = true) ∧ z = v ∧ FitsInt z := by
    intro t v
    by_cases h : t = [] ∨ t.all isDigit = false
    · rw [if_pos h]
      refine ⟨fun h => (by cases h), ?_⟩
      rintro ⟨⟨h1, h2⟩, _⟩
      rcases h with h | h
      · exact absurd h h1
      · rw [h2] at h; cases h
    · rw [if_neg h]
      have h' : t ≠ [] ∧ t.all isDigit = true := ⟨fun e => h (.inl e), by
        cases ht : t.all isDigit with
        | true => rfl
        | false => exact absurd (.inr ht) h⟩
      by_cases hv : -9223372036854775808 ≤ v ∧ v ≤ 9223372036854775807
      · rw [if_pos hv]
        constructor
        · intro e; obtain rfl := Option.some.inj e; exact ⟨h', rfl, hv⟩
        · rintro ⟨_, rfl, _⟩; rfl
      · rw [if_neg hv]
        refine ⟨fun h => (by cases h), ?_⟩
        rintro ⟨_, rfl, h⟩
        exact absurd h hv
  unfold atoi
  split
  rename_i neg ds heq
  split at heq
  · rename_i t
    obtain ⟨rfl, rfl⟩ := Prod.mk.inj heq
    simp only [if_true]
    refine (key t _).trans ?_
    constructor
    · rintro ⟨h, rfl, hf⟩; exact ⟨⟨t, h, .inr (.inr ⟨rfl, rfl⟩)⟩, hf⟩
    · rintro ⟨⟨t', h, ⟨rfl, _⟩ | ⟨he, _⟩ | ⟨he, rfl⟩⟩, hf⟩
      · exact absurd rfl (nosign _ _ h.2).1
      · exact absurd (List.cons.inj he).1 (by decide)
      · obtain ⟨-, rfl⟩ := List.cons.inj he
        exact ⟨h, rfl, hf⟩
  · rename_i t
    obtain ⟨rfl, rfl⟩ := Prod.mk.inj heq
    simp only [Bool.false_eq_true, if_false]
    refine (key t _).trans ?_
    constructor
    · rintro ⟨h, rfl, hf⟩; exact ⟨⟨t, h, .inr (.inl ⟨rfl, rfl⟩)⟩, hf⟩
    · rintro ⟨⟨t', h, ⟨rfl, _⟩ | ⟨he, rfl⟩ | ⟨he, _⟩⟩, hf⟩
      · exact absurd rfl (nosign _ _ h.2).2
      · obtain ⟨-, rfl⟩ := List.cons.inj he
        exact ⟨h, rfl, hf⟩
      · exact absurd (List.cons.inj he).1 (by decide)
  · rename_i hm hp
    obtain ⟨rfl, rfl⟩ := Prod.mk.inj heq
    simp only [Bool.false_eq_true, if_false]
    refine (key s _).trans ?_
    constructor
    · rintro ⟨h, rfl, hf⟩; exact ⟨⟨s, h, .inl ⟨rfl, rfl⟩⟩, hf⟩
    · rintro ⟨⟨t', h, ⟨rfl, rfl⟩ | ⟨he, _⟩ | ⟨he, _⟩⟩, hf⟩
      · exact ⟨h, rfl, hf⟩
      · exact absurd he (hp t')
      · exact absurd he (hm t')

end Verif
