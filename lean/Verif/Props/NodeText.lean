import Verif.Props.ById
import Verif.Lemmas.Numbers
import Mathlib.Data.List.Chain

/-! # C56 — the text of a node, for every last letter -/

namespace Verif

open Index

/-- A byte that continues a character of UTF-8. -/
def Continues (b : UInt8) : Prop := 0x80 ≤ b.toNat ∧ b.toNat < 0xC0

/-- Next to an ASCII byte no continuation byte may stand. -/
def Fits2 (a c : UInt8) : Prop := a.toNat < 0x80 → ¬ Continues c

/-- The encoding of a letter outside ASCII: a first byte that is none of ASCII, and continuation bytes. -/
theorem encodeRune_wide {l : Rune} (h : ¬ codePoint l < 128) :
    ∃ a b t, encodeRune l = a :: b :: t ∧ 0xC0 ≤ a.toNat ∧ Continues b ∧ ∀ c ∈ t, Continues c := by
  have hl : codePoint l < 4294967296 := UInt32.toNat_lt _
  unfold codePoint at h hl
  unfold encodeRune
  simp only
  rw [if_neg (by omega)]
  split
  · refine ⟨_, _, [], rfl, ?_, ⟨?_, ?_⟩, by simp⟩ <;> (rw [toNat_ofNat8 (by omega)]; omega)
  · split
    · exact ⟨0xEF, 0xBF, [0xBD], rfl, by decide, ⟨by decide, by decide⟩, by simp; exact ⟨by decide, by decide⟩⟩
    · split
      · refine ⟨_, _, [_], rfl, ?_, ⟨?_, ?_⟩, ?_⟩
        · rw [toNat_ofNat8 (by omega)]; omega
        · rw [toNat_ofNat8 (by omega)]; omega
        · rw [toNat_ofNat8 (by omega)]; omega
        · intro c hc
          obtain rfl := List.mem_singleton.1 hc
          constructor <;> (rw [toNat_ofNat8 (by omega)]; omega)
      · refine ⟨_, _, [_, _], rfl, ?_, ⟨?_, ?_⟩, ?_⟩
        · rw [toNat_ofNat8 (by omega)]; omega
        · rw [toNat_ofNat8 (by omega)]; omega
        · rw [toNat_ofNat8 (by omega)]; omega
        · intro c hc
          rcases List.mem_cons.1 hc with rfl | hc
          · constructor <;> (rw [toNat_ofNat8 (by omega)]; omega)
          · obtain rfl := List.mem_singleton.1 hc
            constructor <;> (rw [toNat_ofNat8 (by omega)]; omega)

theorem encodeRune_ascii {l : Rune} (h : codePoint l < 128) : encodeRune l = [UInt8.ofNat (codePoint l)] := by
  unfold encodeRune
  unfold codePoint at h
  simp only
  rw [if_pos (by omega)]
  rfl

/-- No continuation byte starts a text or follows an ASCII byte. -/
def Orderly (s : Str) : Prop := List.IsChain Fits2 s ∧ ∀ b ∈ s.head?, ¬ Continues b

theorem encodeRune_orderly (r : Rune) : Orderly (encodeRune r) := by
  by_cases h : codePoint r < 128
  · rw [encodeRune_ascii h]
    refine ⟨by simp, fun b hb => ?_⟩
    obtain rfl := Option.some.inj hb
    rintro ⟨h1, -⟩
    rw [toNat_ofNat8 (by omega)] at h1
    omega
  · obtain ⟨a, b, t, e, ha, hb, ht⟩ := encodeRune_wide h
    rw [e]
    refine ⟨?_, fun c hc => ?_⟩
    · refine List.isChain_cons_cons.2 ⟨fun hlt => by omega, ?_⟩
      have : ∀ l : Str, (∀ c ∈ l, Continues c) → List.IsChain Fits2 l := by
        intro l
        induction l with
        | nil => intro _; simp
        | cons x l ih =>
          intro hl
          cases l with
          | nil => simp
          | cons y l =>
            refine List.isChain_cons_cons.2 ⟨fun hlt => ?_, ih fun c hc => hl c (List.mem_cons_of_mem _ hc)⟩
            have := (hl x List.mem_cons_self).1
            omega
      exact this (b :: t) fun c hc => by
        rcases List.mem_cons.1 hc with rfl | hc
        · exact hb
        · exact ht c hc
    · obtain rfl := Option.some.inj hc
      exact fun h => by have := h.2; omega

theorem encodeRunes_orderly (rs : List Rune) : Orderly (encodeRunes rs) := by
  induction rs with
  | nil => exact ⟨by simp [encodeRunes], by simp [encodeRunes]⟩
  | cons r rs ih =>
    have e : encodeRunes (r :: rs) = encodeRune r ++ encodeRunes rs := by simp [encodeRunes]
    rw [e]
    have h1 := encodeRune_orderly r
    refine ⟨List.isChain_append.2 ⟨h1.1, ih.1, fun x _ y hy _ => ih.2 y hy⟩, fun b hb => ?_⟩
    rw [List.head?_append] at hb
    cases hh : (encodeRune r).head? with
    | none => exact absurd (List.head?_eq_none_iff.1 hh) (encodeRune_ne_nil r)
    | some x =>
      rw [hh] at hb
      obtain rfl := Option.some.inj hb
      exact h1.2 x (by rw [hh]; rfl)

theorem Orderly.of_valid {w : Str} (h : ValidUtf8 w) : Orderly w := by
  obtain ⟨rs, -, rfl⟩ := h
  exact encodeRunes_orderly rs

theorem ValidUtf8.append {a b : Str} (ha : ValidUtf8 a) (hb : ValidUtf8 b) : ValidUtf8 (a ++ b) := by
  obtain ⟨r, hr, rfl⟩ := ha
  obtain ⟨t, ht, rfl⟩ := hb
  refine ⟨r ++ t, fun x hx => ?_, by simp [encodeRunes]⟩
  rcases List.mem_append.1 hx with h | h
  · exact hr x h
  · exact ht x h

/-- A text of ASCII bytes is valid. -/
theorem ValidUtf8.ascii (w : Str) (h : ∀ b ∈ w, b.toNat < 128) : ValidUtf8 w := by
  induction w with
  | nil => exact ⟨[], by simp, rfl⟩
  | cons b w ih =>
    have hb := h b List.mem_cons_self
    have hc : codePoint (runeOfNat b.toNat) = b.toNat := codePoint_runeOfNat (by omega)
    refine ValidUtf8.append (a := [b]) ⟨[runeOfNat b.toNat], ?_, ?_⟩ (ih fun c hc => h c (List.mem_cons_of_mem _ hc))
    · intro r hr
      obtain rfl := List.mem_singleton.1 hr
      unfold IsScalar
      rw [hc]
      omega
    · have : encodeRunes [runeOfNat b.toNat] = encodeRune (runeOfNat b.toNat) := by simp [encodeRunes]
      rw [this, encodeRune_ascii (by omega), hc, ofNat8_toNat b rfl]

/-- `string(runes)` is valid whatever the runes are: what is no character becomes U+FFFD. -/
theorem ValidUtf8.encode (rs : List Rune) : ValidUtf8 (encodeRunes rs) := by
  induction rs with
  | nil => exact ⟨[], by simp, rfl⟩
  | cons r rs ih =>
    have e : encodeRunes (r :: rs) = encodeRune r ++ encodeRunes rs := by simp [encodeRunes]
    rw [e]
    refine ValidUtf8.append ?_ ih
    by_cases hs : IsScalar r
    · exact ⟨[r], by simpa using hs, by simp [encodeRunes]⟩
    · refine ⟨[runeError], by decide, ?_⟩
      have h1 : encodeRunes [runeError] = [0xEF, 0xBF, 0xBD] := by decide
      rw [h1]
      unfold IsScalar codePoint at hs
      unfold encodeRune
      simp only
      rw [if_neg (by omega), if_neg (by omega), if_pos (by omega)]

theorem itoa_ascii (n : Nat) : ∀ b ∈ itoa n, b.toNat < 128 := by
  intro b hb
  have := List.all_eq_true.1 (itoa_isDigit n) b hb
  unfold isDigit at this
  simp only [Bool.and_eq_true, decide_eq_true_eq, UInt8.le_iff_toNat_le] at this
  have h39 : (0x39 : UInt8).toNat = 57 := rfl
  omega

/-- C56, exactly: the text of a node shows the word without its last *byte*, the last letter in brackets, the last
letter without its first *byte*, and the numbers of the node, its parent and its readings. It is valid text if and only
if the last letter is an ASCII character. -/
theorem C56_exact {h : List Op} {ix : Index} (r : Run h ix) (p : List Rune) (l : Rune) (id : ID)
    (hz : NoReload h ∨ NoLeadingNul (p ++ [l])) (hf : (ix.fetchRunes (p ++ [l])).2 = .ok id) :
    ∃ (parent : ID) (it : Item) (text : Str), ix.nodeItem id = .ok it ∧ it.parent = parent ∧
      (p = [] ∧ parent = 0 ∨ (ix.fetchRunes p).2 = .ok parent) ∧ ix.nodeString id = .ok text ∧
      text = str "Node(" ++ encodeRunes p ++ (encodeRune l).dropLast ++ str "[" ++ encodeRune l ++ str "]" ++
        (encodeRune l).tail ++ itoa id.toNat ++ str "_" ++ itoa parent.toNat ++ str "_" ++ itoa it.variants.toNat ++
        str ")" ∧
      (ValidUtf8 text ↔ codePoint l < 128) := by
  rw [r.trie.fetchRoot_iff, Run.root_join hz] at hf
  obtain ⟨_, hf⟩ := hf
  have hlt := TrieOK.lt_next hf
  have h0 : 0 < id.toNat := by
    rcases Nat.eq_zero_or_pos id.toNat with h | h
    · rw [h, r.trie.root] at hf
      have := Option.some.inj hf
      simp at this
    · exact h
  obtain ⟨it, w, a1, a2, a3, a4, a5, a6⟩ := nodeString_eq r.trie h0 hlt
  rw [a5] at hf
  obtain ⟨rfl, hll⟩ := List.append_inj' (Option.some.inj hf) rfl
  obtain rfl : it.letter = l := by simpa using hll
  refine ⟨it.parent, it, _, ?_, rfl, ?_, a6, ?_, ?_⟩
  · unfold nodeItem; rw [a1]
  · by_cases hp : w = []
    · left
      refine ⟨hp, ?_⟩
      subst hp
      have := nodup_getElem?_inj r.trie.nodup a4 r.trie.root
      exact UInt32.toNat_inj.1 this
    · right
      rw [r.trie.fetchRoot_iff, Run.root_join (hz.imp (fun h => h) fun h => ?_)]
      · exact ⟨hp, a4⟩
      · unfold NoLeadingNul at h ⊢
        cases w with
        | nil => exact absurd rfl hp
        | cons a w => exact h
  · have hne := encodeRune_ne_nil it.letter
    rw [List.dropLast_append_of_ne_nil hne]
    unfold Item.string
    rw [a2]
    cases he : encodeRune it.letter with
    | nil => exact absurd he hne
    | cons b t => simp [List.append_assoc]
  · constructor
    · intro hv
      refine Classical.byContradiction fun hw => ?_
      obtain ⟨a, b, t, e, -, hb, -⟩ := encodeRune_wide hw
      have ho := (Orderly.of_valid hv).1
      have hs : it.string.drop 1 = b :: (t ++ (itoa it.id.toNat ++ str "_" ++ itoa it.parent.toNat ++ str "_" ++
          itoa it.variants.toNat)) := by
        unfold Item.string
        rw [e]
        simp
      rw [hs, show str "]" = [0x5D] from rfl, List.append_assoc, List.append_assoc _ [0x5D]] at ho
      have h2 := (List.isChain_append.1 ho).2.1
      rw [show [(0x5D : UInt8)] ++ (b :: (t ++ (itoa it.id.toNat ++ str "_" ++ itoa it.parent.toNat ++ str "_" ++
          itoa it.variants.toNat)) ++ str ")") = 0x5D :: b :: ((t ++ (itoa it.id.toNat ++ str "_" ++
            itoa it.parent.toNat ++ str "_" ++ itoa it.variants.toNat)) ++ str ")") from rfl] at h2
      exact (List.isChain_cons_cons.1 h2).1 (by decide) hb
    · intro hl
      have he := encodeRune_ascii hl
      have h1 : (encodeRunes w ++ encodeRune it.letter).dropLast = encodeRunes w := by rw [he]; simp
      have h2 : it.string.drop 1 = itoa it.id.toNat ++ str "_" ++ itoa it.parent.toNat ++ str "_" ++
          itoa it.variants.toNat := by unfold Item.string; rw [he]; simp
      have h3 : encodeRune it.letter = encodeRunes [it.letter] := by simp [encodeRunes]
      rw [h1, h2, h3]
      have lit : ∀ s : String, (∀ b ∈ str s, b.toNat < 128) → ValidUtf8 (str s) := fun s => ValidUtf8.ascii _
      exact ((((((lit "Node(" (by decide)).append (.encode w)).append (lit "[" (by decide))).append
        (.encode _)).append (lit "]" (by decide))).append (((((ValidUtf8.ascii _ (itoa_ascii _)).append
          (lit "_" (by decide))).append (.ascii _ (itoa_ascii _))).append (lit "_" (by decide))).append
            (.ascii _ (itoa_ascii _)))).append (lit ")" (by decide))

/-- A word with a Cyrillic last letter, and one that ends in ASCII. -/
example : ∃ ix, Run [.addRunes [97, 1103], .addRunes [1103, 97]] ix ∧ (ix.fetchRunes ([97] ++ [1103])).2 = .ok 2 ∧
    (ix.fetchRunes ([1103] ++ [97])).2 = .ok 4 ∧ NoReload [.addRunes [97, 1103], .addRunes [1103, 97]] :=
  ⟨_, small_runs _ (by decide), by decide, by decide, by simp [NoReload]⟩

end Verif
