import Verif.Lemmas.Reload

/-! # Helper lemmas: the recursion of `Word` -/

namespace Verif

open Index

/-- The next id `Word` recurses to. -/
def wordNext (its : Items) (id : ID) : Option ID :=
  if id = 0 then none
  else match its.get id with
    | none => none
    | some it => if it.parent ≠ 0 then some it.parent else none

/-- The id reached after `n` recursive calls. -/
def wordAt (its : Items) (id : ID) : Nat → Option ID
  | 0 => some id
  | n + 1 => (wordAt its id n).bind (wordNext its)

theorem wordAt_shift (its : Items) (id : ID) (n : Nat) :
    wordAt its id (n + 1) = (wordNext its id).bind fun p => wordAt its p n := by
  induction n with
  | zero =>
    show (some id).bind (wordNext its) = (wordNext its id).bind some
    simp
  | succ n ih =>
    show (wordAt its id (n + 1)).bind (wordNext its) = _
    rw [ih, Option.bind_assoc]
    rfl

/-- The recursion either ends with a text or runs out of fuel. -/
theorem wordFuel_cases (n : Nat) (its : Items) (id : ID) :
    (∃ w, wordFuel n its id = .ok w) ∨ wordFuel n its id = .diverge := by
  induction n generalizing id with
  | zero => exact .inr rfl
  | succ n ih =>
    unfold wordFuel
    split
    · exact .inl ⟨_, rfl⟩
    · split
      · exact .inl ⟨_, rfl⟩
      · rename_i it _
        split
        · rcases ih it.parent with ⟨w, hw⟩ | hw
          · rw [hw]; exact .inl ⟨_, rfl⟩
          · rw [hw]; exact .inr rfl
        · exact .inl ⟨_, rfl⟩

theorem wordFuel_diverge (n : Nat) (its : Items) (id : ID) :
    wordFuel n its id = .diverge ↔ (wordAt its id n).isSome = true := by
  induction n generalizing id with
  | zero => exact ⟨fun _ => rfl, fun _ => rfl⟩
  | succ n ih =>
    rw [wordAt_shift]
    unfold wordFuel wordNext
    by_cases h0 : id = 0
    · simp [h0]
    · rw [if_neg h0, if_neg h0]
      cases hg : its.get id with
      | none => simp
      | some it =>
        simp only
        by_cases hp : it.parent ≠ 0
        · rw [if_pos hp, if_pos hp]
          simp only [Option.bind_some]
          rw [← ih]
          rcases wordFuel_cases n its it.parent with ⟨w, hw⟩ | hw
          · rw [hw]; simp [Out.bind]
          · rw [hw]; simp [Out.bind]
        · rw [if_neg hp, if_neg hp]; simp

theorem wordAt_none_mono {its : Items} {id : ID} {n m : Nat} (h : n ≤ m) (hn : wordAt its id n = none) :
    wordAt its id m = none := by
  induction h with
  | refl => exact hn
  | step _ ih => show (wordAt its id _).bind _ = none; rw [ih]; rfl

/-- Visited ids other than the last are ids of items. -/
theorem wordAt_range {its : Items} {id x : ID} {n : Nat} (h : wordAt its id n = some x)
    (hn : (wordAt its id (n + 1)).isSome = true) : 1 ≤ x.toNat ∧ x.toNat < its.nextID.toNat := by
  have e : wordAt its id (n + 1) = wordNext its x := by
    show (wordAt its id n).bind _ = _
    rw [h]; rfl
  rw [e] at hn
  unfold wordNext at hn
  split at hn
  · cases hn
  · rename_i h0
    split at hn
    · cases hn
    · rename_i it hg
      unfold Items.get at hg
      split at hg
      · cases hg
      · split at hg
        · cases hg
        · omega

/-- A repetition makes the chain infinite. -/
theorem wordAt_cycle {its : Items} {id x : ID} {i j : Nat} (hij : i < j) (hi : wordAt its id i = some x)
    (hj : wordAt its id j = some x) (n : Nat) : (wordAt its id n).isSome = true := by
  have shift : ∀ k, wordAt its id (i + k) = wordAt its id (j + k) := by
    intro k
    induction k with
    | zero => rw [Nat.add_zero, Nat.add_zero, hi, hj]
    | succ k ih =>
      show (wordAt its id (i + k)).bind _ = (wordAt its id (j + k)).bind _
      rw [ih]
  have some_at : ∀ t, wordAt its id (i + t * (j - i)) = some x := by
    intro t
    induction t with
    | zero => rw [Nat.zero_mul, Nat.add_zero]; exact hi
    | succ t ih =>
      have e : i + (t + 1) * (j - i) = j + t * (j - i) := by
        rw [Nat.succ_mul]; omega
      rw [e, ← shift]
      exact ih
  cases hn : wordAt its id n with
  | some _ => rfl
  | none =>
    have hle : n ≤ i + n * (j - i) := by
      have : n * 1 ≤ n * (j - i) := Nat.mul_le_mul_left n (by omega)
      omega
    have := wordAt_none_mono hle hn
    rw [some_at n] at this
    cases this

/-- If the bound used in the model is exhausted, every bound is. -/
theorem wordFuel_all {its : Items} {id : ID} (h : wordFuel (its.nextID.toNat + 1) its id = .diverge) (n : Nat) :
    wordFuel n its id = .diverge := by
  rw [wordFuel_diverge] at h ⊢
  let N := its.nextID.toNat
  have hsome : ∀ k, k ≤ N + 1 → (wordAt its id k).isSome = true := by
    intro k hk
    cases hx : wordAt its id k with
    | some _ => rfl
    | none => rw [wordAt_none_mono hk hx] at h; cases h
  let f : Nat → Nat := fun k => ((wordAt its id k).getD 0).toNat
  by_cases hinj : ((List.range (N + 1)).map f).Nodup
  · exfalso
    have hsub : (List.range (N + 1)).map f ⊆ (List.range N) := by
      intro y hy
      obtain ⟨k, hk, rfl⟩ := List.mem_map.1 hy
      rw [List.mem_range] at hk ⊢
      obtain ⟨x, hx⟩ := Option.isSome_iff_exists.1 (hsome k (by omega))
      have := wordAt_range hx (hsome (k + 1) (by omega))
      show ((wordAt its id k).getD 0).toNat < N
      rw [hx]
      exact this.2
    have := (List.subperm_of_subset hinj hsub).length_le
    simp only [List.length_map, List.length_range] at this
    exact Nat.not_succ_le_self _ this
  · have hex : ∃ i j, i < j ∧ j < N + 1 ∧ f i = f j := by
      refine Classical.byContradiction fun hno => hinj ?_
      unfold List.Nodup
      rw [List.pairwise_map]
      refine List.Pairwise.imp_of_mem ?_ List.pairwise_lt_range
      intro i j _ hj hij he
      exact hno ⟨i, j, hij, List.mem_range.1 hj, he⟩
    obtain ⟨i, j, hij, hj, he⟩ := hex
    obtain ⟨x, hx⟩ := Option.isSome_iff_exists.1 (hsome i (by omega))
    obtain ⟨y, hy⟩ := Option.isSome_iff_exists.1 (hsome j (by omega))
    have hxy : x = y := by
      have he : ((wordAt its id i).getD 0).toNat = ((wordAt its id j).getD 0).toNat := he
      rw [hx, hy] at he
      exact UInt32.toNat_inj.1 he
    subst hxy
    exact wordAt_cycle hij hx hy n

/-- Adequacy of the bound: `word` diverges exactly if the recursion of `Node.Word` does not end. -/
theorem word_diverge_iff (ix : Index) (id : ID) :
    ix.word id = .diverge ↔ ∀ n, wordFuel n ix.items id = .diverge :=
  ⟨fun h n => wordFuel_all h n, fun h => h _⟩

/-- ... and a finite recursion gives its result whatever the bound. -/
theorem wordFuel_mono {n m : Nat} (h : n ≤ m) {its : Items} {id : ID} {w : Str} (hw : wordFuel n its id = .ok w) :
    wordFuel m its id = .ok w := by
  induction n generalizing id m w with
  | zero => cases hw
  | succ n ih =>
    obtain ⟨m, rfl⟩ : ∃ k, m = k + 1 := ⟨m - 1, by omega⟩
    unfold wordFuel at hw ⊢
    split
    · rename_i h0; rw [if_pos h0] at hw; exact hw
    · rename_i h0
      rw [if_neg h0] at hw
      cases hg : its.get id with
      | none => rw [hg] at hw; exact hw
      | some it =>
        rw [hg] at hw
        simp only at hw ⊢
        split
        · rename_i hp
          rw [if_pos hp] at hw
          rcases wordFuel_cases n its it.parent with ⟨w', hw'⟩ | hw'
          · rw [hw'] at hw
            rw [ih (by omega) hw']
            exact hw
          · rw [hw'] at hw; cases hw
        · rename_i hp; rw [if_neg hp] at hw; exact hw

/-- `word` is the result of the recursion, if it ends. -/
theorem word_ok_iff (ix : Index) (id : ID) (w : Str) :
    ix.word id = .ok w ↔ ∃ n, wordFuel n ix.items id = .ok w := by
  constructor
  · exact fun h => ⟨_, h⟩
  · rintro ⟨n, hn⟩
    unfold word
    rcases wordFuel_cases (ix.items.nextID.toNat + 1) ix.items id with ⟨w', hw'⟩ | hd
    · have h1 := wordFuel_mono (Nat.le_max_left n (ix.items.nextID.toNat + 1)) hn
      have h2 := wordFuel_mono (Nat.le_max_right n (ix.items.nextID.toNat + 1)) hw'
      rw [h1] at h2
      rw [hw', Out.ok.inj h2]
    · rw [wordFuel_all hd n] at hn; cases hn

end Verif
