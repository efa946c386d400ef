import Verif.Lemmas.Numbers
import Verif.Props.Inspect
import Verif.Props.Cli

/-!
# C84: numbers can be typed as the tool shows them

The tool shows the number of a collection as `decimal(0xHEX)`, the numbers of its sets with at least three digits, and the
numbers of nodes in decimal. Here the library is Go's: `goLib`.
-/

namespace Verif

/-- C84, collections and sets. The number of the collection of a node can be typed in both forms in which `node` shows it;
`var` then lists the readings with the numbers of their sets. Each of these, typed in decimal or hexadecimal, shows that
reading; as printed, that is filled with zeros to three digits, it does so below 8 and from 100. Missing: the numbers from 8 to 99, see
`C84_padded` and `not_C84`; words with an empty reading. -/
theorem C84_partial {h : List Op} {ix : Index} (r : Run h ix) (fold : Str → Str → Bool) (disk : Option Index) (id : ID)
    (h1 : 1 ≤ id.toNat) (h2 : id.toNat ≤ ix.nodesCount) (hne : [] ∉ (dictOf h).attached id.toNat) :
    ∃ (it : Item) (L : List (List Tag)) (numbers : List TagSetID),
      ix.nodeItem id = .ok it ∧ ix.tagSetsOf id = .ok L ∧
      ExactReadings (dictOf h).tags ((dictOf h).attached id.toNat) L ∧ numbers.length = L.length ∧ numbers.Nodup ∧
      (∀ a, a = itoa it.variants.toNat ∨ a = str "0x" ++ hexUpper it.variants.toNat →
        (processInput (goLib fold) disk ix (str "var " ++ a)).2 =
          .ok (.variants (numbers.zip (L.map fun ts => some (ts.map fun t => some t.name))))) ∧
      ∀ i n, numbers[i]? = some n →
        ∀ a, a = itoa n.toNat ∨ a = str "0x" ++ hexUpper n.toNat ∨ a = pad3 n.toNat ∧ (n.toNat < 8 ∨ 100 ≤ n.toNat) →
          (processInput (goLib fold) disk ix (str "set " ++ a)).2 = .ok (.tagSet ((L.getD i []).map fun t => some t.name)) := by
  obtain ⟨it, L, numbers, e1, e2, e3, _, e5, e6, e7⟩ := C75_readings_partial r id h1 h2 hne
  refine ⟨it, L, numbers, e1, e2, e3, e5, e6, ?_, ?_⟩
  · intro a ha
    have hu : parseUint0 4294967295 a = some it.variants.toNat := by
      have := it.variants.toNat_lt
      rcases ha with rfl | rfl
      · exact parseUint0_itoa (by omega)
      · exact parseUint0_hex (by omega)
    have hs : (0x20 : UInt8) ∉ a := by
      rcases ha with rfl | rfl
      · exact itoa_noSpace _
      · exact hex_noSpace _
    refine (e7 (goLib fold) disk (str "var " ++ a) (str "var") a [] ?_).1 (.inl rfl) ?_
    · exact splitSpaces_two (c := str "var") (by decide) hs
    · show (parseUint0 4294967295 a).map UInt32.ofNat = _
      rw [hu, Option.map_some, UInt32.ofNat_toNat]
  · intro i n hn a ha
    have hlt := n.toNat_lt
    have hu : parseInt0 a = some (n.toNat : Int) := by
      rcases ha with rfl | rfl | ⟨rfl, hb⟩
      · exact parseInt0_itoa (by omega)
      · exact parseInt0_hex (by omega)
      · rcases hb with hb | hb
        · rw [parseInt0_pad3_small _ (by omega), if_pos (by omega), show n.toNat / 10 = 0 by omega,
            show n.toNat % 10 = n.toNat by omega]
          simp
        · rw [pad3_large hb]
          exact parseInt0_itoa (by omega)
    have hs : (0x20 : UInt8) ∉ a := by
      rcases ha with rfl | rfl | ⟨rfl, _⟩
      · exact itoa_noSpace _
      · exact hex_noSpace _
      · exact pad3_noSpace _
    have hw : ∀ w, parseInt0 w = none → a ≠ w := by
      rintro w hw rfl
      rw [hw] at hu
      cases hu
    exact (e7 (goLib fold) disk (str "set " ++ a) (str "set") a []
      (splitSpaces_two (c := str "set") (by decide) hs)).2 (.inl rfl) (hw _ (by decide)) (hw _ (by decide)) i n hn hu

/-- C84, what happens between 8 and 99 with the number as printed: it is read as an octal number, so the reply is that for
another set, or an error if there is a digit 8 or 9. -/
theorem C84_padded (ix : Index) (fold : Str → Str → Bool) (disk : Option Index) (n : Nat) (hn : n < 100) :
    (n / 10 < 8 ∧ n % 10 < 8 → (processInput (goLib fold) disk ix (str "set " ++ pad3 n)).2 =
      (processInput (goLib fold) disk ix (str "set " ++ itoa (8 * (n / 10) + n % 10))).2) ∧
    (¬ (n / 10 < 8 ∧ n % 10 < 8) → (processInput (goLib fold) disk ix (str "set " ++ pad3 n)).2 = .ok .message) := by
  have key : ∀ a, (0x20 : UInt8) ∉ a → a ≠ str "tables" → a ≠ str "table" →
      (processInput (goLib fold) disk ix (str "set " ++ a)).2 = (match parseInt0 a with
        | none => .ok .message
        | some n => match ix.tagSets.get (toU32 n) with
          | none => .ok .message
          | some ts => .ok (.tagSet (shownTags ix ts))) := by
    intro a hs h1 h2
    rw [processInput_set (c := str "set") (rest := [a]) (line := str "set " ++ a) (.inl rfl)
      (splitSpaces_two (c := str "set") (by decide) hs)]
    unfold processSet
    simp only
    rw [if_neg h1, if_neg h2]
    rfl
  have hp := parseInt0_pad3_small n hn
  have hne : ∀ w : Str, w ∈ [str "tables", str "table"] → ∀ m, pad3 m ≠ w ∧ itoa m ≠ w := by
    intro w hw m
    have h0 : ∀ c ∈ pad3 m, c ≠ (0x74 : UInt8) := by
      intro c hc h
      unfold pad3 at hc
      rcases List.mem_append.1 hc with hc | hc
      · have := (List.mem_replicate.1 hc).2
        rw [h] at this
        exact absurd this (by decide)
      · have := List.all_eq_true.1 (itoa_isDigit m) _ hc
        rw [h] at this
        exact absurd this (by decide)
    have ht : (0x74 : UInt8) ∈ w := by
      revert w
      decide
    refine ⟨fun h => h0 _ (by rw [h]; exact ht) rfl, fun h => h0 _ ?_ rfl⟩
    rw [← h] at ht
    exact List.mem_append_right _ ht
  have hk := key (pad3 n) (pad3_noSpace n) (hne _ (by decide) n).1 (hne _ (by decide) n).1
  constructor
  · intro hd
    rw [if_pos hd] at hp
    rw [hk, hp, key _ (itoa_noSpace _) (hne _ (by decide) _).2 (hne _ (by decide) _).2, parseInt0_itoa (by omega)]
  · intro hd
    rw [if_neg hd] at hp
    rw [hk, hp]

/-- C84, nodes: typed after `node`, the number of a node shows that node. Missing: the last node (`not_C49_last`). -/
theorem C84_node_partial {h : List Op} {ix : Index} (r : Run h ix) (lib : Lib) (disk : Option Index) (k : ID)
    (h1 : 1 ≤ k.toNat) (h2 : k.toNat < ix.nodesCount) :
    ∃ w L it, ix.word k = .ok w ∧ ix.tagSetsOf k = .ok L ∧ ix.nodeItem k = .ok it ∧
      (processInput lib disk ix (str "node " ++ itoa k.toNat)).2 = .ok (.node k w it L (ix.getChildrenMap k)) := by
  obtain ⟨w, L, it, e1, e2, e3, e4⟩ := C49_node_partial r lib disk (str "node " ++ itoa k.toNat) (str "node") (itoa k.toNat) k
    (.inl rfl) (splitSpaces_two (c := str "node") (by decide) (itoa_noSpace _))
    (atoi_itoa (by have := k.toNat_lt; omega)) h1 h2
  refine ⟨w, L, it, e1, e2, ?_, e4⟩
  unfold Index.nodeItem
  rw [e3]

/-! ## The hypotheses are met -/

/-- The word "ab" has two readings. -/
example : ∃ ix, Run sampleHistory ix ∧ 1 ≤ (2 : ID).toNat ∧ (2 : ID).toNat ≤ ix.nodesCount ∧
    [] ∉ (dictOf sampleHistory).attached (2 : ID).toNat ∧ 2 ≤ ((dictOf sampleHistory).attached (2 : ID).toNat).length :=
  ⟨_, sample_runs, by decide, by rw [sample_runs.trie.nodesCount]; decide, by decide, by decide⟩

example : ∃ ix, Run sampleHistory ix ∧ 1 ≤ (1 : ID).toNat ∧ (1 : ID).toNat < ix.nodesCount :=
  ⟨_, sample_runs, by decide, by rw [sample_runs.trie.nodesCount]; decide⟩

/-! ## A violation -/

/-- A word with eleven readings of one tag each. -/
def elevenReadings : List Op :=
  .addRunes [97] :: ["tag0", "tag1", "tag2", "tag3", "tag4", "tag5", "tag6", "tag7", "tag8", "tag9", "tagA"].flatMap fun t =>
    [.tagID (str t) [], .addTagSet 1 [str t]]

set_option maxRecDepth 8000 in
/-- C84 does not hold for the numbers from 8 to 99: the set shown as `010` is the one with the tag `tagA`, but `set 010` shows the one
with the tag `tag8`, and `set 008`, which is how the latter is shown, is an error. -/
theorem not_C84 (fold : Str → Str → Bool) (disk : Option Index) : ∃ ix, Run elevenReadings ix ∧
    pad3 10 = str "010" ∧ pad3 8 = str "008" ∧
    (processInput (goLib fold) disk ix (str "set 10")).2 = .ok (.tagSet [some (str "tagA")]) ∧
    (processInput (goLib fold) disk ix (str "set 010")).2 = .ok (.tagSet [some (str "tag8")]) ∧
    (processInput (goLib fold) disk ix (str "set 008")).2 = .ok .message := by
  refine ⟨execAll elevenReadings, small_runs _ (by decide), ?_, ?_, rfl, rfl, rfl⟩
  · unfold pad3; rw [itoa_eq]; decide
  · unfold pad3; rw [itoa_eq]; decide

end Verif
