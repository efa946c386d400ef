import Verif.Props.Numbers
import Verif.Props.InspectExact

/-!
# C84 — the numbers of collections and sets of any word, and every way they are shown
-/

namespace Verif

/-- **C84, exactly**, for any word, with or without empty readings. The number of the collection, in both forms in which
`node` shows it, makes `var` list the readings with the numbers of their sets. Each number, typed in decimal or
hexadecimal, shows its entry. Typed as printed, that is filled with zeros to three digits, it does so below 8 and from
100; between, what is typed is read as an octal number, and refused if it has a digit 8 or 9. -/
theorem C84_exact {h : List Op} {ix : Index} (r : Run h ix) (fold : Str → Str → Bool) (disk : Option Index) (id : ID)
    (h1 : 1 ≤ id.toNat) (h2 : id.toNat ≤ ix.nodesCount) :
    ∃ (it : Item) (shown : List (TagSetID × Option (List Str))),
      ix.nodeItem id = .ok it ∧ (shown.map (·.1)).Nodup ∧
      ShowsExactly ((dictOf h).varReadings id.toNat) (shown.map (·.2)) ∧
      (∀ a, a = itoa it.variants.toNat ∨ a = str "0x" ++ hexUpper it.variants.toNat →
        (processInput (goLib fold) disk ix (str "var " ++ a)).2 =
          .ok (.variants (shown.map fun e => (e.1, e.2.map fun names => names.map some)))) ∧
      ∀ e ∈ shown,
        let reply := fun a => (processInput (goLib fold) disk ix (str "set " ++ a)).2
        let entry : Out Reply := .ok (match e.2 with
          | some names => .tagSet (names.map some)
          | none => .message)
        reply (itoa e.1.toNat) = entry ∧ reply (str "0x" ++ hexUpper e.1.toNat) = entry ∧
        (e.1.toNat < 8 ∨ 100 ≤ e.1.toNat → reply (pad3 e.1.toNat) = entry) ∧
        (e.1.toNat < 100 → e.1.toNat / 10 < 8 ∧ e.1.toNat % 10 < 8 →
          reply (pad3 e.1.toNat) = reply (itoa (8 * (e.1.toNat / 10) + e.1.toNat % 10))) ∧
        (e.1.toNat < 100 → ¬ (e.1.toNat / 10 < 8 ∧ e.1.toNat % 10 < 8) → reply (pad3 e.1.toNat) = .ok .message) := by
  obtain ⟨it, shown, e1, _, e3, e4, _, e6⟩ := C75_readings_exact r id h1 h2
  refine ⟨it, shown, e1, e3, e4, ?_, ?_⟩
  · intro a ha
    have hu : parseUint0 4294967295 a = some it.variants.toNat := by
      have := it.variants.toNat_lt
      rcases ha with rfl | rfl
      · exact parseUint0_itoa (by omega)
      · exact parseUint0_hex (by omega)
    have hs : (0x20 : UInt8) ∉ a := by
      rcases ha with rfl | rfl
      · exact itoa_noSpace _
      · exact hex_noSpace _
    refine (e6 (goLib fold) disk (str "var " ++ a) (str "var") a [] ?_).1 (.inl rfl) ?_
    · exact splitSpaces_two (c := str "var") (by decide) hs
    · show (parseUint0 4294967295 a).map UInt32.ofNat = _
      rw [hu, Option.map_some, UInt32.ofNat_toNat]
  · intro e he reply entry
    have hlt := e.1.toNat_lt
    have key : ∀ a, parseInt0 a = some (e.1.toNat : Int) → (0x20 : UInt8) ∉ a → reply a = entry := by
      intro a hu hs
      have hw : ∀ w, parseInt0 w = none → a ≠ w := by
        rintro w hw rfl
        rw [hw] at hu
        cases hu
      exact (e6 (goLib fold) disk (str "set " ++ a) (str "set") a []
        (splitSpaces_two (c := str "set") (by decide) hs)).2 (.inl rfl) (hw _ (by decide)) (hw _ (by decide)) e he hu
    refine ⟨key _ (parseInt0_itoa (by omega)) (itoa_noSpace _), key _ (parseInt0_hex (by omega)) (hex_noSpace _), ?_,
      fun hb => (C84_padded ix fold disk e.1.toNat hb).1, fun hb => (C84_padded ix fold disk e.1.toNat hb).2⟩
    intro hb
    refine key _ ?_ (pad3_noSpace _)
    rcases hb with hb | hb
    · rw [parseInt0_pad3_small _ (by omega), if_pos (by omega), show e.1.toNat / 10 = 0 by omega,
        show e.1.toNat % 10 = e.1.toNat by omega]
      simp
    · rw [pad3_large hb]
      exact parseInt0_itoa (by omega)

/-! ## Example: `elevenReadings` has set numbers from 0 to 10 -/

set_option maxRecDepth 8000 in
example : ∃ ix, Run elevenReadings ix ∧ (1 : ID).toNat ≤ ix.nodesCount :=
  ⟨execAll elevenReadings, small_runs elevenReadings (by decide), by decide⟩

end Verif
