import Verif.Props.ImportText
import Verif.Props.OptimizeTold

/-!
# C123 — what is left of the log of an import at the level of info messages
-/

namespace Verif

/-- C123, the levels: all messages of the parser about forms and elements are debug messages. Of `Optimize`, for every history
of calls, the messages above that level are info messages, and they are just these: if there is nothing to do, the number of
combinations of readings; otherwise the number of all combinations, of those kept, of the words renumbered, the reduction, and
the number of readings. -/
theorem C123_levels {h : List Op} {ix : Index} (r : Run h ix) {P : List (List Rune)} {R : List (List Str)}
    {S : List (List (List Str))} (inv : Inventory (dictOf h) P R S) :
    (∀ l : ParseLine, l.bytes.1 = .debug) ∧
    ∃ (extra : Nat) (words : List ID), (extra = 0 ↔ ix.optimize.1 = ix) ∧ words.Nodup ∧
      (extra ≠ 0 → ∀ id, id ∈ words ↔ (dictOf h).attached id.toNat ≠ []) ∧
      (ix.optimizeTold.1.map OptLine.bytes).filter (fun m => decide (m.1 ≠ .debug)) =
        if extra = 0 then [(.info, (OptLine.check S.length).text)]
        else [(.info, (OptLine.check (S.length + extra)).text), (.info, (OptLine.toReplace S.length).text),
          (.info, (OptLine.updated words.length).text), (.info, (OptLine.reduced (S.length + extra) S.length).text),
          (.info, (OptLine.tagSets R.length).text)] := by
  refine ⟨fun _ => rfl, ?_⟩
  obtain ⟨_, _, extra, he, ht⟩ := C121 r inv
  generalize ix.optimizeTold.1 = log at ht ⊢
  cases ht with
  | idle same => exact ⟨0, [], he, List.nodup_nil, fun h => absurd rfl h, rfl⟩
  | done extra kept words hs hk _ ks wo wa wk =>
    refine ⟨extra, words, he, wo, fun _ => wa, ?_⟩
    rw [if_neg hs]
    have h1 : ∀ l : List OptLine, (∀ x ∈ l, x.level = .debug) →
        (l.map OptLine.bytes).filter (fun m => decide (m.1 ≠ .debug)) = [] := by
      intro l hl
      rw [List.filter_eq_nil_iff]
      intro m hm
      obtain ⟨x, hx, rfl⟩ := List.mem_map.1 hm
      have : x.bytes.1 = .debug := hl x hx
      simp [this]
    simp only [List.map_append, List.filter_append]
    rw [h1 (kept.map _) (by intro x hx; obtain ⟨p, -, rfl⟩ := List.mem_map.1 hx; rfl),
      h1 (words.map _) (by intro x hx; obtain ⟨p, -, rfl⟩ := List.mem_map.1 hx; rfl)]
    rfl

/-- An index with something to reduce: the info messages of its `Optimize`. -/
example : Run toldHistory (execAll toldHistory) ∧ (∃ P R S, Inventory (dictOf toldHistory) P R S) ∧
    ((execAll toldHistory).optimizeTold.1.map OptLine.bytes).filter (fun m => decide (m.1 ≠ .debug)) =
    [(.info, str "check 3 known collections"), (.info, str "have 2 collectionID to replace in items"),
      (.info, str "2 items VariantID updated"), (.info, str "reduced collection from 3 to 2 items"),
      (.info, str "has 3 possible tag sets")] :=
  ⟨small_runs _ (by decide), C98_inventory (small_runs _ (by decide)), by decide +kernel⟩

end Verif
