import Verif.Lemmas.FileCost
import Verif.Lemmas.Answers
import Verif.Props.Capacity
import Verif.Props.LoadWhile

/-!
# C110 — saving and loading take work in proportion to the file

Steps are rounds of loops (`Model/FileCost.lean`). The space that is asked for while loading is the subject of C68.
-/

namespace Verif

/-- The counted functions return what `BinaryReadFrom` and `BinaryWriteTo` return. -/
theorem C110_counted (ix : Index) (s : Str) : (ix.loadT s).1 = ix.load s ∧ ix.saveT.1 = ix.save :=
  ⟨ix.loadT_fst s, ix.saveT_fst⟩

/-- C110: whatever the bytes are and whatever the receiver is, loading takes at most one step for each byte of the file,
and one more if it fails. If it succeeds, it takes at most one step for each byte it has read. -/
theorem C110_load (ix : Index) (s : Str) :
    (ix.loadT s).2 ≤ s.length + 1 ∧
    ∀ ix' rest, (ix.loadT s).1 = .ok (ix', rest) → (ix.loadT s).2 + rest.length ≤ s.length :=
  ⟨(slow_load ix s).2, fun ix' rest e => by have := (slow_load ix s).1 ix' rest e; omega⟩

/-- C110: saving takes at most one step for each byte it writes, and one more if it fails, whatever is in the index. -/
theorem C110_save (ix : Index) :
    ix.saveT.2 ≤ ix.save.bytes.length + 1 ∧ (ix.save.err = none → ix.saveT.2 ≤ ix.save.bytes.length) := by
  have h := wrSlow_save ix
  unfold WrSlow at h
  rw [ix.saveT_fst] at h
  exact ⟨h.2, fun e => by have := h.1 e; omega⟩

/-- C110: the bound for loading cannot be improved. -/
theorem C110_tight (ix : Index) (n : Nat) : (ix.loadT (List.replicate n 1)).2 = n + 1 := by
  have key : ∀ n, readStringZT (List.replicate n 1) = (.err .eof, n + 1) := by
    intro n
    induction n with
    | zero => rfl
    | succ n ih =>
      rw [List.replicate_succ, readStringZT, if_neg (by decide), ih]
      rfl
  unfold Index.loadT readSectionT
  simp only [RdT.bind, key]

/-- C110: how many steps a save takes is exactly the number of entries of the dictionary. -/
theorem C110_save_exact {ix : Index} (hl : ix.InLimits) (hs : ix.save.err = none) :
    ix.saveT.2 = ix.entries := saveT_snd hl.items ((save_err ix).1 hs)

/-- C110: loading what was saved takes, into any index, one step for each entry, another one for each node, and twelve for
the names of the sections. -/
theorem C110_load_exact {h : List Op} {ix : Index} (r : Run h ix) (hl : ix.InLimits) (hs : ix.save.err = none)
    (into : Index) : (into.loadT ix.save.bytes).2 = ix.entries + (ix.nodesCount + 1) + 12 := by
  have e := RTT_load into hl ((save_err ix).1 hs) []
  rw [List.append_nil] at e
  rw [e]
  have h1 := r.trie.nodesCount
  have h2 := r.trie.next
  have h3 := r.trie.length_pos
  show _ + ix.items.nextID.toNat + 12 = _
  omega

/-! ## The hypotheses are met -/

/-- The dictionary with the word "a" and a reading: nine entries, among them the root and one node. -/
example : ∃ ix, Run nounHistory ix ∧ ix.InLimits ∧ ix.save.err = none ∧ ix.entries = 9 ∧ ix.nodesCount = 1 ∧
    ix.save.bytes.length = 75 ∧ ix.saveT.2 = 9 ∧ (Index.new.loadT ix.save.bytes).2 = 23 :=
  ⟨_, small_runs nounHistory (by decide), (by constructor <;> decide), rfl, by decide +kernel, by decide +kernel,
    by decide +kernel, by decide +kernel, by decide +kernel⟩

/-- A save that fails at its second tag has taken two steps. -/
example : ∃ ix : Index, ix.tags = [⟨str "----", str "NOUN"⟩, ⟨str "----", str "NOUNS"⟩] ∧ ix.save.err ≠ none ∧
    ix.saveT.2 = 2 :=
  ⟨{ Index.new with tags := [⟨str "----", str "NOUN"⟩, ⟨str "----", str "NOUNS"⟩] }, rfl, by decide, by decide⟩

/-- A file that announces 4294967295 nodes and ends: one step for the missing node. -/
example : (readItemsT [255, 255, 255, 255]).2 = 1 := by
  unfold readItemsT RdT.bind
  rw [show RdT.lift readU32 [255, 255, 255, 255] = (.ok (4294967295, []), 0) from rfl]
  simp only
  rw [show (4294967295 : UInt32).toNat = 4294967294 + 1 from rfl]
  rfl

end Verif
