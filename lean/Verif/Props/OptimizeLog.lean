import Verif.Lemmas.OptimizeLog
import Verif.Props.Optimize
import Verif.Props.LoadSafety

/-!
# C76 — `Optimize` and its debug messages

`optimizeLog debug` is `Optimize` with the debug message of its innermost loop, whose arguments are look-ups that can
panic; `debug` says whether messages of that level are printed.
-/

namespace Verif

/-- C76, for every index made by calls: whether debug messages are printed or not, `Optimize` ends without a panic, the
two resulting indexes are the same in every part, and every answer is what it was before. -/
theorem C76_partial {h : List Op} {ix : Index} (r : Run h ix) :
    (∀ debug, (ix.optimizeLog debug).2 = .ok () ∧ SameAnswers ix (ix.optimizeLog debug).1) ∧
    ix.optimizeLog true = ix.optimizeLog false := by
  have e := optimizeLog_eq r.trie r.tag r.caps
  exact ⟨fun debug => by rw [e debug]; exact C23 r, by rw [e, e]⟩

/-- An index with a word whose entry carries the number 7, and a collection of readings nobody uses. -/
def strayNumber : Index :=
  { Index.new with
      tags := [newTag [] (str "NOUN")]
      tagSets := [[[0]]]
      collectionIdx := [[[0]], [[0, 0]]]
      items := { items := [zeroItem, { parent := 0, id := 7, letter := 97, variants := 0x010000 }], nextID := 2 } }

/-- An index where two entries carry the number 2, the second with readings that are not there. -/
def twiceTheNumber : Index :=
  { Index.new with
      tags := [newTag [] (str "NOUN")]
      tagSets := [[[0]]]
      collectionIdx := [[[0]], [[0, 0]]]
      items := { items := [zeroItem, { parent := 0, id := 2, letter := 97, variants := 0x010000 },
                           { parent := 0, id := 2, letter := 98, variants := 0x05000000 }], nextID := 3 } }

theorem strayNumber_loads : Index.new.load strayNumber.save.bytes = .ok (Index.loaded Index.new strayNumber, []) := by
  have := RT_load Index.new (ix := strayNumber) (by constructor <;> decide) (by unfold Index.NamesOK NameOK; decide) []
  rwa [List.append_nil] at this

theorem twiceTheNumber_loads :
    Index.new.load twiceTheNumber.save.bytes = .ok (Index.loaded Index.new twiceTheNumber, []) := by
  have := RT_load Index.new (ix := twiceTheNumber) (by constructor <;> decide) (by unfold Index.NamesOK NameOK; decide) []
  rwa [List.append_nil] at this

/-- C76 does not hold for every index that loads: there is a file that loads without an error such that `Optimize`
panics, and another such that it panics if debug messages are printed and ends normally otherwise. -/
theorem not_C76 :
    (∃ file ix, Index.new.load file = .ok (ix, []) ∧ ∀ debug, (ix.optimizeLog debug).2 = .panic) ∧
    (∃ file ix, Index.new.load file = .ok (ix, []) ∧ (ix.optimizeLog true).2 = .panic ∧
      (ix.optimizeLog false).2 = .ok ()) :=
  ⟨⟨_, _, strayNumber_loads, by decide⟩, ⟨_, _, twiceTheNumber_loads, by decide, by decide⟩⟩

/-- An index with two words of the same readings, the entry of the second with the number 7, and an unused collection. -/
def strayAfter : Index :=
  { Index.new with
      tags := [newTag [] (str "NOUN"), newTag [] (str "VERB")]
      tagSets := [[[0], [1]]]
      collectionIdx := [[[0]], [[0, 0], [0, 1]]]
      items := { items := [zeroItem, { parent := 0, id := 1, letter := 97, variants := 0x020001 },
                           { parent := 0, id := 7, letter := 98, variants := 0x020001 }], nextID := 3 } }

theorem strayAfter_loads : Index.new.load strayAfter.save.bytes = .ok (Index.loaded Index.new strayAfter, []) := by
  have := RT_load Index.new (ix := strayAfter) (by constructor <;> decide) (by unfold Index.NamesOK NameOK; decide) []
  rwa [List.append_nil] at this

/-- C76 does not hold in another way: there is a file that loads without an error such that `Optimize` panics halfway, and
a program that recovers from the panic gets other readings for a word than before. -/
theorem not_C76_halfway : ∃ file ix before after, Index.new.load file = .ok (ix, []) ∧
    (ix.optimizeLog false).2 = .panic ∧ ix.tagSetsOf 1 = .ok before ∧
    (ix.optimizeLog false).1.tagSetsOf 1 = .ok after ∧
    ([newTag [] (str "VERB")] : List Tag) ∈ before ∧ ([newTag [] (str "VERB")] : List Tag) ∉ after :=
  ⟨_, _, [[newTag [] (str "NOUN")], [newTag [] (str "VERB")]], [[newTag [] (str "NOUN")], [newTag [] (str "NOUN")]],
    strayAfter_loads, by decide, by decide, by decide, by decide, by decide⟩

/-- The hypothesis is met by the sample history cut before its `Optimize`, and there is something to do. -/
example : Run (sampleHistory.take 8) (execAll (sampleHistory.take 8)) ∧
    ((execAll (sampleHistory.take 8)).optimizeLog true).1.collectionIdx = [[], [[0, 65536]]] :=
  ⟨small_runs _ (by decide), by decide⟩

end Verif
