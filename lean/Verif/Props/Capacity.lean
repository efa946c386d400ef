import Verif.Lemmas.Capacity

/-!
# The hypothesis `Run` is met

The property theorems speak about histories that stay within capacity (`Run h ix`). Here: every history within
simple, decidable bounds on its calls (`Small`) does — whatever the words, tags, order, lookups, `Optimize` and
save/load steps in it.
-/

namespace Verif

/-- Every small history is a run, and ends in the state the calls compute. -/
theorem small_runs (h : List Op) (hs : Small h) : Run h (execAll h) := (run_of_small h hs).1

/-- A history used in examples: three words (one below another), two tags, readings, `Optimize`, a reload, and
more of the same. Word 97 98 is "ab". -/
def sampleHistory : List Op :=
  [.tagID [78, 79, 85, 78] [], .tagID [86, 69, 82, 66] [78, 79, 85, 78],
   .addRunes [97, 98], .addString [97, 99], .addToNode 1 [100, 101],
   .addTagSet 2 [[78, 79, 85, 78]], .addTagSet 2 [[86, 69, 82, 66], [78, 79, 85, 78]],
   .fetchRunes [97, 120], .optimize, .reload, .addRunes [97, 98, 99],
   .addTagSet 4 [[86, 69, 82, 66]], .fetchString [97, 98]]

example : Small sampleHistory := by decide

/-- The sample history is a run. -/
theorem sample_runs : Run sampleHistory (execAll sampleHistory) := small_runs _ (by decide)

/-- The dictionary the sample history describes. -/
example : (dictOf sampleHistory).nodes =
    [[], [97], [97, 98], [97, 99], [97, 100], [97, 100, 101], [97, 98, 99]] := by decide
example : (dictOf sampleHistory).readings =
    [(2, [[78, 79, 85, 78]]), (2, [[86, 69, 82, 66], [78, 79, 85, 78]]), (4, [[86, 69, 82, 66]])] := by decide

end Verif
