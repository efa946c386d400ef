import Verif.Lemmas.LoadSafe
import Verif.Props.Capacity

/-!
# C22 — loading arbitrary bytes

A file may be anything. `Index.new.load file` is `BinaryReadFrom` on a new index; `.panic` and `.diverge` are
possible outcomes of the model, so that their absence is a statement.
-/

namespace Verif

/-- C22, the part that holds for lookups of words: whatever the bytes were, if they load then every lookup of every
rune sequence (`FetchRunes`) and of every string returns a node or an error, changes nothing in the index (not even
its internal maps), and the node found has a word. -/
theorem C22_lookup_partial {ix : Index} {file rest : Str} (h : Index.new.load file = .ok (ix, rest))
    (q : List Rune) : (ix.fetchRunes q).1 = ix ∧
      ((∃ id w, (ix.fetchRunes q).2 = .ok id ∧ ix.get id = .ok id ∧ ix.word id = .ok w) ∨
        ∃ e, (ix.fetchRunes q).2 = .err e) := by
  obtain ⟨h1, h2⟩ := (solid_of_load h).fetch q 0 (.inl rfl) ⟨[], rfl⟩
  refine ⟨h1, ?_⟩
  rcases h2 with ⟨id, w, h3, h4, h5⟩ | h2
  · refine .inl ⟨id, w, h3, ?_, h5⟩
    unfold Index.get
    rw [if_neg (by omega)]
  · exact .inr h2

theorem C22_lookup_string_partial {ix : Index} {file rest : Str} (h : Index.new.load file = .ok (ix, rest))
    (q : Str) : (ix.fetchString q).1 = ix ∧
      ((∃ id w, (ix.fetchString q).2 = .ok id ∧ ix.get id = .ok id ∧ ix.word id = .ok w) ∨
        ∃ e, (ix.fetchString q).2 = .err e) := C22_lookup_partial h (decodeRunes q)

/-- An index with one item that is its own parent. -/
def selfParent : Index :=
  { Index.new with items := { items := [zeroItem, { parent := 1, id := 1, letter := 97, variants := 0 }], nextID := 2 } }

/-- An index with one item whose readings point nowhere. -/
def dangling : Index :=
  { Index.new with items :=
      { items := [zeroItem, { parent := 0, id := 1, letter := 97, variants := 0x05000000 }], nextID := 2 } }

theorem selfParent_loads : Index.new.load selfParent.save.bytes = .ok (Index.loaded Index.new selfParent, []) := by
  have := RT_load Index.new (ix := selfParent) (by constructor <;> decide) (by unfold Index.NamesOK NameOK; decide) []
  rwa [List.append_nil] at this

theorem dangling_loads : Index.new.load dangling.save.bytes = .ok (Index.loaded Index.new dangling, []) := by
  have := RT_load Index.new (ix := dangling) (by constructor <;> decide) (by unfold Index.NamesOK NameOK; decide) []
  rwa [List.append_nil] at this

/-- C22 does not hold for the remaining queries. A file with an item that is its own parent loads without error, but
`Word` of that node, and the failing lookup that starts at it, recurse for ever (in Go: stack overflow) — for every
bound on the recursion. A file with a reading id that denotes nothing loads without error, the word is found, and
`TagSets` of its node panics. -/
theorem not_C22 :
    (∃ file ix, Index.new.load file = .ok (ix, []) ∧ ix.get 1 = .ok 1 ∧ ix.word 1 = .diverge ∧
      (∀ n, Index.wordFuel n ix.items 1 = .diverge) ∧ (ix.fetchFromItem 1 [98]).2 = .diverge) ∧
    (∃ file ix, Index.new.load file = .ok (ix, []) ∧ (ix.fetchRunes [97]).2 = .ok 1 ∧ ix.tagSetsOf 1 = .panic) := by
  refine ⟨⟨_, _, selfParent_loads, by decide, by decide, ?_, by decide⟩, ⟨_, _, dangling_loads, by decide, by decide⟩⟩
  exact (word_diverge_iff _ _).1 (by decide)

/-- The hypothesis of `C22_lookup_partial` is met by a damaged file, and by the file of every history. -/
example : ∃ file ix, Index.new.load file = .ok (ix, []) ∧ (ix.fetchRunes [97]).2 = .ok 1 :=
  ⟨_, _, dangling_loads, by decide⟩

end Verif
