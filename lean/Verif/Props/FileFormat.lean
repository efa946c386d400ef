import Verif.Lemmas.FileFormat

/-!
# C19–C22 — the index file: truncation, framing, save errors, arbitrary bytes

`Index.save ix` is what `BinaryWriteTo` puts on a healthy writer (with its error);
`Index.load into` is `BinaryReadFrom` called on the index `into`.
-/

namespace Verif

/-- C21: saving fails if and only if some registered tag has a name or parent that is neither empty nor
exactly four bytes long. -/
theorem C21 (ix : Index) :
    ix.save.err ≠ none ↔
      ∃ t ∈ ix.tags, ¬ (t.parent = [] ∨ t.parent.length = 4) ∨ ¬ (t.name = [] ∨ t.name.length = 4) := by
  have h := save_err ix
  unfold Index.NamesOK NameOK at h
  constructor
  · intro he
    by_contra hc
    apply he
    rw [h]
    intro t ht
    by_contra h'
    exact hc ⟨t, ht, Classical.not_and_iff_not_or_not.1 h'⟩
  · rintro ⟨t, ht, h'⟩ he
    have := h.1 he t ht
    rcases h' with h' | h'
    · exact h' this.1
    · exact h' this.2

/-- C20: within the limits of the format, loading a successfully saved index succeeds, consumes exactly
the bytes that saving produced, and does not depend on what follows. -/
theorem C20 (into ix : Index) (hl : ix.InLimits) (hs : ix.save.err = none) :
    ∃ r, ∀ rest, into.load (ix.save.bytes ++ rest) = .ok (r, rest) :=
  ⟨_, RT_load into hl ((save_err ix).1 hs)⟩

/-- C20 for any file, however produced: a load that succeeds leaves a suffix unread and its result
depends on the consumed part only. -/
theorem C20_any_file (into r : Index) (file rest : Str) (h : into.load file = .ok (r, rest)) :
    ∃ used, file = used ++ rest ∧ ∀ rest', into.load (used ++ rest') = .ok (r, rest') :=
  Framed_load into file r rest h

/-- C19: after a crash that leaves any strict prefix of a saved file, loading returns an error. -/
theorem C19 (into ix : Index) (hl : ix.InLimits) (hs : ix.save.err = none) (n : Nat)
    (hn : n < ix.save.bytes.length) : ∃ e, into.load (ix.save.bytes.take n) = .err e := by
  have h := RT_load into hl ((save_err ix).1 hs) []
  rw [List.append_nil] at h
  conv at h => lhs; arg 2; rw [← List.take_append_drop n ix.save.bytes]
  refine (Framed_load into).strict_prefix (NoCrash_load into) h ?_
  intro h0
  have := congrArg List.length h0
  rw [List.length_drop] at this
  simp at this
  omega

/-- C19 for any loadable file: cutting anything off the consumed part makes it unloadable. -/
theorem C19_any_file (into r : Index) (file : Str) (h : into.load file = .ok (r, [])) (n : Nat)
    (hn : n < file.length) : ∃ e, into.load (file.take n) = .err e := by
  rw [← List.take_append_drop n file] at h
  refine (Framed_load into).strict_prefix (NoCrash_load into) h ?_
  intro h0
  have := congrArg List.length h0
  rw [List.length_drop] at this
  simp at this
  omega

/-- C22, the part that holds: loading arbitrary bytes always terminates with an index or an error. -/
theorem C22_load_partial (into : Index) (file : Str) :
    (∃ r rest, into.load file = .ok (r, rest)) ∨ ∃ e, into.load file = .err e := by
  rcases NoCrash_load into file with ⟨x, hx⟩ | h
  · exact .inl ⟨x.1, x.2, hx⟩
  · exact .inr h

end Verif
