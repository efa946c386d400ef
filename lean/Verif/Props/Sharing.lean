import Verif.Lemmas.Heap
import Verif.Props.Import

/-!
# C51 — the importer's shared slices

In `HState` (`Model/Heap.lean`) the tag lists of a lemma and of its forms are references to arrays, and
`append` writes in place when the capacity suffices. `grow` is how much spare room a reallocation leaves.
-/

namespace Verif

theorem HState.init_agree (grow : Growth Str) (fo : Str → Bool) (ix : Index) (max : Int) (ts : List XTok) :
    (HState.run grow fo (HState.init ix max) ts).2 = (PState.run fo (PState.init ix max) ts).2 ∧
    (HState.run grow fo (HState.init ix max) ts).1.st.ix = (PState.run fo (PState.init ix max) ts).1.ix := by
  have := HState.run_agree grow fo ts (HState.init ix max)
    ⟨fun t ht => by simp [HState.owned, HState.init] at ht, by simp [HState.owned, HState.init]⟩
  exact ⟨this.1, this.2.1⟩

/-- C51. However `append` grows its arrays, importing a document of the format does exactly this: the grammemes are
registered and every form is added with the tags of its lemma followed by its own (`entriesOf`, `execEntries`). -/
theorem C51 (grow : Growth Str) (fo : Str → Bool) (doc : List Xml) (hv : Xml.ValidAll fo [] doc) (ix : Index)
    (max : Int) (hm : max ≤ 0) :
    let r := HState.run grow fo (HState.init ix max) (Xml.tokensAll doc)
    (r.1.st.ix, r.2) = execEntries ix (entriesOf doc) := by
  intro r
  obtain ⟨h1, h2⟩ := HState.init_agree grow fo ix max (Xml.tokensAll doc)
  have := C40 fo doc hv ix max hm
  rw [← this]
  exact Prod.ext h2 h1

/-- C51 for any sequence of tokens, well-formed or not: the growth of arrays makes no difference, neither to the
index nor to the error. -/
theorem C51_any (grow grow' : Growth Str) (fo : Str → Bool) (ix : Index) (max : Int) (ts : List XTok) :
    (HState.run grow fo (HState.init ix max) ts).2 = (HState.run grow' fo (HState.init ix max) ts).2 ∧
    (HState.run grow fo (HState.init ix max) ts).1.st.ix = (HState.run grow' fo (HState.init ix max) ts).1.st.ix := by
  obtain ⟨a, b⟩ := HState.init_agree grow fo ix max ts
  obtain ⟨a', b'⟩ := HState.init_agree grow' fo ix max ts
  exact ⟨a.trans a'.symm, b.trans b'.symm⟩

/-- The sharing is real: with spare capacity in the lemma's list, building the list of the second form overwrites
the list of the first. (The code is right because the first list has been used up by then.) -/
theorem sharing_overwrites (grow : Growth Str) (h : Heap Str) (lg : Slice) (v : h.Valid lg) (x y : Str)
    (room : lg.len < (h.getD lg.arr []).length) :
    let a := h.append grow [] lg [x]
    let b := a.1.append grow [] lg [y]
    a.1.read a.2 = h.read lg ++ [x] ∧ b.1.read b.2 = h.read lg ++ [y] ∧ b.1.read a.2 = h.read lg ++ [y] := by
  intro a b
  have ha := Heap.read_append grow [] v [x]
  have hs := Heap.read_append_self grow [] v [x]
  have va : a.1.Valid lg := Heap.valid_append grow [] v v [x]
  have hb := Heap.read_append grow [] va [y]
  rw [hs] at hb
  have ea : a.2 = { lg with len := lg.len + 1 } := by
    simp only [a, Heap.append]
    rw [if_pos (show lg.len + [x].length ≤ _ from room)]
    rfl
  have eb : b.2 = { lg with len := lg.len + 1 } := by
    simp only [b, Heap.append]
    rw [if_pos]
    · rfl
    · simp only [a, Heap.append]
      rw [if_pos (show lg.len + [x].length ≤ _ from room)]
      simp only
      rw [Heap.getD_set_self v.1]
      simp only [List.length_append, List.length_take, List.length_drop, List.length_cons, List.length_nil]
      omega
  refine ⟨ha, hb, ?_⟩
  rw [ea, ← eb]
  exact hb

/-- Spare capacity occurs: Go's growth to four after three single appends leaves room for one. -/
example : ∃ (h : Heap Str) (lg : Slice), h.Valid lg ∧ lg.len < (h.getD lg.arr []).length ∧
    h.read lg = [str "NOUN", str "anim", str "masc"] :=
  ⟨[[str "NOUN", str "anim", str "masc", []]], ⟨0, 3⟩, ⟨by decide, by decide⟩, by decide, by decide⟩

/-- The hypothesis of C51 is met by the sample document; its two forms share the list of their lemma. -/
example (grow : Growth Str) :
    let r := HState.run grow (fun _ => true) (HState.init Index.new 0) (Xml.tokensAll sampleDoc)
    (r.1.st.ix, r.2) = execEntries Index.new
      [.grammeme (str "NOUN") [], .grammeme (str "sing") (str "NMbr"), .grammeme (str "plur") (str "NMbr"),
       .lem [(str "cat", [str "NOUN", str "sing"]), (str "cats", [str "NOUN", str "plur"])]] := by
  rw [← sampleDoc_entries]
  exact C51 grow _ sampleDoc sampleDoc_valid Index.new 0 (by decide)

end Verif
