import Verif.Spec.Alike
import Verif.Props.Words
import Verif.Props.Tagging

/-! # Helper lemmas: histories with the same content -/

namespace Verif

theorem readingsFor_eq {d : Dict} (hnd : d.nodes.Nodup) {k : Nat} {w : List Rune} (hk : d.nodes[k]? = some w) :
    d.readingsFor w = d.attached k := by
  unfold Dict.readingsFor Dict.attached
  congr 1
  refine List.filter_congr fun e _ => ?_
  by_cases he : e.1 = k
  · simp [he, hk]
  · have : d.nodes[e.1]? ≠ some w := fun h => by
      have hl := (List.getElem?_eq_some_iff.1 h).1
      exact he ((List.getElem?_inj hl hnd).1 (h.trans hk.symm))
    simp [he, this]

/-- Tags with unique names are determined by their names. -/
theorem perm_of_tagNames {T : List Tag} (hnd : (T.map (·.name)).Nodup) {a b : List Tag} (ha : ∀ x ∈ a, x ∈ T)
    (hb : ∀ x ∈ b, x ∈ T) (h : (tagNames a).Perm (tagNames b)) : a.Perm b := by
  have inv : ∀ l : List Tag, (∀ x ∈ l, x ∈ T) →
      (tagNames l).map (fun n => (T.find? fun t => t.name == n).getD { parent := [], name := [] }) = l := by
    intro l hl
    unfold tagNames
    rw [List.map_map]
    conv_rhs => rw [← List.map_id l]
    refine List.map_congr_left fun x hx => ?_
    simp only [Function.comp_def, id]
    cases hf : T.find? fun t => t.name == x.name with
    | none => exact absurd (List.find?_eq_none.1 hf x (hl x hx)) (by simp)
    | some y =>
      have hn : y.name = x.name := by simpa using List.find?_some hf
      exact List.inj_on_of_nodup_map hnd (List.mem_of_find?_eq_some hf) (hl x hx) hn
  rw [← inv a ha, ← inv b hb]
  exact h.map _

theorem sameContent_found {h₁ h₂ : List Op} {ix₁ ix₂ : Index} (r₁ : Run h₁ ix₁) (r₂ : Run h₂ ix₂)
    (hw : ∀ v, v ∈ (dictOf h₁).words ↔ v ∈ (dictOf h₂).words) (q : List Rune)
    (z₁ : NoReload h₁ ∨ NoLeadingNul q) (z₂ : NoReload h₂ ∨ NoLeadingNul q) :
    (∃ id, (ix₁.fetchRunes q).2 = .ok id) ↔ ∃ id, (ix₂.fetchRunes q).2 = .ok id := by
  rw [(C02_runes r₁ q z₁).1, (C02_runes r₂ q z₂).1]
  simp only [hw]

theorem noLeading_prefix {h : List Op} {p q : List Rune} (hz : NoReload h ∨ NoLeadingNul q) (hp : p <+: q) :
    NoReload h ∨ NoLeadingNul p := by
  refine hz.imp_right fun hz => ?_
  obtain ⟨s, rfl⟩ := hp
  cases p with
  | nil => simp [NoLeadingNul]
  | cons a l => simpa [NoLeadingNul] using hz

theorem sameContent_err {h₁ h₂ : List Op} {ix₁ ix₂ : Index} (r₁ : Run h₁ ix₁) (r₂ : Run h₂ ix₂)
    (hw : ∀ v, v ∈ (dictOf h₁).words ↔ v ∈ (dictOf h₂).words) (q : List Rune)
    (z₁ : NoReload h₁ ∨ NoLeadingNul q) (z₂ : NoReload h₂ ∨ NoLeadingNul q)
    (hno : ∀ id, (ix₁.fetchRunes q).2 ≠ .ok id) :
    ∃ e, (ix₁.fetchRunes q).2 = .err e ∧ (ix₂.fetchRunes q).2 = .err e := by
  by_cases hq : q = []
  · subst hq; exact ⟨.emptyRunes, rfl, rfl⟩
  have hno₂ : ∀ id, (ix₂.fetchRunes q).2 ≠ .ok id := fun id h =>
    let ⟨id', h'⟩ := (sameContent_found r₁ r₂ hw q z₁ z₂).2 ⟨id, h⟩; hno id' h'
  obtain ⟨p₁, c₁, s₁, e₁, f₁, g₁⟩ := C53 r₁ q hq z₁ hno
  obtain ⟨p₂, c₂, s₂, e₂, f₂, g₂⟩ := C53 r₂ q hq z₂ hno₂
  have le : p₁.length = p₂.length := by
    have hp1 : p₁ <+: q := ⟨_, e₁.symm⟩
    have hp2 : p₂ <+: q := ⟨_, e₂.symm⟩
    apply Nat.le_antisymm
    · by_cases h0 : p₁ = []
      · simp [h0]
      · exact ((g₂ p₁ h0 hp1).1 ((sameContent_found r₁ r₂ hw p₁ (noLeading_prefix z₁ hp1)
          (noLeading_prefix z₂ hp1)).1 ((g₁ p₁ h0 hp1).2 (List.prefix_refl _)))).length_le
    · by_cases h0 : p₂ = []
      · simp [h0]
      · exact ((g₁ p₂ h0 hp2).1 ((sameContent_found r₁ r₂ hw p₂ (noLeading_prefix z₁ hp2)
          (noLeading_prefix z₂ hp2)).2 ((g₂ p₂ h0 hp2).2 (List.prefix_refl _)))).length_le
  obtain ⟨rfl, h'⟩ := List.append_inj (e₁.symm.trans e₂) le
  obtain ⟨rfl, _⟩ := List.cons.inj h'
  exact ⟨_, f₁, f₂⟩

/-- The tagged words: there are as many as `WordsCount` says. -/
theorem Run.tagged_words {h : List Op} {ix : Index} (r : Run h ix) : ∃ L : List (List Rune), L.Nodup ∧
    L.length = ix.wordsCount ∧ ∀ w, w ∈ L ↔ (dictOf h).readingsFor w ≠ [] := by
  obtain ⟨L, hn, hl, hm⟩ := C12 r
  have hlt : ∀ k ∈ L, k < (dictOf h).nodes.length := by
    intro k hk
    have h0 := (hm k).1 hk
    obtain ⟨x, hx⟩ := List.exists_mem_of_ne_nil _ h0
    exact (r.tag.readings k x (mem_attached.1 hx)).2.1
  have hsome : ∀ k ∈ L, (dictOf h).nodes[k]? = some ((dictOf h).nodes.getD k []) := by
    intro k hk
    simp [List.getD_eq_getElem?_getD, List.getElem?_eq_getElem (hlt k hk)]
  refine ⟨L.map fun k => (dictOf h).nodes.getD k [], ?_, by simpa using hl, ?_⟩
  · refine List.Nodup.map_on ?_ hn
    intro x hx y hy e
    refine (List.getElem?_inj (hlt x hx) r.trie.nodup).1 ?_
    rw [hsome x hx, hsome y hy, e]
  · intro w
    rw [List.mem_map]
    constructor
    · rintro ⟨k, hk, rfl⟩
      rw [readingsFor_eq r.trie.nodup (hsome k hk)]
      exact (hm k).1 hk
    · intro h0
      obtain ⟨x, hx⟩ := List.exists_mem_of_ne_nil _ h0
      unfold Dict.readingsFor at hx
      obtain ⟨e, he, rfl⟩ := List.mem_map.1 hx
      rw [List.mem_filter] at he
      have hw := of_decide_eq_true he.2
      have hk : e.1 ∈ L := by
        rw [hm, ← readingsFor_eq r.trie.nodup hw]
        exact h0
      refine ⟨e.1, hk, ?_⟩
      have := hsome _ hk
      rw [hw] at this
      exact (Option.some.inj this).symm

theorem sameContent_wordsCount {h₁ h₂ : List Op} {ix₁ ix₂ : Index} (r₁ : Run h₁ ix₁) (r₂ : Run h₂ ix₂)
    (hr : ∀ w, SameSets ((dictOf h₁).readingsFor w) ((dictOf h₂).readingsFor w)) : ix₁.wordsCount = ix₂.wordsCount := by
  obtain ⟨L₁, n₁, l₁, m₁⟩ := r₁.tagged_words
  obtain ⟨L₂, n₂, l₂, m₂⟩ := r₂.tagged_words
  rw [← l₁, ← l₂]
  refine ((List.perm_ext_iff_of_nodup n₁ n₂).2 fun w => ?_).length_eq
  rw [m₁, m₂]
  have e : ∀ {A B : List (List Str)}, SameSets A B → (A ≠ [] ↔ B ≠ []) := by
    intro A B hs
    constructor
    · intro h0 hB
      obtain ⟨x, hx⟩ := List.exists_mem_of_ne_nil _ h0
      obtain ⟨y, hy, _⟩ := hs.1 x hx
      rw [hB] at hy; cases hy
    · intro h0 hB
      obtain ⟨x, hx⟩ := List.exists_mem_of_ne_nil _ h0
      obtain ⟨y, hy, _⟩ := hs.2 x hx
      rw [hB] at hy; cases hy
  exact e (hr w)

end Verif
