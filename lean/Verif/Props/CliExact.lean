import Verif.Props.Cli

/-! # C63 — exactly which lines are searched -/

namespace Verif

/-- An answer to a search. -/
def Reply.IsSearch : Reply → Prop
  | .readings _ => True
  | .empty => True
  | .notFound => True
  | _ => False

theorem bind_search {α : Type} {x : Out α} {f : α → Reply} (hf : ∀ a, ¬ (f a).IsSearch) (m : Reply)
    (h : x.bind (fun a => .ok (f a)) = .ok m) : ¬ m.IsSearch := by
  cases x with
  | ok a => obtain rfl := Out.ok.inj h; exact hf a
  | err e => cases h
  | panic => cases h
  | diverge => cases h

theorem processTag_search (lib : Lib) (ix : Index) (items : List Str) (m : Reply)
    (h : processTag lib ix items = .ok m) : ¬ m.IsSearch := by
  unfold processTag at h
  split at h
  · split at h
    · obtain rfl := Out.ok.inj h; exact id
    · split at h
      · split at h <;> (obtain rfl := Out.ok.inj h; exact id)
      · split at h
        · obtain rfl := Out.ok.inj h; exact id
        · exact bind_search (fun _ => id) m h
  · obtain rfl := Out.ok.inj h; exact id

theorem processSet_search (lib : Lib) (ix : Index) (items : List Str) (m : Reply)
    (h : processSet lib ix items = .ok m) : ¬ m.IsSearch := by
  unfold processSet at h
  split at h
  · split at h
    · obtain rfl := Out.ok.inj h; exact id
    · split at h
      · split at h
        · split at h
          · obtain rfl := Out.ok.inj h; exact id
          · split at h
            · obtain rfl := Out.ok.inj h; exact id
            · exact bind_search (fun _ => id) m h
        · obtain rfl := Out.ok.inj h; exact id
      · split at h
        · obtain rfl := Out.ok.inj h; exact id
        · split at h <;> (obtain rfl := Out.ok.inj h; exact id)
  · obtain rfl := Out.ok.inj h; exact id

theorem processVar_search (lib : Lib) (ix : Index) (items : List Str) (m : Reply)
    (h : processVar lib ix items = .ok m) : ¬ m.IsSearch := by
  unfold processVar at h
  split at h
  · split at h
    · obtain rfl := Out.ok.inj h; exact id
    · exact bind_search (fun _ => id) m h
  · obtain rfl := Out.ok.inj h; exact id

theorem showNode_search (ix : Index) (id' : ID) (m : Reply) (h : (showNode ix id').2 = .ok m) : ¬ m.IsSearch := by
  unfold showNode at h
  split at h
  · split at h
    · split at h
      · obtain rfl := Out.ok.inj h; exact id
      · cases h
    · cases h
  · cases h
  · cases h

theorem processNode_search (ix : Index) (items : List Str) (m : Reply)
    (h : (processNode ix items).2 = .ok m) : ¬ m.IsSearch := by
  unfold processNode at h
  split at h
  · split at h
    · obtain rfl := Out.ok.inj h; exact id
    · split at h
      · obtain rfl := Out.ok.inj h; exact id
      · split at h
        · split at h
          · split at h
            · exact showNode_search _ _ m h
            · obtain rfl := Out.ok.inj h; exact id
          · obtain rfl := Out.ok.inj h; exact id
          · cases h
          · cases h
        · split at h
          · obtain rfl := Out.ok.inj h; exact id
          · split at h
            · exact showNode_search _ _ m h
            · obtain rfl := Out.ok.inj h; exact id
  · obtain rfl := Out.ok.inj h; exact id

/-- Whatever the index: a line whose first word is a command is never answered like a search. -/
theorem command_search (lib : Lib) (disk : Option Index) (ix : Index) (line : Str)
    (hc : (splitSpaces line).headD [] ∈ commands) (m : Reply) (h : (processInput lib disk ix line).2 = .ok m) :
    ¬ m.IsSearch := by
  unfold processInput at h
  simp only at h
  split at h
  · exact processTag_search _ _ _ m h
  · split at h
    · exact processSet_search _ _ _ m h
    · split at h
      · exact processNode_search _ _ m h
      · split at h
        · exact processVar_search _ _ _ m h
        · split at h
          · split at h <;> (obtain rfl := Out.ok.inj h; exact id)
          · split at h
            · obtain rfl := Out.ok.inj h; exact id
            · exfalso
              unfold commands at hc
              simp only [List.mem_cons, List.not_mem_nil, or_false] at hc
              tauto

/-- C63, exactly: in every index made by calls, a line is answered as a search — with the readings of the string if it is
a word or the beginning of one, with "not found" otherwise — if and only if its first word is not a command. -/
theorem C63_exact {h : List Op} {ix : Index} (r : Run h ix) (lib : Lib) (disk : Option Index) (line : Str)
    (hz : NoReload h ∨ NoLeadingNul (decodeRunes line)) :
    (∃ m, (processInput lib disk ix line).2 = .ok m ∧ m.IsSearch) ↔ (splitSpaces line).headD [] ∉ commands := by
  constructor
  · rintro ⟨m, hm, hs⟩ hc
    exact command_search lib disk ix line hc m hm hs
  · intro hc
    obtain ⟨h1, h2⟩ := C63_partial r lib disk line hz hc
    by_cases hw : line ≠ [] ∧ ∃ v ∈ (dictOf h).words, decodeRunes line <+: v
    · obtain ⟨id, L, -, -, -, hp⟩ := h1 hw
      refine ⟨_, hp, ?_⟩
      split <;> trivial
    · exact ⟨_, h2 hw, trivial⟩

/-- Both sides: "to be" is searched as a whole, "t be" is a command. -/
example : (splitSpaces (str "to be")).headD [] ∉ commands ∧ (splitSpaces (str "t be")).headD [] ∈ commands := by decide

end Verif
