import Verif.Props.Texts
import Verif.Lemmas.Utf8

/-!
# C79 — when the text of a map depends on the order of visiting, exactly
-/

namespace Verif

theorem encodeRune_append_inj {r r' : Rune} (h : IsScalar r) (h' : IsScalar r') {s s' : Str}
    (e : encodeRune r ++ s = encodeRune r' ++ s') : r = r' := by
  have h1 := decode_encode h s
  rw [e, decode_encode h' s'] at h1
  exact (Prod.mk.inj h1).1.symm

/-- Two orders of the same entries, with the first two exchanged, have different joined texts. -/
theorem joinComma_swap {β : Type} (f : β → Str) (x y : Rune × β) (l : List (Rune × β)) (hx : IsScalar x.1)
    (hy : IsScalar y.1) (hne : x.1 ≠ y.1) :
    joinComma ((x :: y :: l).map fun e => str "`" ++ encodeRune e.1 ++ str "`:" ++ f e.2) ≠
      joinComma ((y :: x :: l).map fun e => str "`" ++ encodeRune e.1 ++ str "`:" ++ f e.2) := by
  intro h
  simp only [List.map_cons, joinComma, List.append_assoc] at h
  exact hne (encodeRune_append_inj hx hy (List.append_cancel_left h))

theorem Enumerates.swap {α β : Type} {m : α → Option β} {x y : α × β} {l : List (α × β)}
    (h : Enumerates m (x :: y :: l)) : Enumerates m (y :: x :: l) := by
  refine ⟨fun k v => ?_, ?_⟩
  · rw [← h.mem]
    simp only [List.mem_cons]
    tauto
  · have := h.once
    simp only [List.map_cons, List.nodup_cons, List.mem_cons, not_or] at this ⊢
    exact ⟨⟨fun e => this.1.1 e.symm, this.2.1⟩, this.1.2, this.2.2⟩

/-- C79, exactly: for a map whose letters are characters, the text is the same in whatever order the map is visited if
and only if it has at most one or at least ten entries. -/
theorem C79_map_exact (m : Rune → Option ID) (a : List (Rune × ID)) (ha : Enumerates m a)
    (hs : ∀ r, (m r).isSome → IsScalar r) :
    (∀ b, Enumerates m b → idMapText a = idMapText b) ↔ a.length ≤ 1 ∨ 10 ≤ a.length := by
  refine ⟨fun h => ?_, fun hl b hb => C79_map_partial m a b ha hb hl⟩
  by_contra hl
  rw [not_or, Nat.not_le, Nat.not_le] at hl
  match a, ha, h, hl with
  | x :: y :: l, ha, h, hl =>
    have hx : IsScalar x.1 := hs _ (by rw [(ha.mem x.1 x.2).1 (by simp)]; rfl)
    have hy : IsScalar y.1 := hs _ (by rw [(ha.mem y.1 y.2).1 (by simp)]; rfl)
    have hne : x.1 ≠ y.1 := fun e => by have := ha.once; simp [e] at this
    have := h _ ha.swap
    unfold idMapText at this
    rw [if_pos hl.2, if_pos (show (y :: x :: l).length < 10 from hl.2)] at this
    exact joinComma_swap (fun v : ID => itoa v.toNat) x y l hx hy hne
      (List.append_cancel_left (List.append_cancel_right this))

/-- The same for maps to nodes, whatever the texts of the nodes are. -/
theorem C79_nodeMap_exact (m : Rune → Option Str) (a : List (Rune × Str)) (ha : Enumerates m a)
    (hs : ∀ r, (m r).isSome → IsScalar r) :
    (∀ b, Enumerates m b → nodeMapText a = nodeMapText b) ↔ a.length ≤ 1 ∨ 10 ≤ a.length := by
  refine ⟨fun h => ?_, fun hl b hb => C79_nodeMap_partial m a b ha hb hl⟩
  by_contra hl
  rw [not_or, Nat.not_le, Nat.not_le] at hl
  match a, ha, h, hl with
  | x :: y :: l, ha, h, hl =>
    have hx : IsScalar x.1 := hs _ (by rw [(ha.mem x.1 x.2).1 (by simp)]; rfl)
    have hy : IsScalar y.1 := hs _ (by rw [(ha.mem y.1 y.2).1 (by simp)]; rfl)
    have hne : x.1 ≠ y.1 := fun e => by have := ha.once; simp [e] at this
    have := h _ ha.swap
    unfold nodeMapText at this
    rw [if_pos hl.2, if_pos (show (y :: x :: l).length < 10 from hl.2)] at this
    exact joinComma_swap (fun v : Str => v) x y l hx hy hne
      (List.append_cancel_left (List.append_cancel_right this))

/-- The root of a small index has children that are characters. -/
example : ∀ r, (Index.getChildrenMap (execAll [.addRunes [0x61], .addRunes [0x62]]) 0 r).isSome → IsScalar r := by
  intro r hr
  obtain ⟨v, hv⟩ := Option.isSome_iff_exists.1 hr
  have := (twoChildren_enumerates.mem r v).2 hv
  rcases List.mem_cons.1 this with h | h
  · obtain ⟨rfl, -⟩ := Prod.mk.inj h; decide
  · obtain ⟨rfl, -⟩ := Prod.mk.inj (List.mem_singleton.1 h); decide

end Verif
