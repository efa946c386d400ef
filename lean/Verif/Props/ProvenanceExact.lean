import Verif.Props.Provenance
import Verif.Props.ImportText

/-!
# C86 — exactly which loaded indexes are those of a complete document

`not_C86` shows that an index without any word can be loaded that no document stands for. Here: there is no other exception.
-/

namespace Verif

/-- C86, exactly when the index is not that of the empty document: if it has a tag, or if any lookup in it leads to a node (one
other than the root, C18), it answers exactly as a complete document says that the server offered, never as a mixture or a part
of one. Otherwise it has no tag and no word at all. -/
theorem C86_exact (E : Env → Prop) (bunzip : Str → Str × Bool) (tokens : Str → List XTok × Bool) (floatOK : Str → Bool)
    (hd : Decoders E bunzip tokens floatOK) (hp : Publishes E bunzip tokens floatOK)
    (fs : FS) (h : DiskReached E fs) (env : Env) (v : World) (hv : v.fs = fs) (ix : Index) (hl : (loadIndex env v).1 = .ok ix) :
    (ix.tags ≠ [] ∨ (∃ x id, (ix.fetchString x).2 = .ok id ∧ id ≠ 0) →
      ∃ doc, Offered E bunzip tokens floatOK doc ∧ ServesExactly doc ix) ∧
    (¬ (ix.tags ≠ [] ∨ ∃ x id, (ix.fetchString x).2 = .ok id ∧ id ≠ 0) → ServesExactly [] ix) := by
  have hser := C86_serves_partial E bunzip tokens floatOK hd hp fs h env v hv ix hl
  have hempty : ServesExactly [] ix → ix.tags = [] ∧ ∀ x id, (ix.fetchString x).2 = .ok id → id = 0 := by
    rintro ⟨ht, hs⟩
    refine ⟨ht, fun x id hx => ?_⟩
    obtain ⟨h1, -, h3⟩ := hs x
    by_cases hq : x ≠ [] ∧ lookedUp (allForms (entriesOf [])) x = []
    · rw [(h1 hq).1] at hx
      exact (Out.ok.inj hx).symm
    · obtain ⟨e, he⟩ := h3 (by
        by_cases hx : x = []
        · exact .inl hx
        · exact .inr ⟨fun hq' => hq ⟨hx, hq'⟩, by rintro ⟨f, hf, -⟩; cases hf⟩)
      rw [he] at hx
      cases hx
  constructor
  · intro hne
    rcases hser with hs | hs
    · exact hs
    · obtain ⟨ht, hf⟩ := hempty hs
      rcases hne with hne | ⟨x, id, hx, hid⟩
      · exact absurd ht hne
      · exact absurd (hf x id hx) hid
  · intro hno
    rcases hser with ⟨doc, ⟨_, _, _, _, _, _, _, _, _, -, -, -, hdec, -⟩, ht, hs⟩ | hs
    · have htags : ix.tags = [] := by
        by_contra hc
        exact hno (.inl hc)
      have hforms : allForms (entriesOf doc) = [] := by
        rw [List.eq_nil_iff_forall_not_mem]
        intro f hf
        obtain ⟨es1, fs', es2, he, hm⟩ := allForms_split hf
        have hw := (hdec es1 fs' es2 he f hm).1
        have hd : decodeRunes f.1 ≠ [] := fun e => hw ((C50_empty f.1).1 e)
        have hq : lookedUp (allForms (entriesOf doc)) f.1 = decodeRunes f.1 := by
          unfold lookedUp
          split
          · rfl
          · rename_i hn
            cases hc : decodeRunes f.1 with
            | nil => rfl
            | cons a l =>
              have : a ≠ 0 := by
                rintro rfl
                exact hn ⟨f, hf, by rw [hc]; rfl⟩
              simp [this]
        obtain ⟨id, L, h1, h2, -⟩ := (hs f.1).2.1 ⟨hw, by rw [hq]; exact hd, f, hf, by rw [hq]; exact List.prefix_refl _⟩
        refine hno (.inr ⟨f.1, id, h1, ?_⟩)
        rintro rfl
        cases h2
      refine ⟨htags, ?_⟩
      have he : allForms (entriesOf []) = [] := rfl
      rw [hforms] at hs
      rw [he]
      exact hs
    · exact hs

theorem reached_by_update {E : Env → Prop} {fs : FS} (h : DiskReached E fs) (cfg : LoaderCfg) {env : Env} (he : E env) (force : Bool)
    (n : Nat) : DiskReached E (update cfg env force ⟨fs, [], n, []⟩).2.fs := by
  obtain ⟨l, hl, -⟩ := update_keeps cfg he force ⟨fs, [], n, []⟩
  exact .call cfg env (.update force) n h he ⟨l, hl, by simp [LoaderCall.exec]⟩

/-- The first case: an update with the good server. -/
example : ∃ ix, (loadIndex goodServer (update ⟨true⟩ goodServer true emptyWorld).2).1 = .ok ix ∧
    ∃ doc, Offered TwoServers toyBunzip toyTokens (fun _ => true) doc ∧ ServesExactly doc ix := by
  have hr : DiskReached TwoServers (update ⟨true⟩ goodServer true emptyWorld).2.fs := by
    have he : emptyWorld = ⟨⟨true, fun _ => none⟩, [], 0, []⟩ := rfl
    rw [he]
    exact reached_by_update (.start true) ⟨true⟩ (.inl rfl) true 0
  have hb : (match (loadIndex goodServer (update ⟨true⟩ goodServer true emptyWorld).2).1 with
      | .ok ix => decide (ix.tags ≠ [])
      | _ => false) = true := by decide +kernel
  generalize hw : update ⟨true⟩ goodServer true emptyWorld = r at hr hb
  cases h1 : (loadIndex goodServer r.2).1 with
  | err => rw [h1] at hb; cases hb
  | panic => rw [h1] at hb; cases hb
  | ok ix =>
    rw [h1] at hb
    exact ⟨ix, rfl, (C86_exact TwoServers toyBunzip toyTokens (fun _ => true) two_decoders two_publish _ hr goodServer _ rfl ix
      h1).1 (.inl (of_decide_eq_true hb))⟩

/-- The second case, that of `not_C86`: the index has no tag, and no word is found. -/
example : ∃ ix, (loadIndex goodServer afterSecond).1 = .ok ix ∧ ix.tags = [] ∧
    ∃ e, (ix.fetchString (str "cat")).2 = .err e :=
  ⟨_, rfl, rfl, _, rfl⟩

end Verif
