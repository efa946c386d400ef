import Verif.Model.OptimizeTold
import Verif.Spec.OptimizeTold
import Verif.Lemmas.OptimizeLog
import Verif.Lemmas.OptimizeWhileRead
import Verif.Lemmas.Size

/-! # Helper lemmas: the messages of `Optimize` -/

namespace Verif
open Index

/-- The third loop says what it does. -/
theorem buildTold_eq {old : VariantsIndex} {used : VariantID → Option (List ID)} {l : List VariantID} {new new' : VariantsIndex}
    {acc acc' : List (VariantID × VariantID)} (h : optimizeBuild old used l new acc = .ok (new', acc')) :
    ∃ L, acc' = acc ++ L ∧ buildTold old used l new acc = (L.map fun p => .pair p.1 p.2, .ok (new', acc')) := by
  induction l generalizing new acc with
  | nil =>
    unfold optimizeBuild at h
    cases h
    exact ⟨[], by simp, rfl⟩
  | cons id rest ih =>
    unfold optimizeBuild at h
    unfold buildTold
    cases hu : used id with
    | none =>
      rw [hu] at h
      exact ih h
    | some ids =>
      rw [hu] at h
      simp only at h ⊢
      cases hc : old.get id with
      | ok c =>
        rw [hc] at h
        simp only [Out.bind_ok] at h ⊢
        cases hc' : (new.index c).1.get (new.index c).2 with
        | ok c' =>
          rw [hc'] at h
          simp only [Out.bind_ok] at h ⊢
          split at h
          · rename_i he
            rw [if_pos he]
            obtain ⟨L, h1, h2⟩ := ih h
            refine ⟨(id, (new.index c).2) :: L, by rw [h1]; simp, ?_⟩
            rw [h2]
            rfl
          · cases h
        | err e => rw [hc'] at h; cases h
        | panic => rw [hc'] at h; cases h
        | diverge => rw [hc'] at h; cases h
      | err e => rw [hc] at h; cases h
      | panic => rw [hc] at h; cases h
      | diverge => rw [hc] at h; cases h

/-- The inner loop says what it does. -/
theorem replaceInTold_eq {old new : VariantsIndex} {a v : VariantID} {c : Coll} (ho : old.get a = .ok c)
    (hw : new.get v = .ok c) (ids : List ID) (hn : ids.Nodup) : ∀ (items : List Item) (n : Nat),
      (∀ id ∈ ids, ∃ it, items[id.toNat]? = some it ∧ it.variants = a) →
      ∃ items', replaceIn v ids items = some items' ∧
        replaceInTold old new v ids items n = (ids.map fun id => .item id a c v c, some (items', n + ids.length)) := by
  induction ids with
  | nil => exact fun items n _ => ⟨items, rfl, rfl⟩
  | cons id rest ih =>
    intro items n h
    rw [List.nodup_cons] at hn
    obtain ⟨it, hit, hv⟩ := h id (by simp)
    unfold replaceIn replaceInTold
    rw [if_pos (List.getElem?_eq_some_iff.1 hit).1, hit]
    simp only
    rw [hv, ho, hw]
    simp only
    obtain ⟨items', h1, h2⟩ := ih hn.2 (items.modify id.toNat fun it => { it with variants := v }) (n + 1) (by
      intro id' hid'
      obtain ⟨it', hit', hok'⟩ := h id' (by simp [hid'])
      refine ⟨it', ?_, hok'⟩
      have hne : id.toNat ≠ id'.toNat := by
        intro he
        have := UInt32.toNat_inj.1 he
        subst this
        exact hn.1 hid'
      rw [List.getElem?_modify, hit']
      simp [hne])
    refine ⟨items', h1, ?_⟩
    rw [h2]
    simp only [List.map_cons, List.length_cons, Prod.mk.injEq, true_and]
    congr 2
    omega

/-- The fourth loop says what it does. -/
theorem replaceAllTold_eq {old new : VariantsIndex} {used : VariantID → Option (List ID)}
    (hnd : ∀ a ids, used a = some ids → ids.Nodup)
    (repl : List (VariantID × VariantID)) (hr : (repl.map (·.1)).Nodup)
    (hu : ∀ a ∈ repl.map (·.1), (used a).isSome = true)
    (hg : ∀ p ∈ repl, ∃ c, old.get p.1 = .ok c ∧ new.get p.2 = .ok c) :
    ∀ (items : List Item) (n : Nat),
      (∀ a ∈ repl.map (·.1), ∀ ids, used a = some ids → ∀ id ∈ ids, ∃ it, items[id.toNat]? = some it ∧ it.variants = a) →
      ∃ items', replaceAll used repl items = some items' ∧
        replaceAllTold old new used repl items n =
          (repl.flatMap fun p => ((used p.1).getD []).map fun id =>
              .item id p.1 (old.listAt p.1) p.2 (old.listAt p.1),
            some (items', n + (OState.writes used repl).length)) := by
  induction repl with
  | nil => exact fun items n _ => ⟨items, rfl, rfl⟩
  | cons p rest ih =>
    obtain ⟨a, b⟩ := p
    intro items n h
    rw [List.map_cons, List.nodup_cons] at hr
    obtain ⟨ids, hids⟩ := Option.isSome_iff_exists.1 (hu a (by simp))
    have hown := h a (by simp) ids hids
    obtain ⟨c, hc1, hc2⟩ := hg (a, b) (by simp)
    simp only at hc1 hc2
    obtain ⟨items1, e1, e2⟩ := replaceInTold_eq hc1 hc2 ids (hnd a ids hids) items n hown
    obtain ⟨items1', e3, _, hpos⟩ := replaceIn_spec b ids items (fun id hid => by
      obtain ⟨it, hit, _⟩ := hown id hid
      exact (List.getElem?_eq_some_iff.1 hit).1)
    rw [e1] at e3
    obtain rfl := Option.some.inj e3
    obtain ⟨items', e4, e5⟩ := ih hr.2 (fun x hx => hu x (by simp [hx])) (fun x hx => hg x (by simp [hx])) items1
      (n + ids.length) (fun x hx ids' hids' id hid => by
        obtain ⟨it, hit, hv⟩ := h x (by simp [hx]) ids' hids' id hid
        refine ⟨it, ?_, hv⟩
        rw [hpos, if_neg, hit]
        rintro ⟨id', hid', he⟩
        obtain ⟨it', hit', hv'⟩ := hown id' hid'
        rw [he, hit] at hit'
        obtain rfl := Option.some.inj hit'
        rw [hv] at hv'
        subst hv'
        exact hr.1 hx)
    refine ⟨items', ?_, ?_⟩
    · unfold replaceAll
      rw [hids]
      simp only
      rw [e1]
      exact e4
    · unfold replaceAllTold
      rw [hids]
      simp only
      rw [e2]
      simp only
      rw [e5]
      have hl : old.listAt a = c := by unfold VariantsIndex.listAt; rw [hc1]
      simp only [List.flatMap_cons, hids, Option.getD_some, hl, Prod.mk.injEq, true_and]
      congr 2
      unfold OState.writes
      simp only [List.flatMap_cons, hids, Option.getD_some, List.length_append, List.length_map]
      omega

theorem tableIDs_length (t : TagSetIndex) : t.tableIDs.length = t.flatten.length := by
  unfold TagSetIndex.tableIDs
  rw [List.length_flatten, List.length_flatten, List.map_map]
  have : ∀ n, ((t.zipIdx n).map (List.length ∘ fun (x : TagSetTable × Nat) =>
      (List.range x.1.length).map fun j => mkTagSetID (tableNumberAdd (UInt16.ofNat x.2) 1) (UInt16.ofNat j))).sum =
      (t.map List.length).sum := by
    induction t with
    | nil => intro n; rfl
    | cons a t ih =>
      intro n
      rw [List.zipIdx_cons, List.map_cons, List.map_cons, List.sum_cons, List.sum_cons, ih]
      simp
  exact this 0

theorem listAt_packV {c : VariantsIndex} (hl : c.length ≤ 65535) (ht : ∀ t ∈ c, t.length ≤ 65536) {p : Nat × Nat} {x : Coll}
    (h : gGet c p = some x) : c.get (packV p) = .ok x ∧ c.listAt (packV p) = x := by
  have hb := gGet_bounds hl ht h
  have e := VariantsIndex.get_packV c hb.1 hb.2 h
  exact ⟨e, by unfold VariantsIndex.listAt; rw [e]⟩

theorem known_flatten {c : VariantsIndex} (hc : GInv c) (hl : c.length ≤ 65535) (ht : ∀ t ∈ c, t.length ≤ 65536) :
    c.knownID.length = c.flatten.length := by
  refine Nat.le_antisymm (knownID_length_le c) ?_
  have hsub : c.flatten ⊆ c.knownID.map c.listAt := by
    intro x hx
    obtain ⟨p, hp⟩ := mem_flatten_gGet.1 hx
    exact List.mem_map.2 ⟨packV p, (mem_knownID hl).2 ⟨p, ⟨x, hp⟩, rfl⟩, (listAt_packV hl ht hp).2⟩
  have := (List.subperm_of_subset hc.nodup_flatten hsub).length_le
  rwa [List.length_map] at this

end Verif
