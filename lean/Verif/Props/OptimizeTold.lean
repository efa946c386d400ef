import Verif.Lemmas.OptimizeTold
import Verif.Props.Size
import Verif.Props.OptimizeLog

/-!
# C121 — the messages of `Optimize` tell what it did

`Spec/OptimizeTold.lean` says what the messages have to be.
-/

namespace Verif
open Index

/-- In an index that has been optimized nothing is unused. -/
theorem none_unused {ix : Index} (hz : ∀ id ∈ ix.collectionIdx.knownID, id ≠ 0)
    (hu : ∀ id ∈ ix.collectionIdx.knownID, ∃ it ∈ ix.items.items, it.variants = id) :
    (ix.collectionIdx.knownID.filter fun id => (usedCollections ix.items.items id).isNone).length = 0 := by
  rw [List.length_eq_zero_iff, List.filter_eq_nil_iff]
  intro id hid
  have := used_isSome.2 ⟨hz id hid, hu id hid⟩
  cases hx : usedCollections ix.items.items id with
  | none => rw [hx] at this; cases this
  | some _ => simp

/-- The stored lists are as many as the combinations, once nothing is unused. -/
theorem Run.known_length {h : List Op} {ix : Index} (r : Run h ix)
    (hu : ∀ id ∈ ix.collectionIdx.knownID, ∃ it ∈ ix.items.items, it.variants = id) {P : List (List Rune)}
    {R : List (List Str)} {S : List (List (List Str))} (inv : Inventory (dictOf h) P R S) :
    ix.collectionIdx.knownID.length = S.length := by
  have := (r.combination_lengths hu inv).length_eq
  rw [List.length_map, List.length_map] at this
  rw [known_flatten r.tag.colls r.caps.collTables r.caps.colls, this]

/-- C121: the messages of `Optimize` tell what it did; the call does what it does without the messages, and leaves the
index as it is only if it said that nothing is unused. -/
theorem C121 {h : List Op} {ix : Index} (r : Run h ix) {P : List (List Rune)} {R : List (List Str)}
    {S : List (List (List Str))} (inv : Inventory (dictOf h) P R S) :
    ix.optimizeTold.2 = ix.optimize ∧ ix.optimize.2 = .ok () ∧
    ∃ extra, (extra = 0 ↔ ix.optimize.1 = ix) ∧
      TellsOf ix ix.optimize.1 (fun id => (dictOf h).attached id.toNat ≠ []) R S extra ix.optimizeTold.1 := by
  obtain ⟨hok, hO, hT, hC, hu, hts, _, _⟩ := optimize_spec r.trie r.tag r.caps
  have hR : ix.tagSets.tableIDs.length = R.length := by
    have := (r.reading_lengths inv).length_eq
    rw [List.length_map, List.length_map] at this
    rw [tableIDs_length, this]
  have he : dictOf (h ++ [.optimize]) = dictOf h := by rw [dictOf_append]; rfl
  have hS := r.optimized.known_length hu (he.symm ▸ inv)
  rcases oplan_or_idle r with ⟨h0, hid⟩ | ⟨new, acc, p⟩
  · rw [hid] at hu hS
    have ht : ix.optimizeTold = ([.check ix.collectionIdx.knownID.length, .lookup, .eliminate 0, .noUnused], (ix, .ok ())) := by
      unfold optimizeTold
      simp only
      rw [if_pos h0, h0]
      rfl
    have h2 : ix.optimize = (ix, .ok ()) := Prod.ext hid hok
    refine ⟨by rw [ht, h2], hok, 0, by simp [hid], ?_⟩
    rw [ht, hS]
    exact .idle hid
  · have hnew : ix.optimize.1.collectionIdx = new := by rw [p.opt]
    obtain ⟨new1, acc1, hb, hinv, hfst⟩ := optimizeBuild_spec r.tag.colls r.caps.collTables r.caps.colls
      (usedCollections ix.items.items) ix.collectionIdx.knownID (run_known r) [] [] (buildInv_nil _)
    rw [p.build] at hb
    cases hb
    rw [List.map_nil, List.nil_append] at hfst
    have hnd : (acc.map (·.1)).Nodup := by rw [hfst]; exact (run_nodup r).filter _
    have hus : ∀ a ∈ acc.map (·.1), (usedCollections ix.items.items a).isSome = true := by
      intro a ha
      rw [hfst] at ha
      exact (List.mem_filter.1 ha).2
    have hnl : new.length ≤ 65535 := hinv.len.trans r.caps.collTables
    have hnt : ∀ t ∈ new, t.length ≤ 65536 := by
      rw [← hnew]; exact hC.colls
    have hpair : ∀ q ∈ acc, ∃ c, c ≠ [] ∧ ix.collectionIdx.get q.1 = .ok c ∧ new.get q.2 = .ok c := by
      rintro ⟨a, b⟩ hq
      obtain ⟨q, q', c, rfl, hq1, rfl, hq2⟩ := hinv.pairs a b hq
      refine ⟨c, ?_, (listAt_packV r.caps.collTables r.caps.colls hq1).1, (listAt_packV hnl hnt hq2).1⟩
      have := (gGet_sorted r.tag.colls hq1).2
      rintro rfl
      simp at this
    have hnd2 : (acc.map (·.2)).Nodup := by
      refine List.Nodup.map_on ?_ hnd.of_map
      rintro ⟨a, b⟩ h1 ⟨a', b'⟩ h2 e
      simp only at e
      subst e
      obtain ⟨q, q', c, rfl, hq1, rfl, hq2⟩ := hinv.pairs a b h1
      obtain ⟨s, s', c', rfl, hs1, e, hs2⟩ := hinv.pairs a' _ h2
      have b1 := hinv.bounds r.tag.colls r.caps.collTables r.caps.colls hq2
      have b2 := hinv.bounds r.tag.colls r.caps.collTables r.caps.colls hs2
      obtain rfl := packV_inj b1.1 b1.2 b2.1 b2.2 e
      rw [hq2] at hs2
      obtain rfl := Option.some.inj hs2
      rw [gGet_inj r.tag.colls hq1 hs1]
    have hacc : acc.length = new.knownID.length := by
      have e1 : acc.map (·.2) ⊆ new.knownID := by
        intro b hb
        obtain ⟨⟨a, b⟩, hab, rfl⟩ := List.mem_map.1 hb
        obtain ⟨q, q', c, rfl, hq, rfl, hp⟩ := hinv.pairs a b hab
        exact (mem_knownID hnl).2 ⟨q', ⟨c, hp⟩, rfl⟩
      have e2 : new.knownID ⊆ acc.map (·.2) := by
        intro b hb
        obtain ⟨q, ⟨c, hq⟩, rfl⟩ := (mem_knownID hnl).1 hb
        obtain ⟨a, ha⟩ := hinv.full q c hq
        exact List.mem_map.2 ⟨_, ha, rfl⟩
      have l1 := (List.subperm_of_subset hnd2 e1).length_le
      have hkn : new.knownID.Nodup := by
        refine nodup_knownID hnl fun i => getD_length_le hnt i
      have l2 := (List.subperm_of_subset hkn e2).length_le
      rw [List.length_map] at l1 l2
      omega
    rw [hnew] at hS
    have hmem : ∀ a ids, usedCollections ix.items.items a = some ids → ∀ id ∈ ids,
        ∃ it, ix.items.items[id.toNat]? = some it ∧ it.variants = a := by
      intro a ids ha id hid
      obtain ⟨it, hm, rfl, rfl⟩ := (used_mem ha _).1 hid
      obtain ⟨j, hj⟩ := List.getElem?_of_mem hm
      obtain ⟨_, _, e⟩ := item_id_of_variants r.trie r.tag hj (used_isSome.1 (by rw [ha]; rfl)).1
      rw [e]
      exact ⟨it, hj, rfl⟩
    obtain ⟨items', e1, e2⟩ := replaceAllTold_eq (used := usedCollections ix.items.items)
      (fun a ids hu => used_nodup r.trie r.tag hu) acc hnd hus
      (fun q hq => by obtain ⟨c, _, h1, h2⟩ := hpair q hq; exact ⟨c, h1, h2⟩) ix.items.items 0
      (fun a _ ids ha id hid => hmem a ids ha id hid)
    obtain ⟨L, hL, hbt⟩ := buildTold_eq p.build
    rw [List.nil_append] at hL
    subst hL
    -- the words, in the order of the messages
    have hws : ∀ w ∈ OState.writes (usedCollections ix.items.items) acc, ∃ it, ix.items.items[w.1.toNat]? = some it ∧
        (it.variants, w.2) ∈ acc ∧ it.variants ≠ 0 := by
      intro w hw
      unfold OState.writes at hw
      obtain ⟨ab, hab, hw⟩ := List.mem_flatMap.1 hw
      obtain ⟨id, hid, rfl⟩ := List.mem_map.1 hw
      obtain ⟨ids, hids⟩ := Option.isSome_iff_exists.1 (hus ab.1 (List.mem_map.2 ⟨ab, hab, rfl⟩))
      rw [hids] at hid
      obtain ⟨it, h1, h2⟩ := hmem _ _ hids id hid
      exact ⟨it, h1, by rw [h2]; exact hab, by rw [h2]; exact (used_isSome.1 (by rw [hids]; rfl)).1⟩
    have hold : ∀ w ∈ OState.writes (usedCollections ix.items.items) acc, 0 < w.1.toNat ∧
        w.1.toNat < (dictOf h).nodes.length ∧ ∃ it, ix.items.items[w.1.toNat]? = some it ∧ ix.numberOf w.1 = it.variants ∧
        (it.variants, w.2) ∈ acc ∧ it.variants ≠ 0 := by
      intro w hw
      obtain ⟨it, h1, h2, h3⟩ := hws w hw
      obtain ⟨k1, k2, _⟩ := item_id_of_variants r.trie r.tag h1 h3
      refine ⟨k1, k2, it, h1, ?_, h2, h3⟩
      rw [numberOf_get r.trie k1 k2, h1]
      rfl
    have hnum : ∀ w ∈ OState.writes (usedCollections ix.items.items) acc, ix.optimize.1.numberOf w.1 = w.2 := by
      intro w hw
      obtain ⟨k1, k2, it, h1, _⟩ := hold w hw
      rw [numberOf_get hO k1 k2, p.opt]
      simp only
      rw [applyW_get p.nodup, h1]
      have hf : (OState.writes (usedCollections ix.items.items) acc).find? (fun x => decide (x.1.toNat = w.1.toNat)) = some w := by
        cases hx : (OState.writes (usedCollections ix.items.items) acc).find? (fun x => decide (x.1.toNat = w.1.toNat)) with
        | none =>
          rw [List.find?_eq_none] at hx
          exact absurd (decide_eq_true rfl) (hx w hw)
        | some x =>
          have hm := List.mem_of_find?_eq_some hx
          have hxe := List.find?_some hx
          congr 1
          exact List.inj_on_of_nodup_map p.nodup hm hw (by simpa using hxe)
      rw [hf]
      rfl
    have hlines : (acc.flatMap fun q => ((usedCollections ix.items.items q.1).getD []).map fun id =>
          OptLine.item id q.1 (ix.collectionIdx.listAt q.1) q.2 (ix.collectionIdx.listAt q.1)) =
        (OState.writes (usedCollections ix.items.items) acc).map fun w => OptLine.item w.1 (ix.numberOf w.1)
          (ix.collectionIdx.listAt (ix.numberOf w.1)) (ix.optimize.1.numberOf w.1)
          (ix.optimize.1.collectionIdx.listAt (ix.optimize.1.numberOf w.1)) := by
      have hpt : ∀ q ∈ acc, ∀ id ∈ (usedCollections ix.items.items q.1).getD [],
          OptLine.item id q.1 (ix.collectionIdx.listAt q.1) q.2 (ix.collectionIdx.listAt q.1) =
          OptLine.item id (ix.numberOf id) (ix.collectionIdx.listAt (ix.numberOf id)) (ix.optimize.1.numberOf id)
            (ix.optimize.1.collectionIdx.listAt (ix.optimize.1.numberOf id)) := by
        intro q hq id hid
        have hw : (id, q.2) ∈ OState.writes (usedCollections ix.items.items) acc :=
          List.mem_flatMap.2 ⟨q, hq, List.mem_map.2 ⟨id, hid, rfl⟩⟩
        have e2 := hnum _ hw
        obtain ⟨_, _, it, h1, h2, _⟩ := hold _ hw
        obtain ⟨ids, hids⟩ := Option.isSome_iff_exists.1 (hus q.1 (List.mem_map.2 ⟨q, hq, rfl⟩))
        rw [hids] at hid
        obtain ⟨it', h1', h2'⟩ := hmem _ _ hids id hid
        simp only at h1 h2 e2
        rw [h1] at h1'
        obtain rfl := Option.some.inj h1'
        rw [h2'] at h2
        obtain ⟨c, _, c1, c2⟩ := hpair q hq
        have l1 : ix.collectionIdx.listAt q.1 = c := by unfold VariantsIndex.listAt; rw [c1]
        have l2 : new.listAt q.2 = c := by unfold VariantsIndex.listAt; rw [c2]
        rw [e2, h2, hnew, l1, l2]
      unfold OState.writes
      rw [List.map_flatMap]
      refine List.flatMap_congr fun q hq => ?_
      rw [List.map_map]
      exact List.map_congr_left fun id hid => hpt q hq id hid
    have hopt : ix.optimize = ({ ix with items := { ix.items with items := items' }, collectionIdx := new }, .ok ()) := by
      refine Prod.ext ?_ hok
      rw [p.opt, ← (replaceAll_applyW e1).1]
    have hextra : ix.collectionIdx.knownID.length = S.length +
        (ix.collectionIdx.knownID.filter fun id => (usedCollections ix.items.items id).isNone).length := by
      have hl : acc.length = (ix.collectionIdx.knownID.filter fun id => (usedCollections ix.items.items id).isSome).length := by
        rw [← hfst, List.length_map]
      have hc : ∀ l : List VariantID, l.length = (l.filter fun id => (usedCollections ix.items.items id).isSome).length +
          (l.filter fun id => (usedCollections ix.items.items id).isNone).length := by
        intro l
        induction l with
        | nil => rfl
        | cons a l ih =>
          cases hx : usedCollections ix.items.items a with
          | none => simp only [List.filter_cons, hx, List.length_cons, Option.isSome_none, Option.isNone_none]; simp; omega
          | some _ => simp only [List.filter_cons, hx, List.length_cons, Option.isSome_some, Option.isNone_some]; simp; omega
      rw [← hS, ← hacc, hl]
      exact hc _
    have hlog : ix.optimizeTold = ([.check ix.collectionIdx.knownID.length, .lookup,
          .eliminate (ix.collectionIdx.knownID.filter fun id => (usedCollections ix.items.items id).isNone).length] ++
        (acc.map fun q => .pair q.1 q.2) ++ [.toReplace acc.length] ++
        (acc.flatMap fun q => ((usedCollections ix.items.items q.1).getD []).map fun id =>
          OptLine.item id q.1 (ix.collectionIdx.listAt q.1) q.2 (ix.collectionIdx.listAt q.1)) ++
        [.updated (0 + (OState.writes (usedCollections ix.items.items) acc).length),
          .reduced ix.collectionIdx.knownID.length new.knownID.length, .tagSets ix.tagSets.tableIDs.length], ix.optimize) := by
      rw [hopt]
      unfold optimizeTold
      simp only
      rw [if_neg p.busy, hbt]
      simp only
      rw [e2]
    refine ⟨by rw [hlog], hok,
      (ix.collectionIdx.knownID.filter fun id => (usedCollections ix.items.items id).isNone).length, ?_, ?_⟩
    · refine ⟨fun h0 => absurd h0 p.busy, fun e => absurd ?_ p.busy⟩
      rw [e] at hnew
      rw [← hnew] at hS
      omega
    · have hw : (OState.writes (usedCollections ix.items.items) acc).length =
          ((OState.writes (usedCollections ix.items.items) acc).map (·.1)).length := by rw [List.length_map]
      have hmm : ((OState.writes (usedCollections ix.items.items) acc).map fun w => OptLine.item w.1 (ix.numberOf w.1)
          (ix.collectionIdx.listAt (ix.numberOf w.1)) (ix.optimize.1.numberOf w.1)
          (ix.optimize.1.collectionIdx.listAt (ix.optimize.1.numberOf w.1))) =
          (((OState.writes (usedCollections ix.items.items) acc).map (·.1)).map fun id => OptLine.item id (ix.numberOf id)
          (ix.collectionIdx.listAt (ix.numberOf id)) (ix.optimize.1.numberOf id)
          (ix.optimize.1.collectionIdx.listAt (ix.optimize.1.numberOf id))) := by rw [List.map_map]; rfl
      rw [hlog, hlines, hmm, hextra, hR, Nat.zero_add, hw, ← hS, hacc]
      simp only
      rw [hS]
      refine .done _ acc _ p.busy (hacc.trans hS) ⟨hnd, hnd2⟩ (fun q hq => by rw [hnew]; exact hpair q hq) ?_ ?_ ?_
      · have := p.nodup
        rw [show (fun w : ID × VariantID => w.1.toNat) = (fun i : ID => i.toNat) ∘ (·.1) from rfl, ← List.map_map] at this
        exact this.of_map
      · intro id
        rw [List.mem_map]
        constructor
        · rintro ⟨w, hw, rfl⟩
          obtain ⟨k1, k2, it, h1, _, h2, h3⟩ := hold w hw
          obtain ⟨c, hc1, hc2⟩ := r.tag.vars _ it k2 h1
          rcases hc1 with ⟨h0, _⟩ | ⟨q, hq, _⟩
          · exact absurd h0 h3
          · have hl := (gGet_sorted r.tag.colls hq).2
            cases c with
            | nil => simp at hl
            | cons x c =>
              obtain ⟨names, hn, _⟩ := (hc2 x).1 (by simp)
              exact List.ne_nil_of_mem (mem_attached.2 hn)
        · intro hne
          obtain ⟨names, hn⟩ := List.exists_mem_of_ne_nil _ hne
          have hn := mem_attached.1 hn
          obtain ⟨k1, k2, i, hi⟩ := r.tag.readings _ _ hn
          obtain ⟨it, w, g1, g2, _⟩ := r.trie.item id.toNat (by omega) k2
          obtain ⟨c, hc1, hc2⟩ := r.tag.vars _ it k2 g1
          have hic := (hc2 i).2 ⟨names, hn, hi⟩
          rcases hc1 with ⟨_, rfl⟩ | ⟨q, hq, hv⟩
          · simp at hic
          · have hb := gGet_bounds r.caps.collTables r.caps.colls hq
            have h0 : it.variants ≠ 0 := by rw [hv]; exact packV_ne_zero hb.1
            have hsome := used_isSome.2 ⟨h0, it, List.mem_of_getElem? g1, rfl⟩
            obtain ⟨ids, hids⟩ := Option.isSome_iff_exists.1 hsome
            have hidm : id ∈ ids := (used_mem hids id).2 ⟨it, List.mem_of_getElem? g1, rfl, UInt32.toNat_inj.1 g2⟩
            have hk : it.variants ∈ acc.map (·.1) := by
              rw [hfst, List.mem_filter]
              exact ⟨hv ▸ (mem_knownID r.caps.collTables).2 ⟨q, ⟨c, hq⟩, rfl⟩, hsome⟩
            obtain ⟨ab, hab, e⟩ := List.mem_map.1 hk
            refine ⟨(id, ab.2), List.mem_flatMap.2 ⟨ab, hab, List.mem_map.2 ⟨id, ?_, rfl⟩⟩, rfl⟩
            rw [e, hids]
            exact hidm
      · intro id hid
        obtain ⟨w, hw, rfl⟩ := List.mem_map.1 hid
        obtain ⟨_, _, it, _, h2, h3, _⟩ := hold w hw
        rw [hnum w hw, h2]
        exact h3

/-- C121, the numbers: after "%d items VariantID updated" comes the number `WordsCount` answers, and in "reduced collection
from %d to %d items" the first number is the second one and what "eliminate %d unused collections" said. -/
theorem C121_numbers {h : List Op} {ix : Index} (r : Run h ix) :
    (∀ n, .updated n ∈ ix.optimizeTold.1 → n = ix.wordsCount) ∧
    (∀ a b, .reduced a b ∈ ix.optimizeTold.1 → ∃ e, e ≠ 0 ∧ .eliminate e ∈ ix.optimizeTold.1 ∧ a = b + e) ∧
    (∀ e, .eliminate e ∈ ix.optimizeTold.1 → (e = 0 ↔ ix.optimize.1 = ix)) := by
  obtain ⟨P, R, S, inv⟩ := C98_inventory r
  obtain ⟨_, _, extra, he, ht⟩ := C121 r inv
  generalize ix.optimizeTold.1 = log at ht
  cases ht with
  | idle same => exact ⟨by simp, by simp, by simpa using same⟩
  | done extra kept words hs hk _ _ wo wa _ =>
    refine ⟨?_, ?_, ?_⟩
    · intro n hn
      obtain ⟨L, l1, l2, l3⟩ := C12 r
      have hn : n = words.length := by simpa using hn
      rw [hn, ← l2, ← List.length_map (as := words) (fun id => id.toNat)]
      refine ((List.perm_ext_iff_of_nodup ?_ l1).2 fun k => ?_).length_eq
      · exact (List.nodup_map_iff fun x y e => UInt32.toNat_inj.1 e).2 wo
      · rw [l3, List.mem_map]
        constructor
        · rintro ⟨id, hid, rfl⟩
          exact (wa id).1 hid
        · intro hne
          obtain ⟨names, hm⟩ := List.exists_mem_of_ne_nil _ hne
          have hlt := (r.tag.readings _ _ (mem_attached.1 hm)).2.1
          have hf := r.refines.2.nodes
          have e : (UInt32.ofNat k).toNat = k := by
            rw [UInt32.toNat_ofNat']
            exact Nat.mod_eq_of_lt (by omega)
          exact ⟨UInt32.ofNat k, (wa _).2 (by rw [e]; exact hne), e⟩
    · intro a b hab
      have : a = S.length + extra ∧ b = S.length := by simpa using hab
      exact ⟨extra, hs, by simp, by omega⟩
    · intro e hm
      have : e = extra := by simpa using hm
      rw [this]
      exact he

/-- C121: no message says that a list differs after the renumbering. -/
theorem C121_same {h : List Op} {ix : Index} (r : Run h ix) (l : OptLine) (hl : l ∈ ix.optimizeTold.1) :
    (∀ id c, l ≠ .oldDiffers id c ∧ l ≠ .newDiffers id c) ∧
    ∀ id old oldList new newList, l = .item id old oldList new newList → oldList = newList ∧ oldList ≠ [] ∧
      ix.tagSetsOf id = .ok (ix.tagSetsLoop oldList) ∧ ix.optimize.1.tagSetsOf id = .ok (ix.optimize.1.tagSetsLoop newList) := by
  obtain ⟨P, R, S, inv⟩ := C98_inventory r
  obtain ⟨_, _, extra, he, ht⟩ := C121 r inv
  generalize ix.optimizeTold.1 = log at ht hl
  cases ht with
  | idle same =>
    refine ⟨fun id c => ⟨?_, ?_⟩, fun id o ol n nl => ?_⟩ <;> rintro rfl <;> simp at hl
  | done extra kept words hs hk _ ks wo wa wk =>
    refine ⟨fun id c => ⟨?_, ?_⟩, fun id o ol n nl => ?_⟩
    · rintro rfl; simp at hl
    · rintro rfl; simp at hl
    · rintro rfl
      have hl : ∃ a ∈ words, a = id ∧ ix.numberOf a = o ∧ ix.collectionIdx.listAt (ix.numberOf a) = ol ∧
          ix.optimize.1.numberOf a = n ∧ ix.optimize.1.collectionIdx.listAt (ix.optimize.1.numberOf a) = nl := by
        simpa using hl
      obtain ⟨_, hid, rfl, rfl, rfl, rfl, rfl⟩ := hl
      rename_i id
      obtain ⟨c, hc, c1, c2⟩ := ks _ (wk id hid)
      simp only at c1 c2
      have l1 : ix.collectionIdx.listAt (ix.numberOf id) = c := by unfold VariantsIndex.listAt; rw [c1]
      have l2 : ix.optimize.1.collectionIdx.listAt (ix.optimize.1.numberOf id) = c := by
        unfold VariantsIndex.listAt; rw [c2]
      obtain ⟨names, hm⟩ := List.exists_mem_of_ne_nil _ ((wa id).1 hid)
      obtain ⟨k1, k2, _⟩ := r.tag.readings _ _ (mem_attached.1 hm)
      obtain ⟨_, hO, _⟩ := optimize_spec r.trie r.tag r.caps
      obtain ⟨it, w, hg, _⟩ := r.trie.items_get k1 k2
      obtain ⟨it', w', hg', _⟩ := hO.items_get k1 k2
      rw [l1, l2]
      refine ⟨rfl, hc, ?_, ?_⟩
      · unfold Index.numberOf at c1
        rw [hg] at c1
        unfold Index.tagSetsOf
        rw [hg]
        simp only
        rw [show ix.collectionIdx.get it.variants = .ok c from c1]
        rfl
      · unfold Index.numberOf at c2
        rw [hg'] at c2
        unfold Index.tagSetsOf
        rw [hg']
        simp only
        rw [show ix.optimize.1.collectionIdx.get it'.variants = .ok c from c2]
        rfl

/-- C121: a second `Optimize` says that nothing is unused. -/
theorem C121_twice {h : List Op} {ix : Index} (r : Run h ix) :
    ∃ n, ix.optimize.1.optimizeTold.1 = [.check n, .lookup, .eliminate 0, .noUnused] := by
  obtain ⟨P, R, S, inv⟩ := C98_inventory r.optimized
  obtain ⟨_, _, extra, he, ht⟩ := C121 r.optimized inv
  have hid : ix.optimize.1.optimize.1 = ix.optimize.1 := by
    obtain ⟨_, _, _, hC, hu, _⟩ := optimize_spec r.trie r.tag r.caps
    have := optimize_idle (ix := ix.optimize.1) (fun id hm => by
      obtain ⟨q, c, rfl, hq⟩ := run_known r.optimized id hm
      exact packV_ne_zero (gGet_bounds hC.collTables hC.colls hq).1) hu
    rw [this]
  obtain rfl := he.2 hid
  generalize ix.optimize.1.optimizeTold.1 = log at ht
  cases ht with
  | idle _ => exact ⟨_, rfl⟩
  | done _ _ _ hs => exact absurd rfl hs

/-- The sample history cut before its `Optimize`, and another word with a reading. -/
def toldHistory : List Op := sampleHistory.take 8 ++ [.addTagSet 3 [str "VERB"]]

/-- The hypotheses are met by this history; there is something to do, and nothing the second time. -/
example : Run toldHistory (execAll toldHistory) ∧
    (execAll toldHistory).optimizeTold.1 = [.check 3, .lookup, .eliminate 1, .pair 0x010001 0x010000,
      .pair 0x020000 0x020000, .toReplace 2, .item 3 0x010001 [1] 0x010000 [1],
      .item 2 0x020000 [0, 0x010000] 0x020000 [0, 0x010000], .updated 2, .reduced 3 2, .tagSets 3] ∧
    (execAll toldHistory).optimize.1.optimizeTold.1 = [.check 2, .lookup, .eliminate 0, .noUnused] ∧
    ∃ P R S, Inventory (dictOf toldHistory) P R S :=
  ⟨small_runs _ (by decide), by decide, by decide, C98_inventory (small_runs _ (by decide))⟩

end Verif
