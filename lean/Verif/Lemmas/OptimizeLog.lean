import Verif.Model.OptimizeLog
import Verif.Lemmas.Refine

/-! # Helper lemmas: the debug messages of `Optimize` -/

namespace Verif

theorem replaceInLog_eq (debug : Bool) (old : VariantsIndex) (v : VariantID) (ids : List ID) (hn : ids.Nodup) :
    ∀ items : List Item,
      (∀ id ∈ ids, ∃ it, items[id.toNat]? = some it ∧ old.get it.variants ≠ .panic) →
      ∃ items', Index.replaceIn v ids items = some items' ∧ Index.replaceInLog debug old v ids items = (items', true) := by
  induction ids with
  | nil => exact fun items _ => ⟨items, rfl, rfl⟩
  | cons id rest ih =>
    intro items h
    rw [List.nodup_cons] at hn
    obtain ⟨it, hit, hok⟩ := h id (by simp)
    unfold Index.replaceIn Index.replaceInLog
    rw [if_pos (List.getElem?_eq_some_iff.1 hit).1, hit]
    simp only
    rw [if_neg (fun hx => hok hx.2)]
    apply ih hn.2
    intro id' hid'
    obtain ⟨it', hit', hok'⟩ := h id' (by simp [hid'])
    refine ⟨it', ?_, hok'⟩
    have hne : id.toNat ≠ id'.toNat := by
      intro he
      have := UInt32.toNat_inj.1 he
      subst this
      exact hn.1 hid'
    rw [List.getElem?_modify, hit']
    simp [hne]

theorem replaceAllLog_eq (debug : Bool) (coll : VariantsIndex) (used : VariantID → Option (List ID))
    (hnd : ∀ a ids, used a = some ids → ids.Nodup)
    (repl : List (VariantID × VariantID)) (hr : (repl.map (·.1)).Nodup)
    (hu : ∀ a ∈ repl.map (·.1), (used a).isSome = true)
    (hg : ∀ a ∈ repl.map (·.1), coll.get a ≠ .panic) :
    ∀ items : List Item,
      (∀ a ∈ repl.map (·.1), ∀ ids, used a = some ids → ∀ id ∈ ids, ∃ it, items[id.toNat]? = some it ∧ it.variants = a) →
      ∃ items', Index.replaceAll used repl items = some items' ∧
        Index.replaceAllLog debug coll used repl items = (items', true) := by
  induction repl with
  | nil => exact fun items _ => ⟨items, rfl, rfl⟩
  | cons p rest ih =>
    obtain ⟨a, b⟩ := p
    intro items h
    rw [List.map_cons, List.nodup_cons] at hr
    obtain ⟨ids, hids⟩ := Option.isSome_iff_exists.1 (hu a (by simp))
    have hown := h a (by simp) ids hids
    obtain ⟨items1, e1, e2⟩ := replaceInLog_eq debug coll b ids (hnd a ids hids) items (fun id hid => by
      obtain ⟨it, hit, hv⟩ := hown id hid
      exact ⟨it, hit, by rw [hv]; exact hg a (by simp)⟩)
    obtain ⟨items1', e3, _, hpos⟩ := replaceIn_spec b ids items (fun id hid => by
      obtain ⟨it, hit, _⟩ := hown id hid
      exact (List.getElem?_eq_some_iff.1 hit).1)
    rw [e1] at e3
    obtain rfl := Option.some.inj e3
    obtain ⟨items', e4, e5⟩ := ih hr.2 (fun x hx => hu x (by simp [hx])) (fun x hx => hg x (by simp [hx])) items1
      (fun x hx ids' hids' id hid => by
        obtain ⟨it, hit, hv⟩ := h x (by simp [hx]) ids' hids' id hid
        refine ⟨it, ?_, hv⟩
        rw [hpos, if_neg, hit]
        rintro ⟨id', hid', he⟩
        obtain ⟨it', hit', hv'⟩ := hown id' hid'
        rw [he, hit] at hit'
        obtain rfl := Option.some.inj hit'
        rw [hv] at hv'
        subst hv'
        exact hr.1 hx)
    refine ⟨items', ?_, ?_⟩
    · unfold Index.replaceAll
      rw [hids]
      simp only
      rw [e1]
      exact e4
    · unfold Index.replaceAllLog
      rw [hids]
      simp only
      rw [e2]
      exact e5

theorem used_nodup {ix : Index} {d : Dict} (ht : TrieOK ix d) (h : TagOK ix d) {v : VariantID} {ids : List ID}
    (hu : Index.usedCollections ix.items.items v = some ids) : ids.Nodup := by
  have hv : v ≠ 0 := (used_isSome.1 (by rw [hu]; rfl)).1
  rw [usedCollections_eq] at hu
  split at hu
  · cases hu
  · obtain rfl := Option.some.inj hu
    have hp : ix.items.items.Pairwise fun a b => a.variants = v → b.variants = v → a.id ≠ b.id := by
      rw [List.pairwise_iff_getElem]
      intro i j hi hj hij ha hb he
      have h1 := item_id_of_variants ht h (List.getElem?_eq_getElem hi) (by rw [ha]; exact hv)
      have h2 := item_id_of_variants ht h (List.getElem?_eq_getElem hj) (by rw [hb]; exact hv)
      have := h1.2.2
      rw [he, h2.2.2] at this
      omega
    rw [List.Nodup, List.pairwise_map]
    refine List.Pairwise.imp_of_mem ?_ (hp.filter _)
    intro a b ha hb hab
    exact hab (by simpa using (List.mem_filter.1 ha).2) (by simpa using (List.mem_filter.1 hb).2)

theorem optimizeLog_eq {ix : Index} {d : Dict} (ht : TrieOK ix d) (h : TagOK ix d) (hc : Caps ix) (debug : Bool) :
    ix.optimizeLog debug = ix.optimize := by
  unfold Index.optimizeLog Index.optimize
  simp only
  split
  · rfl
  · have hknown : ∀ id ∈ ix.collectionIdx.knownID,
        ∃ q c, id = packV q ∧ gGet ix.collectionIdx q = some c := by
      intro id hid
      obtain ⟨q, ⟨c, hq⟩, rfl⟩ := (mem_knownID hc.collTables).1 hid
      exact ⟨q, c, rfl, hq⟩
    have hcols : ∀ i, (ix.collectionIdx.getD i []).length ≤ 65536 := by
      intro i
      by_cases hi : i < ix.collectionIdx.length
      · exact hc.colls _ (List.mem_of_getElem? (getD_of_lt _ hi))
      · have hn : ix.collectionIdx[i]? = none := List.getElem?_eq_none (by omega)
        rw [List.getD_eq_getElem?_getD, hn]; simp
    obtain ⟨new, acc, hb, hinv, hfst⟩ := optimizeBuild_spec h.colls hc.collTables hc.colls
      (Index.usedCollections ix.items.items) ix.collectionIdx.knownID hknown [] []
      ⟨GInv_nil, by simp, fun p c hp => by simp [gGet] at hp, fun a b h => by simp at h,
        fun p c hp => by simp [gGet] at hp⟩
    rw [hb]
    simp only
    simp only [List.map_nil, List.nil_append] at hfst
    obtain ⟨items', e1, e2⟩ := replaceAllLog_eq debug ix.collectionIdx (Index.usedCollections ix.items.items)
      (fun a ids hu => used_nodup ht h hu) acc
      (by rw [hfst]; exact (nodup_knownID hc.collTables hcols).filter _)
      (fun a ha => by rw [hfst] at ha; exact (List.mem_filter.1 ha).2)
      (fun a ha => by
        rw [hfst] at ha
        obtain ⟨q, c, rfl, hq⟩ := hknown a (List.mem_filter.1 ha).1
        rw [VariantsIndex.get_packV _ (hc.coll hq).1 (hc.coll hq).2 hq]
        exact fun hx => nomatch hx)
      ix.items.items (fun a ha ids hu id hid => by
        obtain ⟨it, hm, rfl, rfl⟩ := (used_mem hu _).1 hid
        obtain ⟨j, hj⟩ := List.getElem?_of_mem hm
        obtain ⟨_, _, e⟩ := item_id_of_variants ht h hj (used_isSome.1 (by rw [hu]; rfl)).1
        rw [e]
        exact ⟨it, hj, rfl⟩)
    rw [e1, e2]

end Verif
