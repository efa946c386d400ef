import Verif.Spec.Layout
import Verif.Lemmas.Reload
import Verif.Lemmas.Readings
import Verif.Lemmas.Refine

/-! # Helper lemmas: the bytes of an index file -/

namespace Verif

theorem UInt8_ofNat_mod {a b : Nat} (h : a % 256 = b % 256) : UInt8.ofNat a = UInt8.ofNat b := by
  apply UInt8.toNat_inj.1
  simpa using h

theorem writeU8_be (n : Nat) : (writeU8 (UInt8.ofNat n)).bytes = be 1 n := by
  simp only [writeU8, Wr.put, be, List.nil_append, List.cons.injEq, and_true]
  exact UInt8_ofNat_mod (by omega)

theorem writeU16_be (n : Nat) : (writeU16 (UInt16.ofNat n)).bytes = be 2 n := by
  simp only [writeU16, Wr.put, be, List.nil_append, List.cons_append, List.cons.injEq, and_true]
  rw [UInt16.toNat_ofNat']
  exact ⟨UInt8_ofNat_mod (by omega), UInt8_ofNat_mod (by omega)⟩

theorem writeU32_be (n : Nat) : (writeU32 (UInt32.ofNat n)).bytes = be 4 n := by
  simp only [writeU32, Wr.put, be, List.nil_append, List.cons_append, List.cons.injEq, and_true]
  rw [UInt32.toNat_ofNat']
  exact ⟨UInt8_ofNat_mod (by omega), UInt8_ofNat_mod (by omega), UInt8_ofNat_mod (by omega), UInt8_ofNat_mod (by omega)⟩

theorem writeU8_be' (x : UInt8) : (writeU8 x).bytes = be 1 x.toNat := by
  rw [← writeU8_be, UInt8.ofNat_toNat]

theorem writeU32_be' (x : UInt32) : (writeU32 x).bytes = be 4 x.toNat := by
  rw [← writeU32_be, UInt32.ofNat_toNat]

theorem be_split (x : UInt32) : be 4 x.toNat = be 2 (upper16 x).toNat ++ be 2 (lower16 x).toNat := by
  rw [toNat_upper16, toNat_lower16]
  simp only [be, List.nil_append, List.cons_append, List.cons.injEq, and_true]
  exact ⟨UInt8_ofNat_mod (by omega), UInt8_ofNat_mod (by omega), UInt8_ofNat_mod (by omega), UInt8_ofNat_mod (by omega)⟩

theorem Wr.all_bytes {α : Type} (w : α → Wr) (l : List α) (h : ∀ x ∈ l, (w x).err = none) :
    (Wr.all w l).bytes = l.flatMap fun x => (w x).bytes := by
  induction l with
  | nil => rfl
  | cons a l ih =>
    rw [Wr.all, Wr.seq_bytes (h a (by simp)), ih fun x hx => h x (by simp [hx])]
    rfl

theorem be_length (n x : Nat) : (be n x).length = n := by
  induction n generalizing x with
  | zero => rfl
  | succ n ih => simp [be, ih]

/-- The record of an item. -/
def recordOf (it : Item) : NodeRecord where
  parent := it.parent.toNat
  letter := it.letter
  readings := if it.variants = 0 then none else some ((upper16 it.variants).toNat, (lower16 it.variants).toNat)

/-- What the file of an index contains. -/
def contentsOf (ix : Index) : FileContents where
  tags := ix.tags.map fun t => (FileContents.fourBytes t.parent, FileContents.fourBytes t.name)
  sets := ix.tagSets.map fun t => t.map fun s => s.map UInt8.toNat
  combos := ix.collectionIdx.map fun t => t.map fun s =>
    s.map fun id => ((upper16 id).toNat + 1, (lower16 id).toNat)
  nodes := ((ix.items.items.take ix.items.nextID.toNat).drop 1).map recordOf

theorem writeName_four {n : Str} (h : NameOK n) : (writeName n).bytes = FileContents.fourBytes n := by
  unfold writeName marshalName FileContents.fourBytes
  by_cases h0 : n.length = 0 ∨ n = emptyTagName
  · rw [if_pos h0, if_pos]
    · rfl
    · rcases h0 with h0 | h0
      · exact .inl (List.length_eq_zero_iff.1 h0)
      · exact .inr h0
  · rw [if_neg h0, if_neg, if_neg]
    · rfl
    · rintro (rfl | rfl)
      · exact h0 (.inl rfl)
      · exact h0 (.inr rfl)
    · rw [not_not]
      rcases h with rfl | h
      · exact absurd (.inl rfl) h0
      · exact h

theorem writeItem_bytes (it : Item) (k : Nat) (h : it.id.toNat = k) :
    (writeItem it).bytes = (recordOf it).bytes k := by
  unfold writeItem NodeRecord.bytes recordOf
  rw [Wr.seq_bytes rfl, Wr.seq_bytes rfl, Wr.seq_bytes rfl, writeU32_be', writeU32_be', writeU32_be', writeU32_be', h]
  simp only [List.append_assoc]
  congr 3
  by_cases h0 : it.variants = 0
  · rw [if_pos h0, h0]; rfl
  · rw [if_neg h0, be_split]

theorem flatMap_zipIdx {α β : Type} (l : List α) (f : α → List β) (g : α → Nat → List β) (n : Nat)
    (h : ∀ k x, l[k]? = some x → f x = g x (n + k)) : l.flatMap f = (l.zipIdx n).flatMap fun e => g e.1 e.2 := by
  induction l generalizing n with
  | nil => rfl
  | cons a l ih =>
    rw [List.zipIdx_cons, List.flatMap_cons, List.flatMap_cons, h 0 a rfl, ih (n + 1)]
    · rfl
    · intro k x hk
      rw [h (k + 1) x hk]
      congr 1
      omega

theorem writeTagSet_bytes (s : TagSet) :
    (writeTagSet s).bytes = be 1 s.length ++ (s.map UInt8.toNat).flatMap (be 1) := by
  unfold writeTagSet
  rw [Wr.seq_bytes rfl, writeU8_be, Wr.all_bytes _ _ (fun _ _ => rfl), List.flatMap_map]
  simp only [writeU8_be']

theorem writeColl_bytes (s : Coll) :
    (writeColl s).bytes = be 1 s.length ++
      (s.map fun id => ((upper16 id).toNat + 1, (lower16 id).toNat)).flatMap fun e => be 2 (e.1 - 1) ++ be 2 e.2 := by
  unfold writeColl
  rw [Wr.seq_bytes rfl, writeU8_be, Wr.all_bytes _ _ (fun _ _ => rfl), List.flatMap_map]
  simp only [writeU32_be', be_split, Nat.add_sub_cancel]

theorem save_bytes {ix : Index} (hn : ix.NamesOK) (h1 : 1 ≤ ix.items.nextID.toNat)
    (hle : ix.items.nextID.toNat ≤ ix.items.items.length) (h0 : ix.items.items[0]? = some zeroItem)
    (hid : ∀ k it, k < ix.items.nextID.toNat → ix.items.items[k]? = some it → it.id.toNat = k) :
    ix.save.bytes = (contentsOf ix).bytes := by
  have e1 : (Wr.seq (writeStringZ prefixTD) (writeTags ix.tags)).err = none := by
    simp only [Wr.seq_err, writeTags, Wr.all_err, writeTag_err, writeStringZ, writeU8, Wr.put_err]
    exact ⟨trivial, trivial, hn⟩
  have e2 : (Wr.seq (writeStringZ prefixTI) (writeTagSetIndex ix.tagSets)).err = none := by
    rw [Wr.seq_err]; exact ⟨rfl, writeTagSetIndex_err _⟩
  have e3 : (Wr.seq (writeStringZ prefixCD) (writeVariantsIndex ix.collectionIdx)).err = none := by
    rw [Wr.seq_err]; exact ⟨rfl, writeVariantsIndex_err _⟩
  have b1 : (writeTags ix.tags).bytes = be 1 (contentsOf ix).tags.length ++
      (contentsOf ix).tags.flatMap (fun t => t.1 ++ t.2) := by
    unfold writeTags contentsOf
    rw [Wr.seq_bytes rfl, writeU8_be, List.length_map, Wr.all_bytes _ _ (fun t ht => (writeTag_err t).2 (hn t ht)),
      List.flatMap_map]
    congr 1
    apply List.flatMap_congr
    intro t ht
    unfold writeTag
    rw [Wr.seq_bytes ((writeName_err _).2 (hn t ht).1), writeName_four (hn t ht).1, writeName_four (hn t ht).2]
  have b2 : (writeTagSetIndex ix.tagSets).bytes = be 4 (contentsOf ix).sets.length ++
      (contentsOf ix).sets.flatMap (fun t => be 2 t.length ++
        t.flatMap fun s => be 1 s.length ++ s.flatMap (be 1)) := by
    unfold writeTagSetIndex contentsOf
    rw [Wr.seq_bytes rfl, writeU32_be, List.length_map, Wr.all_bytes _ _ (fun t _ => writeTagSetTable_err t),
      List.flatMap_map]
    congr 1
    apply List.flatMap_congr
    intro t _
    unfold writeTagSetTable
    rw [Wr.seq_bytes rfl, writeU16_be, List.length_map, Wr.all_bytes _ _ (fun s _ => writeTagSet_err s), List.flatMap_map]
    simp only [writeTagSet_bytes, List.length_map]
  have b3 : (writeVariantsIndex ix.collectionIdx).bytes = be 1 (contentsOf ix).combos.length ++
      (contentsOf ix).combos.flatMap (fun t => be 4 t.length ++
        t.flatMap fun s => be 1 s.length ++ s.flatMap fun e => be 2 (e.1 - 1) ++ be 2 e.2) := by
    unfold writeVariantsIndex contentsOf
    rw [Wr.seq_bytes rfl, writeU8_be, List.length_map, Wr.all_bytes _ _ (fun t _ => writeVariantsTable_err t),
      List.flatMap_map]
    congr 1
    apply List.flatMap_congr
    intro t _
    unfold writeVariantsTable
    rw [Wr.seq_bytes rfl, writeU32_be, List.length_map, Wr.all_bytes _ _ (fun s _ => writeColl_err s), List.flatMap_map]
    simp only [writeColl_bytes, List.length_map]
  have b4 : (writeItems ix.items).bytes = be 4 ((contentsOf ix).nodes.length + 1) ++
      (be 4 0 ++ be 4 0 ++ be 4 0 ++ be 4 0 ++ ((contentsOf ix).nodes.zipIdx 1).flatMap fun e => e.1.bytes e.2) := by
    have hlen : (contentsOf ix).nodes.length + 1 = ix.items.nextID.toNat := by
      simp only [contentsOf, List.length_map, List.length_drop, List.length_take]
      omega
    obtain ⟨rest, hrest⟩ : ∃ rest, ix.items.items.take ix.items.nextID.toNat = zeroItem :: rest := by
      cases hc : ix.items.items with
      | nil => rw [hc] at h0; cases h0
      | cons a l =>
        rw [hc] at h0
        obtain rfl := Option.some.inj h0
        obtain ⟨m, hm⟩ := Nat.exists_eq_succ_of_ne_zero (show ix.items.nextID.toNat ≠ 0 by omega)
        rw [hm, Nat.succ_eq_add_one, List.take_succ_cons]
        exact ⟨_, rfl⟩
    unfold writeItems
    rw [Wr.seq_bytes rfl, writeU32_be', hlen, Wr.all_bytes _ _ (fun _ _ => rfl)]
    have hnodes : (contentsOf ix).nodes = rest.map recordOf := by
      simp only [contentsOf, hrest, List.drop_succ_cons, List.drop_zero]
    rw [hrest, hnodes, List.flatMap_cons, List.zipIdx_map, List.flatMap_map,
      flatMap_zipIdx rest (fun it => (writeItem it).bytes) (fun it k => (recordOf it).bytes k) 1]
    · rfl
    intro k it hk
    apply writeItem_bytes
    have hk' : (ix.items.items.take ix.items.nextID.toNat)[1 + k]? = some it := by
      rw [hrest, Nat.add_comm, List.getElem?_cons_succ, hk]
    rw [List.getElem?_take] at hk'
    split at hk'
    · exact hid _ _ (by assumption) hk'
    · cases hk'
  unfold Index.save FileContents.bytes
  rw [Wr.seq_bytes e1, Wr.seq_bytes e2, Wr.seq_bytes e3, Wr.seq_bytes rfl, Wr.seq_bytes rfl, Wr.seq_bytes rfl,
    Wr.seq_bytes rfl, b1, b2, b3, b4]
  simp only [writeStringZ, Wr.put, List.append_assoc]
  rfl

theorem Run.save_bytes {h : List Op} {ix : Index} (r : Run h ix) (hs : ix.save.err = none) :
    ix.save.bytes = (contentsOf ix).bytes := by
  have ht := r.trie
  apply Verif.save_bytes ((save_err ix).1 hs)
  · rw [ht.next]; exact ht.length_pos
  · rw [ht.next]; exact ht.cap
  · exact ht.item0
  · intro k it hk hit
    rw [ht.next] at hk
    rcases Nat.eq_zero_or_pos k with rfl | h0
    · rw [ht.item0] at hit
      obtain rfl := Option.some.inj hit
      rfl
    · obtain ⟨it', w, e1, e2, _⟩ := ht.item k h0 hk
      rw [e1] at hit
      obtain rfl := Option.some.inj hit
      exact e2

/-! ## The contents stand for the dictionary -/

theorem mapM_some {α β : Type} (f : α → Option β) (g : α → β) (l : List α) (h : ∀ x ∈ l, f x = some (g x)) :
    l.mapM f = some (l.map g) := by
  induction l with
  | nil => rfl
  | cons a l ih =>
    rw [List.mapM_cons, h a (by simp), ih fun x hx => h x (by simp [hx])]
    rfl

theorem contentsOf_setAt {ix : Index} {p : Nat × Nat} {s : TagSet} (h : gGet ix.tagSets p = some s) :
    (contentsOf ix).setAt (p.1 + 1, p.2) = some (s.map UInt8.toNat) := by
  unfold FileContents.setAt contentsOf
  simp only [Nat.add_sub_cancel]
  unfold gGet at h
  have hl := gGet_col_lt (c := ix.tagSets) (p := p) h
  rw [List.getD_eq_getElem?_getD, List.getElem?_map, List.getElem?_eq_getElem hl]
  rw [List.getD_eq_getElem?_getD, List.getElem?_eq_getElem hl] at h
  simp only [Option.map_some, Option.getD_some] at h ⊢
  rw [List.getElem?_map, h]
  rfl

theorem contentsOf_combo {ix : Index} {p : Nat × Nat} {c : Coll} (h : gGet ix.collectionIdx p = some c) :
    ((contentsOf ix).combos.getD p.1 [])[p.2]? =
      some (c.map fun id => ((upper16 id).toNat + 1, (lower16 id).toNat)) := by
  unfold contentsOf
  simp only
  unfold gGet at h
  have hl := gGet_col_lt (c := ix.collectionIdx) (p := p) h
  rw [List.getD_eq_getElem?_getD, List.getElem?_map, List.getElem?_eq_getElem hl]
  rw [List.getD_eq_getElem?_getD, List.getElem?_eq_getElem hl] at h
  simp only [Option.map_some, Option.getD_some] at h ⊢
  rw [List.getElem?_map, h]
  rfl

theorem contentsOf_node {ix : Index} (k : Nat) :
    (contentsOf ix).nodes[k]? =
      (if k + 1 < ix.items.nextID.toNat then ix.items.items[k + 1]? else none).map recordOf := by
  unfold contentsOf
  simp only
  rw [List.getElem?_map, List.getElem?_drop, Nat.add_comm, List.getElem?_take]

theorem Run.describes {h : List Op} {ix : Index} (r : Run h ix) : (contentsOf ix).Describes (dictOf h) := by
  have ht := r.trie
  have hnl : (contentsOf ix).nodes.length + 1 = (dictOf h).nodes.length := by
    have h1 := ht.next
    have h2 := ht.cap
    have h3 := ht.length_pos
    simp only [contentsOf, List.length_map, List.length_drop, List.length_take]
    omega
  constructor
  · rw [← r.tag.tags]; rfl
  · refine ⟨ht.root, hnl.symm, ?_⟩
    intro k rc hk
    rw [contentsOf_node, ht.next] at hk
    split at hk
    · rename_i hlt
      obtain ⟨it, w, e1, e2, e3, e4, e5⟩ := ht.item (k + 1) (by omega) hlt
      rw [e1] at hk
      obtain rfl := Option.some.inj hk
      exact ⟨by simp only [recordOf]; omega, w, e4, e5⟩
    · cases hk
  · intro k h0 hk hne
    obtain ⟨it, w, e1, e2, e3, e4, e5⟩ := ht.item k h0 hk
    obtain ⟨c, hcoll, hm⟩ := r.tag.vars k it hk e1
    have hsome : ∀ i ∈ c, ∃ names ids p, names ≠ [] ∧ names ∈ (dictOf h).attached k ∧
        TSId (dictOf h).tags ix.tagSets names i ∧ gGet ix.tagSets p = some (sortAsc ids) ∧ i = packTS p ∧
        ix.tagSets.get i = some (sortAsc ids) := by
      intro i hi
      obtain ⟨names, hn, hts⟩ := (hm i).1 hi
      have hmem := mem_attached.2 hn
      have hne' : names ≠ [] := by rintro rfl; exact hne hmem
      obtain ⟨ids, p, _, g1, g2, g3⟩ := hts.get r.caps hne'
      exact ⟨names, ids, p, hne', hmem, hts, g1, g2, g3⟩
    have hget : ∀ i ∈ c, (ix.tagSets.get i).isSome = true := fun i hi => by
      obtain ⟨_, _, _, _, _, _, _, _, hg⟩ := hsome i hi
      rw [hg]; rfl
    have hset : ∀ i ∈ c, (contentsOf ix).setAt ((upper16 i).toNat + 1, (lower16 i).toNat) =
        some (((ix.tagSets.get i).getD []).map UInt8.toNat) := fun i hi => by
      obtain ⟨_, ids, p, _, _, _, g1, rfl, g3⟩ := hsome i hi
      rw [g3]
      have := contentsOf_setAt g1
      have hu : ((upper16 (packTS p)).toNat, (lower16 (packTS p)).toNat) = p := unpackTS_packTS (r.caps.set g1).1 (r.caps.set g1).2
      rw [Prod.ext_iff] at hu
      simp only at hu
      rw [hu.1, hu.2]
      exact this
    have hex : ExactReadings (dictOf h).tags ((dictOf h).attached k) (c.map (entryOf ix)) := by
      rw [← tagSetsLoop_map hget]
      refine exactReadings_coll r.refines.1 r.caps r.refines.2.tags ?_ hne
        (fun names hna => (r.tag.readings _ names (mem_attached.1 hna)).2.2) ?_
      · rcases hcoll with ⟨_, rfl⟩ | ⟨p, hp, _⟩
        · exact List.nodup_nil
        · exact r.tag.collNodup p c hp
      · intro i
        rw [hm i]
        simp only [mem_attached]
    refine ⟨c.map fun i => ((ix.tagSets.get i).getD []).map UInt8.toNat, c.map (entryOf ix), ?_, ?_, hex⟩
    · unfold FileContents.readingsOf
      rw [contentsOf_node, Nat.sub_add_cancel h0, ht.next, if_pos hk, e1]
      simp only [Option.map_some, recordOf]
      rcases hcoll with ⟨hz, rfl⟩ | ⟨p, hp, hv⟩
      · rw [if_pos hz]; rfl
      · have hb := r.caps.coll hp
        rw [if_neg (by rw [hv]; exact packV_ne_zero hb.1), hv]
        simp only [packV, upper16_combine16, lower16_combine16, toNat_ofNat16 (show p.1 + 1 < 65536 by omega),
          toNat_ofNat16 hb.2, Nat.add_sub_cancel]
        rw [contentsOf_combo hp, Option.bind_some]
        rw [List.mapM_map]
        exact mapM_some _ _ c hset
    · unfold FileContents.Resolve
      rw [List.mapM_map]
      apply mapM_some
      intro i hi
      obtain ⟨names, ids, p, hne', _, hts, g1, _, g3⟩ := hsome i hi
      simp only [Function.comp, entryOf, g3, Option.getD_some]
      rw [List.mapM_map]
      apply mapM_some
      intro t ht'
      have hlt := r.tag.setIds p _ g1 t ht'
      simp only [Function.comp, tagOf, r.tag.tags, tagsGet_eq]
      rw [List.getElem?_eq_getElem hlt]
      rfl

/-! ## Size -/

theorem flatMap_length_const {α β : Type} (f : α → List β) (n : Nat) (l : List α) (h : ∀ x ∈ l, (f x).length = n) :
    (l.flatMap f).length = n * l.length := by
  induction l with
  | nil => simp
  | cons a l ih =>
    rw [List.flatMap_cons, List.length_append, h a (by simp), ih fun x hx => h x (by simp [hx]), List.length_cons,
      Nat.mul_succ]
    omega

theorem flatMap_length_sum {α β : Type} (f : α → List β) (g : α → Nat) (l : List α) (h : ∀ x ∈ l, (f x).length = g x) :
    (l.flatMap f).length = (l.map g).sum := by
  induction l with
  | nil => rfl
  | cons a l ih =>
    rw [List.flatMap_cons, List.length_append, h a (by simp), ih fun x hx => h x (by simp [hx]), List.map_cons,
      List.sum_cons]

theorem NodeRecord.bytes_length (r : NodeRecord) (k : Nat) : (r.bytes k).length = 16 := by
  unfold NodeRecord.bytes
  simp only [List.length_append, be_length]
  cases r.readings with
  | none => simp [be_length]
  | some e => simp [be_length]

theorem FileContents.bytes_length (c : FileContents) (ht : ∀ t ∈ c.tags, t.1.length = 4 ∧ t.2.length = 4) :
    c.bytes.length = 38 + 8 * c.tags.length +
      (c.sets.map fun t => 2 + (t.map fun s => 1 + s.length).sum).sum +
      (c.combos.map fun t => 4 + (t.map fun s => 1 + 4 * s.length).sum).sum + 16 * c.nodes.length := by
  unfold FileContents.bytes
  simp only [List.length_append, be_length]
  rw [flatMap_length_const _ 8 c.tags (fun t h => by rw [List.length_append, (ht t h).1, (ht t h).2]),
    flatMap_length_sum _ (fun t => 2 + (t.map fun s => 1 + s.length).sum) c.sets, 
    flatMap_length_sum _ (fun t => 4 + (t.map fun s => 1 + 4 * s.length).sum) c.combos,
    flatMap_length_const _ 16 (c.nodes.zipIdx 1) (fun e _ => NodeRecord.bytes_length _ _), List.length_zipIdx]
  · have h1 : (str "TD").length = 2 := by decide
    have h2 : (str "TI").length = 2 := by decide
    have h3 : (str "CD").length = 2 := by decide
    have h4 : (str "ID").length = 2 := by decide
    rw [h1, h2, h3, h4]
    simp only [List.length_cons, List.length_nil]
    omega
  · intro t _
    rw [List.length_append, be_length, flatMap_length_sum _ (fun s => 1 + 4 * s.length)]
    intro s _
    rw [List.length_append, be_length, flatMap_length_const _ 4]
    intro e _
    rw [List.length_append, be_length, be_length]
  · intro t _
    rw [List.length_append, be_length, flatMap_length_sum _ (fun s => 1 + s.length)]
    intro s _
    rw [List.length_append, be_length, flatMap_length_const _ 1, Nat.one_mul]
    intro e _
    exact be_length 1 e

theorem fourBytes_length {n : Str} (h : NameOK n) : (FileContents.fourBytes n).length = 4 := by
  unfold FileContents.fourBytes
  split
  · decide
  · rename_i hx
    rcases h with rfl | h
    · exact absurd (.inl rfl) hx
    · exact h

/-! ## What additions and lookups leave alone -/

theorem addLoop_sections (rs : List Rune) (o : ID) (ix : Index) (p : ID) :
    (ix.addLoop o p rs).1.tags = ix.tags ∧ (ix.addLoop o p rs).1.tagSets = ix.tagSets ∧
      (ix.addLoop o p rs).1.collectionIdx = ix.collectionIdx := by
  have step : ∀ (ix : Index) p r ix' c, ix.addStep p r = some (ix', c) →
      ix'.tags = ix.tags ∧ ix'.tagSets = ix.tagSets ∧ ix'.collectionIdx = ix.collectionIdx := by
    intro ix p r ix' c e
    unfold Index.addStep at e
    simp only at e
    split at e
    · obtain ⟨rfl, _⟩ := Prod.mk.inj (Option.some.inj e); exact ⟨rfl, rfl, rfl⟩
    · split at e
      · cases e
      · obtain ⟨rfl, _⟩ := Prod.mk.inj (Option.some.inj e); exact ⟨rfl, rfl, rfl⟩
  induction rs generalizing ix p with
  | nil => exact ⟨rfl, rfl, rfl⟩
  | cons a rest ih =>
    unfold Index.addLoop
    split
    · exact ⟨rfl, rfl, rfl⟩
    · split
      · exact ⟨rfl, rfl, rfl⟩
      · rename_i ix1 next he
        obtain ⟨a1, a2, a3⟩ := step _ _ _ _ _ he
        split
        · exact ⟨a1, a2, a3⟩
        · obtain ⟨b1, b2, b3⟩ := ih ix1 next
          exact ⟨b1.trans a1, b2.trans a2, b3.trans a3⟩

theorem save_obs {ix ix' : Index} (h : Index.Obs ix ix') : ix'.save = ix.save := by
  unfold Index.save
  rw [h.tags, h.tagSets, h.collectionIdx, h.items]

end Verif
