import Verif.Lemmas.Codec
import Verif.Spec.Format

/-! # Helper lemmas: the index file -/

namespace Verif

theorem marshalName_ok {n : Str} (h : NameOK n) :
    ∃ b, marshalName n = .ok b ∧ b.length = 4 ∧ unmarshalName b = .ok (storedName n) := by
  unfold marshalName
  by_cases h0 : n.length = 0 ∨ n = emptyTagName
  · rw [if_pos h0]
    refine ⟨_, rfl, rfl, ?_⟩
    rcases h0 with h0 | rfl
    · obtain rfl := List.length_eq_zero_iff.1 h0
      rfl
    · rfl
  · rw [if_neg h0]
    rw [not_or] at h0
    have h4 : n.length = 4 := by
      rcases h with rfl | h
      · exact absurd rfl h0.1
      · exact h
    rw [if_neg (by simpa using h4)]
    refine ⟨n, rfl, h4, ?_⟩
    unfold unmarshalName storedName
    rw [if_neg (by simpa using h4)]
    by_cases hs : n = [0x20, 0x20, 0x20, 0x20]
    · rw [if_pos hs, if_pos (.inr hs)]
    · rw [if_neg hs, if_neg]
      rintro (rfl | h')
      · exact h0.1 rfl
      · exact hs h'

theorem marshalName_err {n : Str} (h : ¬ NameOK n) : marshalName n = .err (.marshal n) := by
  unfold NameOK at h
  rw [not_or] at h
  unfold marshalName
  rw [if_neg, if_pos h.2]
  rintro (h0 | rfl)
  · exact h.1 (List.length_eq_zero_iff.1 h0)
  · exact h.2 rfl

theorem writeName_err (n : Str) : (writeName n).err = none ↔ NameOK n := by
  constructor
  · intro h
    by_contra hn
    unfold writeName at h
    rw [marshalName_err hn] at h
    cases h
  · intro h
    obtain ⟨b, hb, _⟩ := marshalName_ok h
    unfold writeName
    rw [hb]
    rfl

theorem RT_name {n : Str} (h : NameOK n) : RT readName (writeName n).bytes (storedName n) := by
  obtain ⟨b, hb, h4, hu⟩ := marshalName_ok h
  have hw : (writeName n).bytes = b := by unfold writeName; rw [hb]; rfl
  rw [hw]
  intro t
  unfold readName Rd.bind
  rw [RT_bytes h4]
  simp only [Out.bind]
  rw [hu]

theorem unmarshalName_noCrash (b : Str) :
    (∃ n, unmarshalName b = .ok n) ∨ ∃ e, unmarshalName b = .err e := by
  unfold unmarshalName
  split
  · exact .inr ⟨_, rfl⟩
  · split <;> exact .inl ⟨_, rfl⟩

theorem Framed_name : Framed readName := by
  refine (Framed_bytes 4).bind fun b => ?_
  intro s a s' h
  rcases unmarshalName_noCrash b with ⟨n, hn⟩ | ⟨e, he⟩
  · rw [hn] at h
    obtain ⟨rfl, rfl⟩ := Prod.mk.inj (Out.ok.inj h)
    refine ⟨[], rfl, fun t => ?_⟩
    simp only [List.nil_append]
    rw [hn]
    rfl
  · rw [he] at h; cases h

theorem NoCrash_name : NoCrash readName := by
  refine (NoCrash_bytes 4).bind fun b s => ?_
  rcases unmarshalName_noCrash b with ⟨n, hn⟩ | ⟨e, he⟩
  · rw [hn]; exact .inl ⟨_, rfl⟩
  · rw [he]; exact .inr ⟨_, rfl⟩

theorem writeTag_err (t : Tag) : (writeTag t).err = none ↔ NameOK t.parent ∧ NameOK t.name := by
  unfold writeTag
  rw [Wr.seq_err, writeName_err, writeName_err]

theorem RT_tag {t : Tag} (h : NameOK t.parent ∧ NameOK t.name) :
    RT readTag (writeTag t).bytes (storedTag t) := by
  unfold writeTag readTag
  rw [Wr.seq_bytes ((writeName_err _).2 h.1)]
  refine (RT_name h.1).bind ?_
  have := (RT_name h.2).bind (f := fun name => Rd.pure ({ parent := storedName t.parent, name := name } : Tag))
    (w2 := []) (RT.pure _)
  rwa [List.append_nil] at this

theorem RT_tags {l : List Tag} (hl : l.length ≤ 255)
    (h : ∀ t ∈ l, NameOK t.parent ∧ NameOK t.name) :
    RT readTags (writeTags l).bytes (l.map storedTag) :=
  RT_counted (RT_U8 _) rfl (by rw [UInt8.toNat_ofNat']; omega)
    (fun t ht => (writeTag_err t).2 (h t ht)) (fun t ht => RT_tag (h t ht))

theorem RT_tagSet {s : TagSet} (h : s.length ≤ 255) : RT readTagSet (writeTagSet s).bytes s := by
  have := RT_counted (toNat := UInt8.toNat) (f := id) (w := writeU8) (l := s)
    (RT_U8 (UInt8.ofNat s.length)) rfl
    (by rw [UInt8.toNat_ofNat']; omega) (fun _ _ => rfl) (fun x _ => RT_U8 x)
  rwa [List.map_id] at this

theorem RT_tagSetTable {t : TagSetTable} (h : t.length ≤ 65535) (hs : ∀ s ∈ t, s.length ≤ 255) :
    RT readTagSetTable (writeTagSetTable t).bytes t := by
  have := RT_counted (toNat := UInt16.toNat) (f := id) (w := writeTagSet) (l := t)
    (RT_U16 (UInt16.ofNat t.length)) rfl
    (by rw [UInt16.toNat_ofNat']; omega)
    (fun s _ => by rw [writeTagSet, Wr.seq_err, Wr.all_err]; exact ⟨rfl, fun _ _ => rfl⟩)
    (fun s h => RT_tagSet (hs s h))
  rwa [List.map_id] at this

theorem writeTagSet_err (s : TagSet) : (writeTagSet s).err = none := by
  rw [writeTagSet, Wr.seq_err, Wr.all_err]; exact ⟨rfl, fun _ _ => rfl⟩

theorem writeTagSetTable_err (s : TagSetTable) : (writeTagSetTable s).err = none := by
  rw [writeTagSetTable, Wr.seq_err, Wr.all_err]; exact ⟨rfl, fun s _ => writeTagSet_err s⟩

theorem writeTagSetIndex_err (s : TagSetIndex) : (writeTagSetIndex s).err = none := by
  rw [writeTagSetIndex, Wr.seq_err, Wr.all_err]; exact ⟨rfl, fun s _ => writeTagSetTable_err s⟩

theorem RT_tagSetIndex {x : TagSetIndex} (hl : x.length < 4294967296) (h : ∀ t ∈ x, t.length ≤ 65535)
    (hs : ∀ t ∈ x, ∀ s ∈ t, s.length ≤ 255) : RT readTagSetIndex (writeTagSetIndex x).bytes x := by
  have := RT_counted (toNat := UInt32.toNat) (f := id) (w := writeTagSetTable) (l := x)
    (RT_U32 (UInt32.ofNat x.length)) rfl
    (by rw [UInt32.toNat_ofNat']; omega)
    (fun s _ => writeTagSetTable_err s)
    (fun t ht => RT_tagSetTable (h t ht) (hs t ht))
  rwa [List.map_id] at this

theorem writeColl_err (s : Coll) : (writeColl s).err = none := by
  rw [writeColl, Wr.seq_err, Wr.all_err]; exact ⟨rfl, fun _ _ => rfl⟩

theorem writeVariantsTable_err (s : VariantsTable) : (writeVariantsTable s).err = none := by
  rw [writeVariantsTable, Wr.seq_err, Wr.all_err]; exact ⟨rfl, fun s _ => writeColl_err s⟩

theorem writeVariantsIndex_err (s : VariantsIndex) : (writeVariantsIndex s).err = none := by
  rw [writeVariantsIndex, Wr.seq_err, Wr.all_err]; exact ⟨rfl, fun s _ => writeVariantsTable_err s⟩

theorem RT_coll {s : Coll} (h : s.length ≤ 255) : RT readColl (writeColl s).bytes s := by
  have := RT_counted (toNat := UInt8.toNat) (f := id) (w := writeU32) (l := s)
    (RT_U8 (UInt8.ofNat s.length)) rfl
    (by rw [UInt8.toNat_ofNat']; omega) (fun _ _ => rfl) (fun x _ => RT_U32 x)
  rwa [List.map_id] at this

theorem RT_variantsTable {t : VariantsTable} (h : t.length < 4294967296)
    (hs : ∀ s ∈ t, s.length ≤ 255) :
    RT readVariantsTable (writeVariantsTable t).bytes t := by
  have := RT_counted (toNat := UInt32.toNat) (f := id) (w := writeColl) (l := t)
    (RT_U32 (UInt32.ofNat t.length)) rfl
    (by rw [UInt32.toNat_ofNat']; omega)
    (fun s _ => writeColl_err s)
    (fun s h => RT_coll (hs s h))
  rwa [List.map_id] at this

theorem RT_variantsIndex {x : VariantsIndex} (hl : x.length ≤ 255)
    (h : ∀ t ∈ x, t.length < 4294967296) (hs : ∀ t ∈ x, ∀ s ∈ t, s.length ≤ 255) :
    RT readVariantsIndex (writeVariantsIndex x).bytes x := by
  have := RT_counted (toNat := UInt8.toNat) (f := id) (w := writeVariantsTable) (l := x)
    (RT_U8 (UInt8.ofNat x.length)) rfl
    (by rw [UInt8.toNat_ofNat']; omega)
    (fun s _ => writeVariantsTable_err s)
    (fun t ht => RT_variantsTable (h t ht) (hs t ht))
  rwa [List.map_id] at this

theorem RT_item (i : Item) : RT readItem (writeItem i).bytes i := by
  unfold readItem writeItem
  rw [Wr.seq_bytes rfl, Wr.seq_bytes rfl, Wr.seq_bytes rfl]
  refine (RT_U32 _).bind ((RT_U32 _).bind ((RT_U32 _).bind ?_))
  have := (RT_U32 i.variants).bind (f := fun v => Rd.pure
    ({ parent := i.parent, id := i.id, letter := i.letter.toUInt32.toInt32, variants := v } : Item))
    (w2 := []) (RT.pure _)
  rwa [List.append_nil] at this

theorem writeItem_err (i : Item) : (writeItem i).err = none := rfl

theorem writeItems_err (i : Items) : (writeItems i).err = none := by
  rw [writeItems, Wr.seq_err, Wr.all_err]; exact ⟨rfl, fun s _ => writeItem_err s⟩

/-- What comes back for the node storage: the used slots. -/
def Items.trim (i : Items) : Items := { items := i.items.take i.nextID.toNat, nextID := i.nextID }

theorem RT_items {i : Items} (h : i.nextID.toNat ≤ i.items.length) :
    RT readItems (writeItems i).bytes i.trim := by
  unfold readItems writeItems
  rw [Wr.seq_bytes rfl]
  refine (RT_U32 _).bind ?_
  have h1 := RT_all (r := readItem) (w := writeItem) (f := id) (i.items.take i.nextID.toNat)
    (fun _ _ => rfl) (fun x _ => RT_item x)
  rw [List.map_id, List.length_take, Nat.min_eq_left h] at h1
  have := h1.bind (f := fun items => Rd.pure ({ items := items, nextID := i.nextID } : Items))
    (w2 := []) (RT.pure _)
  rwa [List.append_nil] at this

theorem RT_section {α : Type} {pfx : Str} {r : Rd α} {w : Wr} {a : α} (hp : (0 : UInt8) ∉ pfx)
    (h : RT r w.bytes a) :
    RT (readSection pfx r) (Wr.seq (writeStringZ pfx) w).bytes a := by
  unfold readSection
  rw [Wr.seq_bytes rfl]
  refine (RT_stringZ hp).bind ?_
  rw [if_neg (by simp)]
  exact h

theorem Framed_section {α : Type} {pfx : Str} {r : Rd α} (h : Framed r) :
    Framed (readSection pfx r) := by
  unfold readSection
  refine Framed_stringZ.bind fun s => ?_
  split
  · exact Framed.fail _
  · exact h

theorem NoCrash_section {α : Type} {pfx : Str} {r : Rd α} (h : NoCrash r) :
    NoCrash (readSection pfx r) := by
  unfold readSection
  refine readStringZ_noCrash.bind fun s => ?_
  split
  · exact fun _ => .inr ⟨_, rfl⟩
  · exact h

theorem Framed_tag : Framed readTag :=
  Framed_name.bind fun _ => Framed_name.bind fun _ => Framed.pure _
theorem NoCrash_tag : NoCrash readTag :=
  NoCrash_name.bind fun _ => NoCrash_name.bind fun _ => NoCrash.pure _
theorem Framed_tags : Framed readTags := Framed_U8.bind fun _ => Framed_tag.readN _
theorem NoCrash_tags : NoCrash readTags := NoCrash_U8.bind fun _ => NoCrash_tag.readN _
theorem Framed_tagSet : Framed readTagSet := Framed_U8.bind fun _ => Framed_U8.readN _
theorem NoCrash_tagSet : NoCrash readTagSet := NoCrash_U8.bind fun _ => NoCrash_U8.readN _
theorem Framed_tagSetTable : Framed readTagSetTable := Framed_U16.bind fun _ => Framed_tagSet.readN _
theorem NoCrash_tagSetTable : NoCrash readTagSetTable :=
  NoCrash_U16.bind fun _ => NoCrash_tagSet.readN _
theorem Framed_tagSetIndex : Framed readTagSetIndex :=
  Framed_U32.bind fun _ => Framed_tagSetTable.readN _
theorem NoCrash_tagSetIndex : NoCrash readTagSetIndex :=
  NoCrash_U32.bind fun _ => NoCrash_tagSetTable.readN _
theorem Framed_coll : Framed readColl := Framed_U8.bind fun _ => Framed_U32.readN _
theorem NoCrash_coll : NoCrash readColl := NoCrash_U8.bind fun _ => NoCrash_U32.readN _
theorem Framed_variantsTable : Framed readVariantsTable :=
  Framed_U32.bind fun _ => Framed_coll.readN _
theorem NoCrash_variantsTable : NoCrash readVariantsTable :=
  NoCrash_U32.bind fun _ => NoCrash_coll.readN _
theorem Framed_variantsIndex : Framed readVariantsIndex :=
  Framed_U8.bind fun _ => Framed_variantsTable.readN _
theorem NoCrash_variantsIndex : NoCrash readVariantsIndex :=
  NoCrash_U8.bind fun _ => NoCrash_variantsTable.readN _
theorem Framed_item : Framed readItem :=
  Framed_U32.bind fun _ => Framed_U32.bind fun _ => Framed_U32.bind fun _ => Framed_U32.bind fun _ =>
    Framed.pure _
theorem NoCrash_item : NoCrash readItem :=
  NoCrash_U32.bind fun _ => NoCrash_U32.bind fun _ => NoCrash_U32.bind fun _ =>
    NoCrash_U32.bind fun _ => NoCrash.pure _
theorem Framed_items : Framed readItems :=
  Framed_U32.bind fun _ => (Framed_item.readN _).bind fun _ => Framed.pure _
theorem NoCrash_items : NoCrash readItems :=
  NoCrash_U32.bind fun _ => (NoCrash_item.readN _).bind fun _ => NoCrash.pure _

theorem Framed_load (ix : Index) : Framed ix.load :=
  (Framed_section Framed_tags).bind fun _ => (Framed_section Framed_tagSetIndex).bind fun _ =>
    (Framed_section Framed_variantsIndex).bind fun _ => (Framed_section Framed_items).bind fun _ =>
      Framed.pure _
theorem NoCrash_load (ix : Index) : NoCrash ix.load :=
  (NoCrash_section NoCrash_tags).bind fun _ => (NoCrash_section NoCrash_tagSetIndex).bind fun _ =>
    (NoCrash_section NoCrash_variantsIndex).bind fun _ => (NoCrash_section NoCrash_items).bind fun _ =>
      NoCrash.pure _

/-- The index built by loading the file of `ix` into `into`. -/
def Index.loaded (into ix : Index) : Index :=
  Index.rebuildChildren { into with
    tags := ix.tags.map storedTag, tagSets := ix.tagSets, collectionIdx := ix.collectionIdx,
    items := ix.items.trim }

theorem save_err (ix : Index) : ix.save.err = none ↔ ix.NamesOK := by
  simp only [Index.save, Wr.seq_err, writeTags, Wr.all_err, writeTag_err, writeTagSetIndex_err,
    writeVariantsIndex_err, writeItems_err, writeStringZ, writeU8, Wr.put_err, Index.NamesOK]
  simp

theorem RT_load (into : Index) {ix : Index} (hl : ix.InLimits) (hn : ix.NamesOK) :
    RT into.load ix.save.bytes (Index.loaded into ix) := by
  have e1 : (Wr.seq (writeStringZ prefixTD) (writeTags ix.tags)).err = none := by
    simp only [Wr.seq_err, writeTags, Wr.all_err, writeTag_err, writeStringZ, writeU8, Wr.put_err]
    exact ⟨trivial, trivial, hn⟩
  have e2 : (Wr.seq (writeStringZ prefixTI) (writeTagSetIndex ix.tagSets)).err = none := by
    rw [Wr.seq_err]; exact ⟨rfl, writeTagSetIndex_err _⟩
  have e3 : (Wr.seq (writeStringZ prefixCD) (writeVariantsIndex ix.collectionIdx)).err = none := by
    rw [Wr.seq_err]; exact ⟨rfl, writeVariantsIndex_err _⟩
  unfold Index.load Index.save
  rw [Wr.seq_bytes e1, Wr.seq_bytes e2, Wr.seq_bytes e3]
  refine (RT_section (by decide) (RT_tags hl.tags hn)).bind ?_
  refine (RT_section (by decide) (RT_tagSetIndex hl.setTables hl.sets hl.setLen)).bind ?_
  refine (RT_section (by decide) (RT_variantsIndex hl.collTables hl.colls hl.collLen)).bind ?_
  have := (RT_section (pfx := prefixID) (by decide) (RT_items hl.items)).bind
    (f := fun items => Rd.pure (Index.rebuildChildren { into with
      tags := ix.tags.map storedTag, tagSets := ix.tagSets, collectionIdx := ix.collectionIdx,
      items := items })) (w2 := []) (RT.pure _)
  rwa [List.append_nil] at this

end Verif
