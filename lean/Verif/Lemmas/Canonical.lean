import Verif.Lemmas.FileFormat

/-! # Helper lemmas: what a reader accepted is what the writer writes -/

namespace Verif

/-- Whatever `r` accepts, the value read is written as the bytes consumed. -/
def Canon {α : Type} (r : Rd α) (w : α → Wr) : Prop :=
  ∀ s a s', r s = .ok (a, s') → (w a).err = none ∧ s = (w a).bytes ++ s'

theorem Rd.bind_ok {α β : Type} {r : Rd α} {f : α → Rd β} {s s' : Str} {b : β} (h : Rd.bind r f s = .ok (b, s')) :
    ∃ a t, r s = .ok (a, t) ∧ f a t = .ok (b, s') := by
  unfold Rd.bind at h
  cases hr : r s with
  | ok x => rw [hr] at h; exact ⟨x.1, x.2, rfl, h⟩
  | err e => rw [hr] at h; cases h
  | panic => rw [hr] at h; cases h
  | diverge => rw [hr] at h; cases h

theorem Canon_U8 : Canon readU8 writeU8 := by
  intro s a s' h
  cases s with
  | nil => cases h
  | cons b s =>
    obtain ⟨rfl, rfl⟩ := Prod.mk.inj (Out.ok.inj h)
    exact ⟨rfl, rfl⟩

theorem u8_ofNat_of {b : UInt8} {n : Nat} (h : n = b.toNat) : UInt8.ofNat n = b := by
  subst h; exact UInt8.ofNat_toNat

theorem Canon_U16 : Canon readU16 writeU16 := by
  intro s a s' h
  match s with
  | [] => cases h
  | [_] => cases h
  | b :: c :: s =>
    obtain ⟨rfl, rfl⟩ := Prod.mk.inj (Out.ok.inj h)
    refine ⟨rfl, ?_⟩
    have hb := b.toNat_lt
    have hc := c.toNat_lt
    simp only [writeU16, Wr.put, UInt16.toNat_ofNat', List.cons_append, List.nil_append]
    rw [u8_ofNat_of (b := b) (by omega), u8_ofNat_of (b := c) (by omega)]

theorem Canon_U32 : Canon readU32 writeU32 := by
  intro s a s' h
  match s with
  | [] => cases h
  | [_] => cases h
  | [_, _] => cases h
  | [_, _, _] => cases h
  | b :: c :: d :: e :: s =>
    obtain ⟨rfl, rfl⟩ := Prod.mk.inj (Out.ok.inj h)
    refine ⟨rfl, ?_⟩
    have hb := b.toNat_lt
    have hc := c.toNat_lt
    have hd := d.toNat_lt
    have he := e.toNat_lt
    simp only [writeU32, Wr.put, UInt32.toNat_ofNat', List.cons_append, List.nil_append]
    rw [u8_ofNat_of (b := b) (by omega), u8_ofNat_of (b := c) (by omega), u8_ofNat_of (b := d) (by omega),
      u8_ofNat_of (b := e) (by omega)]

theorem readN_len {α : Type} (r : Rd α) : ∀ (n : Nat) (s : Str) (as : List α) (s' : Str),
    readN r n s = .ok (as, s') → as.length = n
  | 0, s, as, s', h => by
    obtain ⟨rfl, rfl⟩ := Prod.mk.inj (Out.ok.inj h)
    rfl
  | n + 1, s, as, s', h => by
    obtain ⟨a, t, h1, h2⟩ := Rd.bind_ok h
    obtain ⟨bs, t', h3, h4⟩ := Rd.bind_ok h2
    obtain ⟨rfl, rfl⟩ := Prod.mk.inj (Out.ok.inj h4)
    rw [List.length_cons, readN_len r n _ _ _ h3]

theorem Canon.readN {α : Type} {r : Rd α} {w : α → Wr} (hr : Canon r w) : ∀ n, Canon (readN r n) (Wr.all w)
  | 0, s, as, s', h => by
    obtain ⟨rfl, rfl⟩ := Prod.mk.inj (Out.ok.inj h)
    exact ⟨rfl, rfl⟩
  | n + 1, s, as, s', h => by
    obtain ⟨a, t, h1, h2⟩ := Rd.bind_ok h
    obtain ⟨bs, t', h3, h4⟩ := Rd.bind_ok h2
    obtain ⟨rfl, rfl⟩ := Prod.mk.inj (Out.ok.inj h4)
    obtain ⟨e1, rfl⟩ := hr _ _ _ h1
    obtain ⟨e2, rfl⟩ := hr.readN n _ _ _ h3
    show (Wr.seq (w a) (Wr.all w bs)).err = none ∧ _ = (Wr.seq (w a) (Wr.all w bs)).bytes ++ _
    rw [Wr.seq_err, Wr.seq_bytes e1, List.append_assoc]
    exact ⟨⟨e1, e2⟩, rfl⟩

/-- A counted list. -/
theorem Canon.counted {α κ : Type} {rc : Rd κ} {wc : κ → Wr} {toNat : κ → Nat} {ofNat : Nat → κ} {r : Rd α} {w : α → Wr}
    (hc : Canon rc wc) (hk : ∀ k, ofNat (toNat k) = k) (hr : Canon r w) :
    Canon (Rd.bind rc fun n => Verif.readN r (toNat n)) (fun l => Wr.seq (wc (ofNat l.length)) (Wr.all w l)) := by
  intro s a s' h
  obtain ⟨k, t, h1, h2⟩ := Rd.bind_ok h
  have hlen := readN_len r _ _ _ _ h2
  obtain ⟨e1, rfl⟩ := hc _ _ _ h1
  obtain ⟨e2, rfl⟩ := hr.readN _ _ _ _ h2
  show (Wr.seq (wc (ofNat a.length)) (Wr.all w a)).err = none ∧
    (wc k).bytes ++ ((Wr.all w a).bytes ++ s') = (Wr.seq (wc (ofNat a.length)) (Wr.all w a)).bytes ++ s'
  rw [hlen, hk, Wr.seq_err, Wr.seq_bytes e1, List.append_assoc]
  exact ⟨⟨e1, e2⟩, rfl⟩

theorem Canon_tagSet : Canon readTagSet writeTagSet :=
  Canon_U8.counted (toNat := UInt8.toNat) (ofNat := UInt8.ofNat) (fun _ => UInt8.ofNat_toNat) Canon_U8
theorem Canon_tagSetTable : Canon readTagSetTable writeTagSetTable :=
  Canon_U16.counted (toNat := UInt16.toNat) (ofNat := UInt16.ofNat) (fun _ => UInt16.ofNat_toNat) Canon_tagSet
theorem Canon_tagSetIndex : Canon readTagSetIndex writeTagSetIndex :=
  Canon_U32.counted (toNat := UInt32.toNat) (ofNat := UInt32.ofNat) (fun _ => UInt32.ofNat_toNat) Canon_tagSetTable
theorem Canon_coll : Canon readColl writeColl :=
  Canon_U8.counted (toNat := UInt8.toNat) (ofNat := UInt8.ofNat) (fun _ => UInt8.ofNat_toNat) Canon_U32
theorem Canon_variantsTable : Canon readVariantsTable writeVariantsTable :=
  Canon_U32.counted (toNat := UInt32.toNat) (ofNat := UInt32.ofNat) (fun _ => UInt32.ofNat_toNat) Canon_coll
theorem Canon_variantsIndex : Canon readVariantsIndex writeVariantsIndex :=
  Canon_U8.counted (toNat := UInt8.toNat) (ofNat := UInt8.ofNat) (fun _ => UInt8.ofNat_toNat) Canon_variantsTable

theorem Canon_item : Canon readItem writeItem := by
  intro s a s' h
  obtain ⟨p, t1, h1, h⟩ := Rd.bind_ok h
  obtain ⟨i, t2, h2, h⟩ := Rd.bind_ok h
  obtain ⟨l, t3, h3, h⟩ := Rd.bind_ok h
  obtain ⟨v, t4, h4, h⟩ := Rd.bind_ok h
  obtain ⟨rfl, rfl⟩ := Prod.mk.inj (Out.ok.inj h)
  obtain ⟨-, rfl⟩ := Canon_U32 _ _ _ h1
  obtain ⟨-, rfl⟩ := Canon_U32 _ _ _ h2
  obtain ⟨-, rfl⟩ := Canon_U32 _ _ _ h3
  obtain ⟨-, rfl⟩ := Canon_U32 _ _ _ h4
  refine ⟨rfl, ?_⟩
  unfold writeItem
  rw [Wr.seq_bytes rfl, Wr.seq_bytes rfl, Wr.seq_bytes rfl]
  simp

theorem Canon_items : Canon readItems writeItems := by
  intro s a s' h
  obtain ⟨n, t1, h1, h⟩ := Rd.bind_ok h
  obtain ⟨l, t2, h2, h⟩ := Rd.bind_ok h
  obtain ⟨rfl, rfl⟩ := Prod.mk.inj (Out.ok.inj h)
  have hlen := readN_len _ _ _ _ _ h2
  obtain ⟨-, rfl⟩ := Canon_U32 _ _ _ h1
  obtain ⟨-, rfl⟩ := Canon_item.readN _ _ _ _ h2
  refine ⟨writeItems_err _, ?_⟩
  unfold writeItems
  rw [Wr.seq_bytes rfl, ← hlen, List.take_length, List.append_assoc]

theorem readItems_len {s : Str} {a : Items} {s' : Str} (h : readItems s = .ok (a, s')) :
    a.items.length = a.nextID.toNat := by
  obtain ⟨n, t1, h1, h⟩ := Rd.bind_ok h
  obtain ⟨l, t2, h2, h⟩ := Rd.bind_ok h
  obtain ⟨rfl, rfl⟩ := Prod.mk.inj (Out.ok.inj h)
  exact readN_len _ _ _ _ _ h2

theorem readStringZ_ok : ∀ {s t s' : Str}, readStringZ s = .ok (t, s') → s = t ++ 0 :: s'
  | [], t, s', h => by cases h
  | b :: s, t, s', h => by
    unfold readStringZ at h
    split at h
    · rename_i hb
      subst hb
      obtain ⟨rfl, rfl⟩ := Prod.mk.inj (Out.ok.inj h)
      rfl
    · rcases readStringZ_noCrash s with ⟨⟨u, s1⟩, hx⟩ | ⟨e, he⟩
      · rw [hx] at h
        obtain ⟨rfl, rfl⟩ := Prod.mk.inj (Out.ok.inj h)
        rw [readStringZ_ok hx]
        rfl
      · rw [he] at h; cases h

theorem section_ok {α : Type} {pfx : Str} {r : Rd α} {s s' : Str} {a : α}
    (h : readSection pfx r s = .ok (a, s')) : ∃ t, s = pfx ++ 0 :: t ∧ r t = .ok (a, s') := by
  obtain ⟨p, t, h1, h2⟩ := Rd.bind_ok h
  split at h2
  · cases h2
  · rename_i hp
    rw [ne_eq, Decidable.not_not] at hp
    subst hp
    exact ⟨t, readStringZ_ok h1, h2⟩

/-! ## Tag names: the one place where two byte strings mean the same -/

/-- How the code writes the name stored as these four bytes: `"----"` as four spaces. -/
def rewriteName (b : Str) : Str := if b = emptyTagName then [0x20, 0x20, 0x20, 0x20] else b

theorem readName_ok {s s' n : Str} (h : readName s = .ok (n, s')) :
    ∃ b, b.length = 4 ∧ s = b ++ s' ∧ (writeName n).err = none ∧ (writeName n).bytes = rewriteName b ∧
      n.length = 4 ∧ n ≠ [0x20, 0x20, 0x20, 0x20] := by
  obtain ⟨b, t, h1, h2⟩ := Rd.bind_ok h
  unfold readBytes at h1
  split at h1
  · cases h1
  · rename_i hlen
    obtain ⟨rfl, rfl⟩ := Prod.mk.inj (Out.ok.inj h1)
    have h4 : (s.take 4).length = 4 := by rw [List.length_take]; omega
    have hs : s = s.take 4 ++ s.drop 4 := (List.take_append_drop 4 s).symm
    generalize s.take 4 = b at *
    unfold unmarshalName at h2
    rw [if_neg (by simpa using h4)] at h2
    split at h2
    · rename_i hb
      obtain ⟨rfl, rfl⟩ := Prod.mk.inj (Out.ok.inj h2)
      subst hb
      exact ⟨_, h4, hs, rfl, rfl, rfl, by decide⟩
    · rename_i hb
      obtain ⟨rfl, rfl⟩ := Prod.mk.inj (Out.ok.inj h2)
      refine ⟨b, h4, hs, (writeName_err _).2 (.inr h4), ?_, h4, hb⟩
      unfold writeName marshalName rewriteName
      by_cases he : b = emptyTagName
      · rw [if_pos (.inr he), if_pos he]; rfl
      · rw [if_neg (by rw [not_or]; exact ⟨by omega, he⟩), if_neg (by simpa using h4), if_neg he]; rfl

/-- A list of names as stored: the bytes of the file and the bytes the code writes. -/
theorem readTags_ok : ∀ (n : Nat) (s : Str) (as : List Tag) (s' : Str), readN readTag n s = .ok (as, s') →
    ∃ names : List Str, names.length = 2 * n ∧ (∀ b ∈ names, b.length = 4) ∧ s = names.flatten ++ s' ∧
      (Wr.all writeTag as).err = none ∧ (Wr.all writeTag as).bytes = (names.map rewriteName).flatten ∧
      ∀ t ∈ as, t.parent.length = 4 ∧ t.parent ≠ [0x20, 0x20, 0x20, 0x20] ∧ t.name.length = 4 ∧
        t.name ≠ [0x20, 0x20, 0x20, 0x20]
  | 0, s, as, s', h => by
    obtain ⟨rfl, rfl⟩ := Prod.mk.inj (Out.ok.inj h)
    exact ⟨[], rfl, by simp, rfl, rfl, rfl, by simp⟩
  | n + 1, s, as, s', h => by
    obtain ⟨a, t, h1, h2⟩ := Rd.bind_ok h
    obtain ⟨bs, t', h3, h4⟩ := Rd.bind_ok h2
    obtain ⟨rfl, rfl⟩ := Prod.mk.inj (Out.ok.inj h4)
    obtain ⟨p, u, g1, g2⟩ := Rd.bind_ok h1
    obtain ⟨m, u', g3, g4⟩ := Rd.bind_ok g2
    obtain ⟨rfl, rfl⟩ := Prod.mk.inj (Out.ok.inj g4)
    obtain ⟨b1, l1, rfl, e1, w1, p1, p2⟩ := readName_ok g1
    obtain ⟨b2, l2, rfl, e2, w2, m1, m2⟩ := readName_ok g3
    obtain ⟨names, hl, h4, rfl, e3, w3, hn⟩ := readTags_ok n _ _ _ h3
    have e12 : (writeTag { parent := p, name := m }).err = none := by
      unfold writeTag; rw [Wr.seq_err]; exact ⟨e1, e2⟩
    refine ⟨b1 :: b2 :: names, by simp [hl]; omega, ?_, by simp, ?_, ?_, ?_⟩
    · intro b hb
      rcases List.mem_cons.1 hb with rfl | hb
      · exact l1
      · rcases List.mem_cons.1 hb with rfl | hb
        · exact l2
        · exact h4 b hb
    · unfold Wr.all; rw [Wr.seq_err]; exact ⟨e12, e3⟩
    · unfold Wr.all
      rw [Wr.seq_bytes e12, w3]
      unfold writeTag
      rw [Wr.seq_bytes e1, w1, w2]
      simp
    · intro t ht
      rcases List.mem_cons.1 ht with rfl | ht
      · exact ⟨p1, p2, m1, m2⟩
      · exact hn t ht

/-! ## The index file -/

theorem rebuildStep_sections (ix : Index) (e : Item × Nat) :
    (ix.rebuildStep e).tags = ix.tags ∧ (ix.rebuildStep e).tagSets = ix.tagSets ∧
    (ix.rebuildStep e).collectionIdx = ix.collectionIdx ∧ (ix.rebuildStep e).items = ix.items := by
  have key : ∀ (jx : Index) (p : ID), (jx.getChildrenIDMap p).1.tags = jx.tags ∧
      (jx.getChildrenIDMap p).1.tagSets = jx.tagSets ∧ (jx.getChildrenIDMap p).1.collectionIdx = jx.collectionIdx ∧
      (jx.getChildrenIDMap p).1.items = jx.items := by
    intro jx p
    exact ⟨rfl, rfl, rfl, rfl⟩
  unfold Index.rebuildStep
  obtain ⟨a1, a2, a3, a4⟩ := key ix e.1.parent
  obtain ⟨b1, b2, b3, b4⟩ := key (ix.getChildrenIDMap e.1.parent).1 (UInt32.ofNat e.2)
  exact ⟨b1.trans a1, b2.trans a2, b3.trans a3, b4.trans a4⟩

theorem rebuild_sections (ix : Index) :
    ix.rebuildChildren.tags = ix.tags ∧ ix.rebuildChildren.tagSets = ix.tagSets ∧
    ix.rebuildChildren.collectionIdx = ix.collectionIdx ∧ ix.rebuildChildren.items = ix.items := by
  have key : ∀ (l : List (Item × Nat)) (jx : Index), (l.foldl Index.rebuildStep jx).tags = jx.tags ∧
      (l.foldl Index.rebuildStep jx).tagSets = jx.tagSets ∧
      (l.foldl Index.rebuildStep jx).collectionIdx = jx.collectionIdx ∧
      (l.foldl Index.rebuildStep jx).items = jx.items := by
    intro l
    induction l with
    | nil => intro jx; exact ⟨rfl, rfl, rfl, rfl⟩
    | cons e l ih =>
      intro jx
      obtain ⟨a1, a2, a3, a4⟩ := ih (jx.rebuildStep e)
      obtain ⟨b1, b2, b3, b4⟩ := rebuildStep_sections jx e
      exact ⟨a1.trans b1, a2.trans b2, a3.trans b3, a4.trans b4⟩
  unfold Index.rebuildChildren
  obtain ⟨a1, a2, a3, a4⟩ := key ix.items.items.zipIdx (ix.getChildrenIDMap 0).1
  have h0 : (ix.getChildrenIDMap 0).1.tags = ix.tags ∧ (ix.getChildrenIDMap 0).1.tagSets = ix.tagSets ∧
      (ix.getChildrenIDMap 0).1.collectionIdx = ix.collectionIdx ∧ (ix.getChildrenIDMap 0).1.items = ix.items :=
    ⟨rfl, rfl, rfl, rfl⟩
  obtain ⟨b1, b2, b3, b4⟩ := h0
  exact ⟨a1.trans b1, a2.trans b2, a3.trans b3, a4.trans b4⟩

/-- The parts of a file that loads. -/
theorem load_parts {into r : Index} {file rest : Str} (h : into.load file = .ok (r, rest)) :
    ∃ (k : UInt8) (names : List Str), names.length = 2 * k.toNat ∧ (∀ b ∈ names, b.length = 4) ∧
      file = prefixTD ++ 0 :: k :: (names.flatten ++
        (prefixTI ++ 0 :: ((writeTagSetIndex r.tagSets).bytes ++
        (prefixCD ++ 0 :: ((writeVariantsIndex r.collectionIdx).bytes ++
        (prefixID ++ 0 :: ((writeItems r.items).bytes ++ rest))))))) ∧
      r.save = Wr.put (prefixTD ++ 0 :: k :: ((names.map rewriteName).flatten ++
        (prefixTI ++ 0 :: ((writeTagSetIndex r.tagSets).bytes ++
        (prefixCD ++ 0 :: ((writeVariantsIndex r.collectionIdx).bytes ++
        (prefixID ++ 0 :: (writeItems r.items).bytes))))))) ∧
      r = Index.rebuildChildren { into with tags := r.tags, tagSets := r.tagSets, collectionIdx := r.collectionIdx,
                                            items := r.items } ∧
      r.tags.length = k.toNat ∧ r.items.items.length = r.items.nextID.toNat ∧
      ∀ t ∈ r.tags, t.parent.length = 4 ∧ t.parent ≠ [0x20, 0x20, 0x20, 0x20] ∧ t.name.length = 4 ∧
        t.name ≠ [0x20, 0x20, 0x20, 0x20] := by
  obtain ⟨tags, t1, h1, h⟩ := Rd.bind_ok h
  obtain ⟨sets, t2, h2, h⟩ := Rd.bind_ok h
  obtain ⟨colls, t3, h3, h⟩ := Rd.bind_ok h
  obtain ⟨items, t4, h4, h⟩ := Rd.bind_ok h
  obtain ⟨rfl, rfl⟩ := Prod.mk.inj (Out.ok.inj h)
  obtain ⟨s1, rfl, g1⟩ := section_ok h1
  obtain ⟨s2, rfl, g2⟩ := section_ok h2
  obtain ⟨s3, rfl, g3⟩ := section_ok h3
  obtain ⟨s4, rfl, g4⟩ := section_ok h4
  obtain ⟨k, t, hk, g1⟩ := Rd.bind_ok g1
  obtain ⟨-, rfl⟩ := Canon_U8 _ _ _ hk
  obtain ⟨names, hl, hn4, rfl, e1, w1, ht⟩ := readTags_ok _ _ _ _ g1
  have hlen := readN_len _ _ _ _ _ g1
  obtain ⟨e2, rfl⟩ := Canon_tagSetIndex _ _ _ g2
  obtain ⟨e3, rfl⟩ := Canon_variantsIndex _ _ _ g3
  have hitems := readItems_len g4
  obtain ⟨e4, rfl⟩ := Canon_items _ _ _ g4
  obtain ⟨r1, r2, r3, r4⟩ := rebuild_sections
    { into with tags := tags, tagSets := sets, collectionIdx := colls, items := items }
  refine ⟨k, names, hl, hn4, ?_, ?_, ?_, ?_, ?_, ?_⟩
  · rw [r2, r3, r4]
    simp [writeU8, Wr.put]
  · unfold Index.save
    rw [r1, r2, r3, r4]
    have a1 : (Wr.seq (writeStringZ prefixTD) (writeTags tags)).err = none := by
      rw [Wr.seq_err]; exact ⟨rfl, by unfold writeTags; rw [Wr.seq_err]; exact ⟨rfl, e1⟩⟩
    have b1 : (Wr.seq (writeStringZ prefixTD) (writeTags tags)).bytes =
        prefixTD ++ 0 :: k :: (names.map rewriteName).flatten := by
      rw [Wr.seq_bytes rfl]; unfold writeTags; rw [Wr.seq_bytes rfl, w1, hlen, UInt8.ofNat_toNat]
      simp [writeStringZ, writeU8, Wr.put]
    have a2 : (Wr.seq (writeStringZ prefixTI) (writeTagSetIndex sets)).err = none := by
      rw [Wr.seq_err]; exact ⟨rfl, e2⟩
    have a3 : (Wr.seq (writeStringZ prefixCD) (writeVariantsIndex colls)).err = none := by
      rw [Wr.seq_err]; exact ⟨rfl, e3⟩
    have a4 : (Wr.seq (writeStringZ prefixID) (writeItems items)).err = none := by
      rw [Wr.seq_err]; exact ⟨rfl, e4⟩
    have hput : ∀ x : Wr, x.err = none → x = Wr.put x.bytes := by
      intro x hx; cases x; simp only at hx; subst hx; rfl
    rw [hput (Wr.seq (Wr.seq (writeStringZ prefixTD) (writeTags tags)) _)
      ((Wr.seq_err _ _).2 ⟨a1, (Wr.seq_err _ _).2 ⟨a2, (Wr.seq_err _ _).2 ⟨a3, a4⟩⟩⟩)]
    rw [Wr.seq_bytes a1, Wr.seq_bytes a2, Wr.seq_bytes a3, b1]
    rw [Wr.seq_bytes (a := writeStringZ prefixTI) rfl, Wr.seq_bytes (a := writeStringZ prefixCD) rfl,
      Wr.seq_bytes (a := writeStringZ prefixID) rfl]
    simp [writeStringZ, Wr.put]
  · rw [r1, r2, r3, r4]
  · rw [r1]; exact hlen
  · rw [r4]; exact hitems
  · rw [r1]; exact ht

/-! ## Counts -/

/-- What a reader returns satisfies `P`. -/
def Yields {α : Type} (r : Rd α) (P : α → Prop) : Prop := ∀ s a s', r s = .ok (a, s') → P a

theorem Yields.readN {α : Type} {r : Rd α} {P : α → Prop} (hr : Yields r P) : ∀ n, Yields (readN r n) fun l => ∀ a ∈ l, P a
  | 0, s, as, s', h => by
    obtain ⟨rfl, rfl⟩ := Prod.mk.inj (Out.ok.inj h)
    simp
  | n + 1, s, as, s', h => by
    obtain ⟨a, t, h1, h2⟩ := Rd.bind_ok h
    obtain ⟨bs, t', h3, h4⟩ := Rd.bind_ok h2
    obtain ⟨rfl, rfl⟩ := Prod.mk.inj (Out.ok.inj h4)
    intro x hx
    rcases List.mem_cons.1 hx with rfl | hx
    · exact hr _ _ _ h1
    · exact hr.readN n _ _ _ h3 x hx

theorem Yields.counted {α κ : Type} {rc : Rd κ} {toNat : κ → Nat} {r : Rd α} {P : α → Prop} {m : Nat}
    (hk : ∀ k, toNat k < m) (hr : Yields r P) :
    Yields (Rd.bind rc fun n => Verif.readN r (toNat n)) fun l => l.length < m ∧ ∀ a ∈ l, P a := by
  intro s a s' h
  obtain ⟨k, t, -, h2⟩ := Rd.bind_ok h
  exact ⟨by rw [readN_len r _ _ _ _ h2]; exact hk k, hr.readN _ _ _ _ h2⟩

theorem Yields.any {α : Type} (r : Rd α) : Yields r fun _ => True := fun _ _ _ _ => trivial

theorem load_limits {into r : Index} {file rest : Str} (h : into.load file = .ok (r, rest)) : r.InLimits := by
  obtain ⟨tags, t1, h1, h⟩ := Rd.bind_ok h
  obtain ⟨sets, t2, h2, h⟩ := Rd.bind_ok h
  obtain ⟨colls, t3, h3, h⟩ := Rd.bind_ok h
  obtain ⟨items, t4, h4, h⟩ := Rd.bind_ok h
  obtain ⟨rfl, rfl⟩ := Prod.mk.inj (Out.ok.inj h)
  obtain ⟨s1, -, g1⟩ := section_ok h1
  obtain ⟨s2, -, g2⟩ := section_ok h2
  obtain ⟨s3, -, g3⟩ := section_ok h3
  obtain ⟨s4, -, g4⟩ := section_ok h4
  obtain ⟨r1, r2, r3, r4⟩ := rebuild_sections
    { into with tags := tags, tagSets := sets, collectionIdx := colls, items := items }
  have y1 : Yields readTags fun l => l.length < 256 ∧ ∀ a ∈ l, True :=
    Yields.counted UInt8.toNat_lt (Yields.any _)
  have y2 : Yields readTagSetIndex fun l => l.length < 4294967296 ∧ ∀ t ∈ l, t.length < 65536 ∧
      ∀ s ∈ t, s.length < 256 ∧ ∀ x ∈ s, True :=
    Yields.counted UInt32.toNat_lt (Yields.counted UInt16.toNat_lt (Yields.counted UInt8.toNat_lt (Yields.any _)))
  have y3 : Yields readVariantsIndex fun l => l.length < 256 ∧ ∀ t ∈ l, t.length < 4294967296 ∧
      ∀ s ∈ t, s.length < 256 ∧ ∀ x ∈ s, True :=
    Yields.counted UInt8.toNat_lt (Yields.counted UInt32.toNat_lt (Yields.counted UInt8.toNat_lt (Yields.any _)))
  have z1 := y1 _ _ _ g1
  have z2 := y2 _ _ _ g2
  have z3 := y3 _ _ _ g3
  constructor
  · rw [r1]; have := z1.1; simp only; omega
  · rw [r2]; exact z2.1
  · rw [r2]; intro t ht; have := (z2.2 t ht).1; omega
  · rw [r2]; intro t ht s hs; have := ((z2.2 t ht).2 s hs).1; omega
  · rw [r3]; have := z3.1; simp only; omega
  · rw [r3]; exact fun t ht => (z3.2 t ht).1
  · rw [r3]; intro t ht s hs; have := ((z3.2 t ht).2 s hs).1; omega
  · rw [r4]; have := readItems_len g4; simp only; omega

end Verif
