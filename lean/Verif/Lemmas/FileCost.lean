import Verif.Model.FileCost
import Verif.Spec.FileCost
import Verif.Lemmas.FileFormat

/-!
# Lemmas on the steps of saving and loading
-/

namespace Verif

variable {α β : Type}

/-! ## The counted functions compute what the others compute -/

theorem RdT.bind_fst (r : RdT α) (f : α → RdT β) (s : Str) :
    (RdT.bind r f s).1 = Rd.bind (fun s => (r s).1) (fun a s => (f a s).1) s := by
  unfold RdT.bind Rd.bind
  beta_reduce
  rcases h : r s with ⟨o, k⟩
  cases o <;> rfl

theorem readStringZT_fst (s : Str) : (readStringZT s).1 = readStringZ s := by
  induction s with
  | nil => rfl
  | cons a s ih =>
    simp only [readStringZT, readStringZ]
    split
    · rfl
    · simp only [ih]

theorem readNT_fst (r : RdT α) (n : Nat) (s : Str) : (readNT r n s).1 = readN (fun s => (r s).1) n s := by
  induction n generalizing s with
  | zero => rfl
  | succ n ih =>
    simp only [readNT, readN]
    rw [RdT.bind_fst]
    simp only [RdT.bind_fst, ih]
    rfl

theorem counted_fst {κ : Type} (rc : Rd κ) (toNat : κ → Nat) (r : RdT α) (r' : Rd α) (h : ∀ s, (r s).1 = r' s) (s : Str) :
    (RdT.bind (RdT.lift rc) (fun n => readNT r (toNat n)) s).1 = Rd.bind rc (fun n => readN r' (toNat n)) s := by
  rw [RdT.bind_fst]
  simp only [readNT_fst]
  rw [show (fun s => (r s).1) = r' from funext h]
  rfl

theorem readTagsT_fst (s : Str) : (readTagsT s).1 = readTags s := counted_fst _ _ _ _ (fun _ => rfl) s
theorem readTagSetT_fst (s : Str) : (readTagSetT s).1 = readTagSet s := counted_fst _ _ _ _ (fun _ => rfl) s
theorem readTagSetTableT_fst (s : Str) : (readTagSetTableT s).1 = readTagSetTable s :=
  counted_fst _ _ _ _ readTagSetT_fst s
theorem readTagSetIndexT_fst (s : Str) : (readTagSetIndexT s).1 = readTagSetIndex s :=
  counted_fst _ _ _ _ readTagSetTableT_fst s
theorem readCollT_fst (s : Str) : (readCollT s).1 = readColl s := counted_fst _ _ _ _ (fun _ => rfl) s
theorem readVariantsTableT_fst (s : Str) : (readVariantsTableT s).1 = readVariantsTable s :=
  counted_fst _ _ _ _ readCollT_fst s
theorem readVariantsIndexT_fst (s : Str) : (readVariantsIndexT s).1 = readVariantsIndex s :=
  counted_fst _ _ _ _ readVariantsTableT_fst s
theorem readItemsT_fst (s : Str) : (readItemsT s).1 = readItems s := by
  unfold readItemsT readItems
  rw [RdT.bind_fst]
  simp only [RdT.bind_fst, readNT_fst]
  rfl

theorem readSectionT_fst {pfx : Str} {r : RdT α} {r' : Rd α} (h : ∀ s, (r s).1 = r' s) (s : Str) :
    (readSectionT pfx r s).1 = readSection pfx r' s := by
  unfold readSectionT readSection
  rw [RdT.bind_fst]
  unfold Rd.bind
  beta_reduce
  rw [readStringZT_fst]
  cases readStringZ s with
  | ok p =>
    simp only [Out.bind]
    split
    · rfl
    · exact h _
  | err e => rfl
  | panic => rfl
  | diverge => rfl

theorem Index.loadT_fst (ix : Index) (s : Str) : (ix.loadT s).1 = ix.load s := by
  unfold Index.loadT Index.load
  simp only [RdT.bind_fst]
  simp only [readSectionT_fst readTagsT_fst, readSectionT_fst readTagSetIndexT_fst,
    readSectionT_fst readVariantsIndexT_fst, readSectionT_fst readItemsT_fst]
  rfl

theorem WrT.seq_fst (a b : WrT) : (WrT.seq a b).1 = Wr.seq a.1 b.1 := by
  unfold WrT.seq
  split
  · rename_i h; unfold Wr.seq; rw [h]
  · rfl

theorem WrT.all_fst (w : α → WrT) (w' : α → Wr) (h : ∀ x, (w x).1 = w' x) (l : List α) :
    (WrT.all w l).1 = Wr.all w' l := by
  induction l with
  | nil => rfl
  | cons a l ih => simp only [WrT.all, Wr.all, WrT.seq_fst, h, ih]

theorem writeTagSetT_fst (t : TagSet) : (writeTagSetT t).1 = writeTagSet t := by
  rw [writeTagSetT, WrT.seq_fst, WrT.all_fst _ writeU8 (fun _ => rfl)]; rfl
theorem writeTagSetTableT_fst (t : TagSetTable) : (writeTagSetTableT t).1 = writeTagSetTable t := by
  rw [writeTagSetTableT, WrT.seq_fst, WrT.all_fst _ _ writeTagSetT_fst]; rfl
theorem writeTagSetIndexT_fst (t : TagSetIndex) : (writeTagSetIndexT t).1 = writeTagSetIndex t := by
  rw [writeTagSetIndexT, WrT.seq_fst, WrT.all_fst _ _ writeTagSetTableT_fst]; rfl
theorem writeCollT_fst (t : Coll) : (writeCollT t).1 = writeColl t := by
  rw [writeCollT, WrT.seq_fst, WrT.all_fst _ writeU32 (fun _ => rfl)]; rfl
theorem writeVariantsTableT_fst (t : VariantsTable) : (writeVariantsTableT t).1 = writeVariantsTable t := by
  rw [writeVariantsTableT, WrT.seq_fst, WrT.all_fst _ _ writeCollT_fst]; rfl
theorem writeVariantsIndexT_fst (t : VariantsIndex) : (writeVariantsIndexT t).1 = writeVariantsIndex t := by
  rw [writeVariantsIndexT, WrT.seq_fst, WrT.all_fst _ _ writeVariantsTableT_fst]; rfl
theorem writeTagsT_fst (t : List Tag) : (writeTagsT t).1 = writeTags t := by
  rw [writeTagsT, WrT.seq_fst, WrT.all_fst _ writeTag (fun _ => rfl)]; rfl
theorem writeItemsT_fst (t : Items) : (writeItemsT t).1 = writeItems t := by
  rw [writeItemsT, WrT.seq_fst, WrT.all_fst _ writeItem (fun _ => rfl)]; rfl

theorem Index.saveT_fst (ix : Index) : ix.saveT.1 = ix.save := by
  unfold Index.saveT Index.save
  simp only [WrT.seq_fst, writeTagsT_fst, writeTagSetIndexT_fst, writeVariantsIndexT_fst, writeItemsT_fst]
  rfl

/-! ## Bounds for loading -/

/-- At most one step for each byte taken, and `c` more if the call fails; it takes at least `m` bytes more than its steps. -/
def Slow (m c : Nat) (r : RdT α) : Prop :=
  ∀ s, (∀ a s', (r s).1 = .ok (a, s') → (r s).2 + s'.length + m ≤ s.length) ∧ (r s).2 ≤ s.length + c

theorem Slow.lift {r : Rd α} {m : Nat} (h : ∀ s a s', r s = .ok (a, s') → s'.length + m ≤ s.length) :
    Slow m 0 (RdT.lift r) := fun s => ⟨fun a s' e => by
      have := h s a s' e
      show 0 + s'.length + m ≤ s.length
      omega, Nat.zero_le _⟩

theorem Slow.bind {r : RdT α} {f : α → RdT β} {m m' c c' c'' : Nat} (h : Slow m c r) (h' : ∀ a, Slow m' c' (f a))
    (hc : c ≤ c'') (hc' : c' ≤ c'' + m) : Slow (m + m') c'' (RdT.bind r f) := by
  intro s
  have hs := h s
  unfold RdT.bind
  rcases e : r s with ⟨o, k⟩
  rw [e] at hs
  cases o with
  | ok p =>
    obtain ⟨a, t⟩ := p
    have h1 := hs.1 a t rfl
    have h2 := h' a t
    simp only at h1 ⊢
    refine ⟨fun b s' eb => ?_, ?_⟩
    · have := h2.1 b s' eb; omega
    · have := h2.2; omega
  | err e => exact ⟨nofun, by have := hs.2; simp only at this ⊢; omega⟩
  | panic => exact ⟨nofun, by have := hs.2; simp only at this ⊢; omega⟩
  | diverge => exact ⟨nofun, by have := hs.2; simp only at this ⊢; omega⟩

theorem Slow.tick {r : RdT α} {m c : Nat} (h : Slow (m + 1) c r) : Slow m (c + 1) (fun s => ((r s).1, (r s).2 + 1)) := by
  intro s
  have hs := h s
  refine ⟨fun a s' e => ?_, ?_⟩
  · have := hs.1 a s' e; simp only; omega
  · have := hs.2; simp only; omega

theorem Slow.weaken {r : RdT α} {m m' c c' : Nat} (h : Slow m c r) (hm : m' ≤ m) (hc : c ≤ c') : Slow m' c' r := fun s =>
  ⟨fun a s' e => by have := (h s).1 a s' e; omega, by have := (h s).2; omega⟩

theorem Slow.readN {r : RdT α} (h : Slow 1 0 r) (n : Nat) : Slow 0 1 (readNT r n) := by
  induction n with
  | zero => exact (Slow.lift (m := 0) (fun s a s' e => by
      rw [(Prod.mk.inj (Out.ok.inj e)).2]; exact Nat.le_refl _)).weaken (Nat.le_refl _) (by omega)
  | succ n ih =>
    rw [readNT]
    exact (Slow.tick (m := 0) h).bind (m' := 0) (c' := 1) (fun a => ih.bind (m' := 0) (c' := 0) (fun as =>
      Slow.lift (m := 0) (fun s a s' e => by
        rw [(Prod.mk.inj (Out.ok.inj e)).2]; exact Nat.le_refl _)) (Nat.le_refl _) (by omega)) (by omega) (by omega)

theorem readU8_len (s : Str) (a : UInt8) (s' : Str) (e : readU8 s = .ok (a, s')) : s'.length + 1 ≤ s.length := by
  unfold readU8 at e
  split at e
  · obtain ⟨_, rfl⟩ := Prod.mk.inj (Out.ok.inj e); simp
  · cases e

theorem readU16_len (s : Str) (a : UInt16) (s' : Str) (e : readU16 s = .ok (a, s')) : s'.length + 2 ≤ s.length := by
  unfold readU16 at e
  split at e
  · obtain ⟨_, rfl⟩ := Prod.mk.inj (Out.ok.inj e); simp
  · cases e

theorem readU32_len (s : Str) (a : UInt32) (s' : Str) (e : readU32 s = .ok (a, s')) : s'.length + 4 ≤ s.length := by
  unfold readU32 at e
  split at e
  · obtain ⟨_, rfl⟩ := Prod.mk.inj (Out.ok.inj e); simp
  · cases e

theorem Rd.bind_len {r : Rd α} {f : α → Rd β} {m m' : Nat} (h : ∀ s a s', r s = .ok (a, s') → s'.length + m ≤ s.length)
    (h' : ∀ a s b s', f a s = .ok (b, s') → s'.length + m' ≤ s.length) (s : Str) (b : β) (s' : Str)
    (e : Rd.bind r f s = .ok (b, s')) : s'.length + (m + m') ≤ s.length := by
  unfold Rd.bind at e
  cases er : r s with
  | ok p =>
    obtain ⟨a, t⟩ := p
    rw [er] at e
    have := h s a t er
    have := h' a t b s' e
    omega
  | err _ => rw [er] at e; cases e
  | panic => rw [er] at e; cases e
  | diverge => rw [er] at e; cases e

theorem Rd.pure_len (a : α) (s : Str) (b : α) (s' : Str) (e : Rd.pure a s = .ok (b, s')) : s'.length + 0 ≤ s.length := by
  rw [(Prod.mk.inj (Out.ok.inj e)).2]; exact Nat.le_refl _

theorem readName_taken (s : Str) (a : Str) (s' : Str) (e : readName s = .ok (a, s')) : s'.length + 4 ≤ s.length := by
  refine Rd.bind_len (m := 4) (m' := 0) ?_ ?_ s a s' e
  · intro s a s' e
    unfold readBytes at e
    split at e
    · cases e
    · obtain ⟨_, rfl⟩ := Prod.mk.inj (Out.ok.inj e)
      rw [List.length_drop]; omega
  · intro b s a s' e
    cases h : unmarshalName b with
    | ok n =>
      rw [h] at e
      rw [(Prod.mk.inj (Out.ok.inj e)).2]; exact Nat.le_refl _
    | err _ => rw [h] at e; cases e
    | panic => rw [h] at e; cases e
    | diverge => rw [h] at e; cases e

theorem readTag_taken (s : Str) (a : Tag) (s' : Str) (e : readTag s = .ok (a, s')) : s'.length + 8 ≤ s.length :=
  Rd.bind_len (m := 4) (m' := 4) readName_taken (fun _ => Rd.bind_len (m := 4) (m' := 0) readName_taken
    fun _ => Rd.pure_len _) s a s' e

theorem readItem_len (s : Str) (a : Item) (s' : Str) (e : readItem s = .ok (a, s')) : s'.length + 16 ≤ s.length :=
  Rd.bind_len (m := 4) (m' := 12) readU32_len (fun _ => Rd.bind_len (m := 4) (m' := 8) readU32_len
    fun _ => Rd.bind_len (m := 4) (m' := 4) readU32_len fun _ => Rd.bind_len (m := 4) (m' := 0) readU32_len
      fun _ => Rd.pure_len _) s a s' e

theorem slow_counted {κ : Type} {rc : Rd κ} {toNat : κ → Nat} {m : Nat} {r : RdT α}
    (hc : ∀ s a s', rc s = .ok (a, s') → s'.length + m ≤ s.length) (hm : 1 ≤ m) (h : Slow 1 0 r) :
    Slow m 0 (RdT.bind (RdT.lift rc) (fun n => readNT r (toNat n))) :=
  (Slow.lift hc).bind (m' := 0) (c' := 1) (fun _ => h.readN _) (Nat.le_refl _) (by omega)

theorem slow_tagSet : Slow 1 0 readTagSetT := slow_counted readU8_len (by omega) (Slow.lift readU8_len)
theorem slow_tagSetTable : Slow 1 0 readTagSetTableT :=
  (slow_counted readU16_len (by omega) slow_tagSet).weaken (by omega) (by omega)
theorem slow_tagSetIndex : Slow 0 0 readTagSetIndexT :=
  (slow_counted readU32_len (by omega) slow_tagSetTable).weaken (by omega) (by omega)
theorem slow_coll : Slow 1 0 readCollT :=
  slow_counted readU8_len (by omega) ((Slow.lift readU32_len).weaken (by omega) (by omega))
theorem slow_variantsTable : Slow 1 0 readVariantsTableT :=
  (slow_counted readU32_len (by omega) slow_coll).weaken (by omega) (by omega)
theorem slow_variantsIndex : Slow 0 0 readVariantsIndexT :=
  (slow_counted readU8_len (by omega) slow_variantsTable).weaken (by omega) (by omega)
theorem slow_tags : Slow 0 0 readTagsT :=
  (slow_counted readU8_len (by omega) ((Slow.lift readTag_taken).weaken (by omega) (by omega))).weaken (by omega) (by omega)

theorem slow_stringZ : Slow 0 1 readStringZT := by
  intro s
  induction s with
  | nil => exact ⟨nofun, Nat.le_refl _⟩
  | cons a s ih =>
    simp only [readStringZT]
    split
    · refine ⟨fun b s' e => ?_, by simp⟩
      obtain ⟨_, rfl⟩ := Prod.mk.inj (Out.ok.inj e)
      simp only [List.length_cons]; omega
    · refine ⟨fun b s' e => ?_, ?_⟩
      · simp only at e ⊢
        cases h : (readStringZT s).1 with
        | ok p =>
          rw [h] at e
          obtain ⟨_, rfl⟩ := Prod.mk.inj (Out.ok.inj e)
          have := ih.1 p.1 p.2 h
          simp only [List.length_cons]; omega
        | err _ => rw [h] at e; cases e
        | panic => rw [h] at e; cases e
        | diverge => rw [h] at e; cases e
      · have := ih.2
        simp only [List.length_cons]; omega

theorem slow_section {pfx : Str} {r : RdT α} (h : Slow 0 0 r) : Slow 0 1 (readSectionT pfx r) := by
  unfold readSectionT
  refine slow_stringZ.bind (m' := 0) (c' := 0) (fun s => ?_) (Nat.le_refl _) (by omega)
  split
  · exact fun _ => ⟨nofun, Nat.zero_le _⟩
  · exact h

/-- The nodes: with the rounds of `rebuildChildrenIndex` there are two steps for sixteen bytes. -/
theorem readItemsT_steps (s : Str) :
    (∀ a s', (readItemsT s).1 = .ok (a, s') → (readItemsT s).2 + a.items.length + s'.length ≤ s.length) ∧
    (readItemsT s).2 ≤ s.length := by
  have key : ∀ (n : Nat) (s : Str),
      (∀ a s', (readNT (RdT.lift readItem) n s).1 = .ok (a, s') →
        (readNT (RdT.lift readItem) n s).2 = n ∧ a.length = n ∧ s'.length + 16 * n ≤ s.length) ∧
      (readNT (RdT.lift readItem) n s).2 ≤ s.length + 1 := by
    intro n
    induction n with
    | zero =>
      intro s
      refine ⟨fun a s' e => ?_, Nat.zero_le _⟩
      obtain ⟨rfl, rfl⟩ := Prod.mk.inj (Out.ok.inj e)
      exact ⟨rfl, rfl, by simp⟩
    | succ n ih =>
      intro s
      unfold readNT
      unfold RdT.bind
      cases er : readItem s with
      | ok p =>
        obtain ⟨i, t⟩ := p
        have hl := readItem_len s i t er
        simp only [RdT.lift, er]
        have ht := ih t
        rcases en : readNT (RdT.lift readItem) n t with ⟨o, k⟩
        rw [en] at ht
        cases o with
        | ok q =>
          obtain ⟨as, u⟩ := q
          have h1 := ht.1 as u rfl
          simp only at h1 ⊢
          refine ⟨fun a s' e => ?_, by omega⟩
          obtain ⟨rfl, rfl⟩ := Prod.mk.inj (Out.ok.inj e)
          refine ⟨by omega, by simp only [List.length_cons]; omega, by omega⟩
        | err e => refine ⟨nofun, ?_⟩; have := ht.2; simp only at this ⊢; omega
        | panic => refine ⟨nofun, ?_⟩; have := ht.2; simp only at this ⊢; omega
        | diverge => refine ⟨nofun, ?_⟩; have := ht.2; simp only at this ⊢; omega
      | err e => simp only [RdT.lift, er]; exact ⟨nofun, by omega⟩
      | panic => simp only [RdT.lift, er]; exact ⟨nofun, by omega⟩
      | diverge => simp only [RdT.lift, er]; exact ⟨nofun, by omega⟩
  unfold readItemsT
  unfold RdT.bind
  cases e4 : readU32 s with
  | ok p =>
    obtain ⟨n, t⟩ := p
    have hl := readU32_len s n t e4
    have hk := key n.toNat t
    have e5 : RdT.lift readU32 s = (.ok (n, t), 0) := by simp only [RdT.lift, e4]
    rw [e5]
    simp only
    rcases en : readNT (RdT.lift readItem) n.toNat t with ⟨o, k⟩
    rw [en] at hk
    cases o with
    | ok q =>
      obtain ⟨as, u⟩ := q
      have h1 := hk.1 as u rfl
      simp only [RdT.lift] at h1 ⊢
      refine ⟨fun a s' e => ?_, by omega⟩
      obtain ⟨rfl, rfl⟩ := Prod.mk.inj (Out.ok.inj e)
      simp only
      omega
    | err e => refine ⟨nofun, ?_⟩; have := hk.2; simp only at this ⊢; omega
    | panic => refine ⟨nofun, ?_⟩; have := hk.2; simp only at this ⊢; omega
    | diverge => refine ⟨nofun, ?_⟩; have := hk.2; simp only at this ⊢; omega
  | err e => simp only [RdT.lift, e4]; exact ⟨nofun, Nat.zero_le _⟩
  | panic => simp only [RdT.lift, e4]; exact ⟨nofun, Nat.zero_le _⟩
  | diverge => simp only [RdT.lift, e4]; exact ⟨nofun, Nat.zero_le _⟩

/-- The last section together with `rebuildChildrenIndex`. -/
theorem slow_nodes (f : Items → Index) :
    Slow 0 1 (RdT.bind (readSectionT prefixID readItemsT) fun items s => (.ok (f items, s), items.items.length)) := by
  intro s
  unfold readSectionT
  have hz := slow_stringZ s
  unfold RdT.bind
  rcases ez : readStringZT s with ⟨o, k⟩
  rw [ez] at hz
  cases o with
  | ok p =>
    obtain ⟨w, t⟩ := p
    have h1 := hz.1 w t rfl
    simp only at h1 ⊢
    by_cases hp : w ≠ prefixID
    · rw [if_pos hp]
      exact ⟨nofun, by simp only; omega⟩
    · rw [if_neg hp]
      have hi := readItemsT_steps t
      rcases ei : readItemsT t with ⟨o, k'⟩
      rw [ei] at hi
      cases o with
      | ok q =>
        obtain ⟨its, u⟩ := q
        have h2 := hi.1 its u rfl
        simp only at h2 ⊢
        refine ⟨fun a s' e => ?_, by omega⟩
        obtain ⟨_, rfl⟩ := Prod.mk.inj (Out.ok.inj e)
        omega
      | err e => refine ⟨nofun, ?_⟩; have := hi.2; simp only at this ⊢; omega
      | panic => refine ⟨nofun, ?_⟩; have := hi.2; simp only at this ⊢; omega
      | diverge => refine ⟨nofun, ?_⟩; have := hi.2; simp only at this ⊢; omega
  | err e => exact ⟨nofun, hz.2⟩
  | panic => exact ⟨nofun, hz.2⟩
  | diverge => exact ⟨nofun, hz.2⟩

theorem slow_load (ix : Index) : Slow 0 1 ix.loadT := by
  unfold Index.loadT
  refine (slow_section slow_tags).bind (m' := 0) (c' := 1) (fun _ => ?_) (by omega) (by omega)
  refine (slow_section slow_tagSetIndex).bind (m' := 0) (c' := 1) (fun _ => ?_) (by omega) (by omega)
  refine (slow_section slow_variantsIndex).bind (m' := 0) (c' := 1) (fun _ => ?_) (by omega) (by omega)
  exact slow_nodes _

/-! ## Bounds for saving -/

/-- At most one step for each byte written, `m` steps less if the call succeeds, and one more if it fails. -/
def WrSlow (m : Nat) (w : WrT) : Prop :=
  (w.1.err = none → w.2 + m ≤ w.1.bytes.length) ∧ w.2 ≤ w.1.bytes.length + 1

theorem WrSlow.put {b : Str} {m : Nat} (h : m ≤ b.length) : WrSlow m (WrT.lift (Wr.put b)) :=
  ⟨fun _ => by show 0 + m ≤ b.length; omega, Nat.zero_le _⟩

theorem WrSlow.seq {a b : WrT} {m m' : Nat} (ha : WrSlow m a) (hb : WrSlow m' b) : WrSlow (m + m') (WrT.seq a b) := by
  unfold WrT.seq
  cases h : a.1.err with
  | some e =>
    refine ⟨fun e' => ?_, ha.2⟩
    rw [show a.1.err = none from e'] at h; cases h
  | none =>
    have h1 := ha.1 h
    refine ⟨fun e => ?_, ?_⟩
    · have h2 := hb.1 ((Wr.seq_err _ _).1 e).2
      simp only [Wr.seq_bytes h, List.length_append]; omega
    · have h2 := hb.2
      simp only [Wr.seq_bytes h, List.length_append]; omega

theorem WrSlow.all {w : α → WrT} {l : List α} (h : ∀ x ∈ l, WrSlow 1 (w x) ∧ (w x).2 ≤ (w x).1.bytes.length) :
    WrSlow 0 (WrT.all w l) := by
  induction l with
  | nil => exact WrSlow.put (Nat.zero_le _)
  | cons a l ih =>
    rw [WrT.all]
    refine WrSlow.seq (m := 0) (m' := 0) ⟨fun e => ?_, ?_⟩ (ih fun x hx => h x (List.mem_cons_of_mem _ hx))
    · exact (h a (List.mem_cons_self ..)).1.1 e
    · have := (h a (List.mem_cons_self ..)).2
      simp only; omega

theorem WrSlow.weaken {w : WrT} {m m' : Nat} (h : WrSlow m w) (hm : m' ≤ m) : WrSlow m' w :=
  ⟨fun e => by have := h.1 e; omega, h.2⟩

theorem WrSlow.each {w : WrT} (h : WrSlow 1 w) (e : w.1.err = none) : WrSlow 1 w ∧ w.2 ≤ w.1.bytes.length :=
  ⟨h, by have := h.1 e; omega⟩

theorem wrSlow_tagSet (t : TagSet) : WrSlow 1 (writeTagSetT t) :=
  (WrSlow.put (m := 1) (by simp)).seq (m' := 0) (WrSlow.all fun x _ =>
    WrSlow.each (WrSlow.put (m := 1) (by simp)) rfl)
theorem wrSlow_tagSetTable (t : TagSetTable) : WrSlow 1 (writeTagSetTableT t) :=
  (WrSlow.put (m := 1) (by simp)).seq (m' := 0) (WrSlow.all fun x _ =>
    (wrSlow_tagSet x).each (by rw [writeTagSetT_fst]; exact writeTagSet_err x))
theorem wrSlow_tagSetIndex (t : TagSetIndex) : WrSlow 0 (writeTagSetIndexT t) :=
  (WrSlow.put (m := 0) (Nat.zero_le _)).seq (m' := 0) (WrSlow.all fun x _ =>
    (wrSlow_tagSetTable x).each (by rw [writeTagSetTableT_fst]; exact writeTagSetTable_err x))
theorem wrSlow_coll (t : Coll) : WrSlow 1 (writeCollT t) :=
  (WrSlow.put (m := 1) (by simp)).seq (m' := 0) (WrSlow.all fun x _ =>
    WrSlow.each (WrSlow.put (m := 1) (by simp)) rfl)
theorem wrSlow_variantsTable (t : VariantsTable) : WrSlow 1 (writeVariantsTableT t) :=
  (WrSlow.put (m := 1) (by simp)).seq (m' := 0) (WrSlow.all fun x _ =>
    (wrSlow_coll x).each (by rw [writeCollT_fst]; exact writeColl_err x))
theorem wrSlow_variantsIndex (t : VariantsIndex) : WrSlow 0 (writeVariantsIndexT t) :=
  (WrSlow.put (m := 0) (Nat.zero_le _)).seq (m' := 0) (WrSlow.all fun x _ =>
    (wrSlow_variantsTable x).each (by rw [writeVariantsTableT_fst]; exact writeVariantsTable_err x))
theorem wrSlow_items (its : Items) : WrSlow 0 (writeItemsT its) :=
  (WrSlow.put (m := 0) (Nat.zero_le _)).seq (m' := 0) (WrSlow.all fun x _ =>
    WrSlow.each ⟨fun _ => (by decide : 0 + 1 ≤ 16), Nat.zero_le _⟩ rfl)
theorem wrSlow_tags (t : List Tag) : WrSlow 0 (writeTagsT t) :=
  (WrSlow.put (m := 0) (Nat.zero_le _)).seq (m' := 0) (WrSlow.all fun x _ =>
    ⟨⟨fun e => by
        show 0 + 1 ≤ (writeTag x).bytes.length
        have e : (writeTag x).err = none := e
        obtain ⟨h1, _⟩ := (Wr.seq_err _ _).1 e
        obtain ⟨b, hb, h4, _⟩ := marshalName_ok ((writeName_err _).1 h1)
        unfold writeTag
        rw [Wr.seq_bytes h1, List.length_append]
        unfold writeName
        rw [hb]
        show 0 + 1 ≤ b.length + _
        omega, Nat.zero_le _⟩, Nat.zero_le _⟩)

theorem wrSlow_save (ix : Index) : WrSlow 0 ix.saveT := by
  unfold Index.saveT
  exact WrSlow.seq (m := 0) (m' := 0) (WrSlow.seq (m := 0) (m' := 0) (WrSlow.put (Nat.zero_le _)) (wrSlow_tags _))
    (WrSlow.seq (m := 0) (m' := 0) (WrSlow.seq (m := 0) (m' := 0) (WrSlow.put (Nat.zero_le _)) (wrSlow_tagSetIndex _))
      (WrSlow.seq (m := 0) (m' := 0) (WrSlow.seq (m := 0) (m' := 0) (WrSlow.put (Nat.zero_le _)) (wrSlow_variantsIndex _))
        (WrSlow.seq (m := 0) (m' := 0) (WrSlow.put (Nat.zero_le _)) (wrSlow_items _))))

/-! ## Exact numbers of steps -/

theorem WrT.seq_snd {a b : WrT} (h : a.1.err = none) : (WrT.seq a b).2 = a.2 + b.2 := by
  unfold WrT.seq; rw [h]

theorem WrT.all_snd (w : α → WrT) (l : List α) (h : ∀ x ∈ l, (w x).1.err = none) :
    (WrT.all w l).2 = (l.map fun x => (w x).2 + 1).sum := by
  induction l with
  | nil => rfl
  | cons a l ih =>
    rw [WrT.all, WrT.seq_snd (a := ((w a).1, (w a).2 + 1)) (h a (List.mem_cons_self ..)), ih fun x hx => h x (List.mem_cons_of_mem _ hx)]
    rfl

theorem sum_map_one (l : List α) : (l.map fun _ => 0 + 1).sum = l.length := by
  induction l with
  | nil => rfl
  | cons a l ih => simp only [List.map_cons, List.sum_cons, ih, List.length_cons]; omega

theorem writeTagSetT_snd (t : TagSet) : (writeTagSetT t).2 = t.length := by
  rw [writeTagSetT, WrT.seq_snd rfl, WrT.all_snd _ _ (fun _ _ => rfl)]
  exact (Nat.zero_add _).trans (sum_map_one t)
theorem writeTagSetTableT_snd (t : TagSetTable) : (writeTagSetTableT t).2 = (t.map fun s => s.length + 1).sum := by
  rw [writeTagSetTableT, WrT.seq_snd rfl,
    WrT.all_snd _ _ (fun x _ => by rw [writeTagSetT_fst]; exact writeTagSet_err x)]
  simp only [writeTagSetT_snd]
  exact Nat.zero_add _
theorem writeTagSetIndexT_snd (x : TagSetIndex) :
    (writeTagSetIndexT x).2 = (x.map fun t => (t.map fun s => s.length + 1).sum + 1).sum := by
  rw [writeTagSetIndexT, WrT.seq_snd rfl,
    WrT.all_snd _ _ (fun x _ => by rw [writeTagSetTableT_fst]; exact writeTagSetTable_err x)]
  simp only [writeTagSetTableT_snd]
  exact Nat.zero_add _
theorem writeCollT_snd (t : Coll) : (writeCollT t).2 = t.length := by
  rw [writeCollT, WrT.seq_snd rfl, WrT.all_snd _ _ (fun _ _ => rfl)]
  exact (Nat.zero_add _).trans (sum_map_one t)
theorem writeVariantsTableT_snd (t : VariantsTable) : (writeVariantsTableT t).2 = (t.map fun s => s.length + 1).sum := by
  rw [writeVariantsTableT, WrT.seq_snd rfl,
    WrT.all_snd _ _ (fun x _ => by rw [writeCollT_fst]; exact writeColl_err x)]
  simp only [writeCollT_snd]
  exact Nat.zero_add _
theorem writeVariantsIndexT_snd (x : VariantsIndex) :
    (writeVariantsIndexT x).2 = (x.map fun t => (t.map fun s => s.length + 1).sum + 1).sum := by
  rw [writeVariantsIndexT, WrT.seq_snd rfl,
    WrT.all_snd _ _ (fun x _ => by rw [writeVariantsTableT_fst]; exact writeVariantsTable_err x)]
  simp only [writeVariantsTableT_snd]
  exact Nat.zero_add _
theorem writeItemsT_snd {i : Items} (h : i.nextID.toNat ≤ i.items.length) : (writeItemsT i).2 = i.nextID.toNat := by
  rw [writeItemsT, WrT.seq_snd rfl, WrT.all_snd _ _ (fun _ _ => rfl)]
  refine (Nat.zero_add _).trans ((sum_map_one _).trans ?_)
  rw [List.length_take]; omega
theorem writeTagsT_snd {l : List Tag} (h : ∀ t ∈ l, NameOK t.parent ∧ NameOK t.name) : (writeTagsT l).2 = l.length := by
  rw [writeTagsT, WrT.seq_snd rfl, WrT.all_snd _ _ (fun t ht => (writeTag_err t).2 (h t ht))]
  exact (Nat.zero_add _).trans (sum_map_one l)

theorem saveT_snd {ix : Index} (hi : ix.items.nextID.toNat ≤ ix.items.items.length) (hn : ix.NamesOK) :
    ix.saveT.2 = ix.entries := by
  have e1 : (WrT.seq (WrT.lift (writeStringZ prefixTD)) (writeTagsT ix.tags)).1.err = none := by
    rw [WrT.seq_fst, writeTagsT_fst]
    simp only [Wr.seq_err, writeTags, Wr.all_err, writeTag_err, WrT.lift, writeStringZ, writeU8, Wr.put_err]
    exact ⟨trivial, trivial, hn⟩
  have e2 : (WrT.seq (WrT.lift (writeStringZ prefixTI)) (writeTagSetIndexT ix.tagSets)).1.err = none := by
    rw [WrT.seq_fst, writeTagSetIndexT_fst, Wr.seq_err]; exact ⟨rfl, writeTagSetIndex_err _⟩
  have e3 : (WrT.seq (WrT.lift (writeStringZ prefixCD)) (writeVariantsIndexT ix.collectionIdx)).1.err = none := by
    rw [WrT.seq_fst, writeVariantsIndexT_fst, Wr.seq_err]; exact ⟨rfl, writeVariantsIndex_err _⟩
  unfold Index.saveT Index.entries
  rw [WrT.seq_snd e1, WrT.seq_snd e2, WrT.seq_snd e3, WrT.seq_snd rfl, WrT.seq_snd rfl, WrT.seq_snd rfl, WrT.seq_snd rfl,
    writeTagsT_snd hn, writeTagSetIndexT_snd, writeVariantsIndexT_snd, writeItemsT_snd hi]
  simp only [WrT.lift]
  omega

/-- `r` reads `a` off the front of a stream starting with `w`, consuming exactly `w`, in `k` steps. -/
def RTT (r : RdT α) (w : Str) (a : α) (k : Nat) : Prop := ∀ t, r (w ++ t) = (.ok (a, t), k)

theorem RTT.bind {r : RdT α} {f : α → RdT β} {w1 w2 : Str} {a : α} {b : β} {k1 k2 : Nat} (h1 : RTT r w1 a k1)
    (h2 : RTT (f a) w2 b k2) : RTT (RdT.bind r f) (w1 ++ w2) b (k1 + k2) := by
  intro t
  unfold RdT.bind
  rw [List.append_assoc, h1]
  simp only
  rw [h2 t]

theorem RTT.lift {r : Rd α} {w : Str} {a : α} (h : RT r w a) : RTT (RdT.lift r) w a 0 := fun t => by
  unfold RdT.lift; rw [h t]

theorem RTT_all {r : RdT α} {w : α → Wr} {f : α → α} {k : α → Nat} :
    ∀ (l : List α), (∀ x ∈ l, (w x).err = none) → (∀ x ∈ l, RTT r (w x).bytes (f x) (k x)) →
      RTT (readNT r l.length) (Wr.all w l).bytes (l.map f) (l.map fun x => k x + 1).sum
  | [], _, _ => RTT.lift (RT.pure _)
  | a :: l, he, h => by
    rw [Wr.all, Wr.seq_bytes (he a (by simp)), List.map_cons, List.map_cons, List.sum_cons]
    have h1 : RTT (fun s => ((r s).1, (r s).2 + 1)) (w a).bytes (f a) (k a + 1) := by
      intro t
      simp only [h a (by simp) t]
    refine h1.bind ?_
    have := (RTT_all l (fun x hx => he x (by simp [hx])) (fun x hx => h x (by simp [hx]))).bind
      (f := fun as => RdT.lift (Rd.pure (f a :: as))) (w2 := []) (b := f a :: l.map f) (RTT.lift (RT.pure _))
    simpa using this

theorem RTT_counted {κ : Type} {rc : Rd κ} {toNat : κ → Nat} {c : κ} {wc : Wr} {r : RdT α}
    {w : α → Wr} {f : α → α} {k : α → Nat} {l : List α} (hc : RT rc wc.bytes c) (hce : wc.err = none)
    (hn : toNat c = l.length) (he : ∀ x ∈ l, (w x).err = none)
    (h : ∀ x ∈ l, RTT r (w x).bytes (f x) (k x)) :
    RTT (RdT.bind (RdT.lift rc) fun n => readNT r (toNat n)) (Wr.seq wc (Wr.all w l)).bytes (l.map f)
      (l.map fun x => k x + 1).sum := by
  rw [Wr.seq_bytes hce, ← Nat.zero_add (l.map fun x => k x + 1).sum]
  refine (RTT.lift hc).bind ?_
  rw [hn]
  exact RTT_all l he h

theorem RTT_tags {l : List Tag} (hl : l.length ≤ 255) (h : ∀ t ∈ l, NameOK t.parent ∧ NameOK t.name) :
    RTT readTagsT (writeTags l).bytes (l.map storedTag) l.length := by
  have := RTT_counted (toNat := UInt8.toNat) (f := storedTag) (k := fun _ => 0) (w := writeTag) (l := l)
    (RT_U8 (UInt8.ofNat l.length)) rfl (by rw [UInt8.toNat_ofNat']; omega)
    (fun t ht => (writeTag_err t).2 (h t ht)) (fun t ht => RTT.lift (RT_tag (h t ht)))
  rwa [sum_map_one] at this

theorem RTT_tagSet {s : TagSet} (h : s.length ≤ 255) : RTT readTagSetT (writeTagSet s).bytes s s.length := by
  have := RTT_counted (toNat := UInt8.toNat) (f := id) (k := fun _ => 0) (w := writeU8) (l := s)
    (RT_U8 (UInt8.ofNat s.length)) rfl
    (by rw [UInt8.toNat_ofNat']; omega) (fun _ _ => rfl) (fun x _ => RTT.lift (RT_U8 x))
  rwa [List.map_id, sum_map_one] at this

theorem RTT_tagSetTable {t : TagSetTable} (h : t.length ≤ 65535) (hs : ∀ s ∈ t, s.length ≤ 255) :
    RTT readTagSetTableT (writeTagSetTable t).bytes t (t.map fun s => s.length + 1).sum := by
  have := RTT_counted (toNat := UInt16.toNat) (f := id) (k := fun s => s.length) (w := writeTagSet) (l := t)
    (RT_U16 (UInt16.ofNat t.length)) rfl
    (by rw [UInt16.toNat_ofNat']; omega) (fun s _ => writeTagSet_err s) (fun s h => RTT_tagSet (hs s h))
  rwa [List.map_id] at this

theorem RTT_tagSetIndex {x : TagSetIndex} (hl : x.length < 4294967296) (h : ∀ t ∈ x, t.length ≤ 65535)
    (hs : ∀ t ∈ x, ∀ s ∈ t, s.length ≤ 255) :
    RTT readTagSetIndexT (writeTagSetIndex x).bytes x (x.map fun t => (t.map fun s => s.length + 1).sum + 1).sum := by
  have := RTT_counted (toNat := UInt32.toNat) (f := id) (k := fun t => (t.map fun s => s.length + 1).sum)
    (w := writeTagSetTable) (l := x) (RT_U32 (UInt32.ofNat x.length)) rfl
    (by rw [UInt32.toNat_ofNat']; omega) (fun s _ => writeTagSetTable_err s)
    (fun t ht => RTT_tagSetTable (h t ht) (hs t ht))
  rwa [List.map_id] at this

theorem RTT_coll {s : Coll} (h : s.length ≤ 255) : RTT readCollT (writeColl s).bytes s s.length := by
  have := RTT_counted (toNat := UInt8.toNat) (f := id) (k := fun _ => 0) (w := writeU32) (l := s)
    (RT_U8 (UInt8.ofNat s.length)) rfl
    (by rw [UInt8.toNat_ofNat']; omega) (fun _ _ => rfl) (fun x _ => RTT.lift (RT_U32 x))
  rwa [List.map_id, sum_map_one] at this

theorem RTT_variantsTable {t : VariantsTable} (h : t.length < 4294967296) (hs : ∀ s ∈ t, s.length ≤ 255) :
    RTT readVariantsTableT (writeVariantsTable t).bytes t (t.map fun s => s.length + 1).sum := by
  have := RTT_counted (toNat := UInt32.toNat) (f := id) (k := fun s => s.length) (w := writeColl) (l := t)
    (RT_U32 (UInt32.ofNat t.length)) rfl
    (by rw [UInt32.toNat_ofNat']; omega) (fun s _ => writeColl_err s) (fun s h => RTT_coll (hs s h))
  rwa [List.map_id] at this

theorem RTT_variantsIndex {x : VariantsIndex} (hl : x.length ≤ 255) (h : ∀ t ∈ x, t.length < 4294967296)
    (hs : ∀ t ∈ x, ∀ s ∈ t, s.length ≤ 255) :
    RTT readVariantsIndexT (writeVariantsIndex x).bytes x (x.map fun t => (t.map fun s => s.length + 1).sum + 1).sum := by
  have := RTT_counted (toNat := UInt8.toNat) (f := id) (k := fun t => (t.map fun s => s.length + 1).sum)
    (w := writeVariantsTable) (l := x) (RT_U8 (UInt8.ofNat x.length)) rfl
    (by rw [UInt8.toNat_ofNat']; omega) (fun s _ => writeVariantsTable_err s)
    (fun t ht => RTT_variantsTable (h t ht) (hs t ht))
  rwa [List.map_id] at this

theorem RTT_items {i : Items} (h : i.nextID.toNat ≤ i.items.length) :
    RTT readItemsT (writeItems i).bytes i.trim i.nextID.toNat := by
  unfold readItemsT writeItems
  rw [Wr.seq_bytes rfl]
  have h1 := RTT_all (r := RdT.lift readItem) (w := writeItem) (f := id) (k := fun _ => 0)
    (i.items.take i.nextID.toNat) (fun _ _ => rfl) (fun x _ => RTT.lift (RT_item x))
  rw [List.map_id, sum_map_one, List.length_take, Nat.min_eq_left h] at h1
  have h2 := h1.bind (f := fun items => RdT.lift (Rd.pure ({ items := items, nextID := i.nextID } : Items)))
    (w2 := []) (RTT.lift (RT.pure _))
  have := (RTT.lift (RT_U32 i.nextID)).bind (f := fun n => RdT.bind (readNT (RdT.lift readItem) n.toNat) fun items =>
    RdT.lift (Rd.pure ({ items := items, nextID := n } : Items))) h2
  rwa [List.append_nil, Nat.add_zero, Nat.zero_add] at this

theorem RTT_stringZ {b : Str} (h : (0 : UInt8) ∉ b) : RTT readStringZT (b ++ [0]) b (b.length + 1) := by
  intro t
  induction b with
  | nil => rfl
  | cons a b ih =>
    simp only [List.mem_cons, not_or] at h
    simp only [List.cons_append, readStringZT]
    rw [if_neg (fun e => h.1 e.symm), ih h.2]
    rfl

theorem RTT_section {pfx : Str} {r : RdT α} {w : Wr} {a : α} {k : Nat} (hp : (0 : UInt8) ∉ pfx)
    (h : RTT r w.bytes a k) :
    RTT (readSectionT pfx r) (Wr.seq (writeStringZ pfx) w).bytes a (pfx.length + 1 + k) := by
  unfold readSectionT
  rw [Wr.seq_bytes rfl]
  refine (RTT_stringZ hp).bind ?_
  rw [if_neg (by simp)]
  exact h

theorem RTT_load (into : Index) {ix : Index} (hl : ix.InLimits) (hn : ix.NamesOK) :
    RTT into.loadT ix.save.bytes (Index.loaded into ix) (ix.entries + ix.items.nextID.toNat + 12) := by
  have e1 : (Wr.seq (writeStringZ prefixTD) (writeTags ix.tags)).err = none := by
    simp only [Wr.seq_err, writeTags, Wr.all_err, writeTag_err, writeStringZ, writeU8, Wr.put_err]
    exact ⟨trivial, trivial, hn⟩
  have e2 : (Wr.seq (writeStringZ prefixTI) (writeTagSetIndex ix.tagSets)).err = none := by
    rw [Wr.seq_err]; exact ⟨rfl, writeTagSetIndex_err _⟩
  have e3 : (Wr.seq (writeStringZ prefixCD) (writeVariantsIndex ix.collectionIdx)).err = none := by
    rw [Wr.seq_err]; exact ⟨rfl, writeVariantsIndex_err _⟩
  have h4 := (RTT_section (pfx := prefixID) (by decide) (RTT_items hl.items)).bind
    (f := fun (items : Items) (s : Str) => ((.ok (Index.rebuildChildren { into with
      tags := ix.tags.map storedTag, tagSets := ix.tagSets, collectionIdx := ix.collectionIdx,
      items := items }, s), items.items.length) : Timed (Out (Index × Str)))) (w2 := [])
    (b := Index.loaded into ix) (k2 := ix.items.nextID.toNat) (fun t => by
      rw [List.nil_append]
      refine Prod.ext rfl ?_
      show (ix.items.items.take _).length = _
      rw [List.length_take]
      have := hl.items
      omega)
  have h3 := (RTT_section (pfx := prefixCD) (by decide) (RTT_variantsIndex hl.collTables hl.colls hl.collLen)).bind
    (f := fun colls => RdT.bind (readSectionT prefixID readItemsT) fun items s =>
      (.ok (Index.rebuildChildren { into with
        tags := ix.tags.map storedTag, tagSets := ix.tagSets, collectionIdx := colls, items := items }, s),
        items.items.length)) h4
  have h2 := (RTT_section (pfx := prefixTI) (by decide) (RTT_tagSetIndex hl.setTables hl.sets hl.setLen)).bind
    (f := fun tagSets => RdT.bind (readSectionT prefixCD readVariantsIndexT) fun colls =>
      RdT.bind (readSectionT prefixID readItemsT) fun items s =>
      (.ok (Index.rebuildChildren { into with
        tags := ix.tags.map storedTag, tagSets := tagSets, collectionIdx := colls, items := items }, s),
        items.items.length)) h3
  have h1 := (RTT_section (pfx := prefixTD) (by decide) (RTT_tags hl.tags hn)).bind
    (f := fun tags => RdT.bind (readSectionT prefixTI readTagSetIndexT) fun tagSets =>
      RdT.bind (readSectionT prefixCD readVariantsIndexT) fun colls =>
      RdT.bind (readSectionT prefixID readItemsT) fun items s =>
      (.ok (Index.rebuildChildren { into with
        tags := tags, tagSets := tagSets, collectionIdx := colls, items := items }, s),
        items.items.length)) h2
  unfold Index.loadT Index.save
  rw [Wr.seq_bytes e1, Wr.seq_bytes e2, Wr.seq_bytes e3]
  rw [List.append_nil] at h1
  intro t
  refine (h1 t).trans (Prod.ext rfl ?_)
  show _ = ix.entries + _ + 12
  unfold Index.entries
  simp only [show prefixTD.length = 2 from rfl, show prefixTI.length = 2 from rfl, show prefixCD.length = 2 from rfl,
    show prefixID.length = 2 from rfl]
  omega

end Verif
