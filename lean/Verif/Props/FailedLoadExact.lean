import Verif.Props.FailedLoad

/-!
# C67 — exactly what a failed load leaves
-/

namespace Verif

/-- The section with this marker starts here and goes on with `t`. -/
def Marked (pfx s t : Str) : Prop := s = pfx ++ 0 :: t

/-- What a failed read of a list leaves in place of `old`: if the file ends before the count, the old list; otherwise as
many elements as announced, first those that could be read, then one that was read in part, then zero values. -/
def LeftList {α : Type} (count : Rd Nat) (read : Rd α) (zero : α) (old new : List α) (s : Str) : Prop :=
  match count s with
  | .ok (n, s) => ∃ (m : Nat) (l : List α) (x : α) (s' : Str), m < n ∧ readN read m s = .ok (l, s') ∧
      (∀ r, read s' ≠ .ok r) ∧ new = l ++ x :: List.replicate (n - m - 1) zero
  | _ => new = old

/-- What is left of the index `ix` by a load that fails while reading `s`, with the section number `k` still to come:
the sections before the fault are those of the file, the one with the fault is left half-read, those after it are the old
ones. -/
inductive LeftBy : Nat → Index → Str → Index → Prop where
  | noTags (ix s) : (∀ t, ¬ Marked (str "TD") s t) → LeftBy 0 ix s ix
  | inTags (ix s t T) : Marked (str "TD") s t → LeftList count8 readTag ⟨[], []⟩ ix.tags T t →
      LeftBy 0 ix s { ix with tags := T }
  | tags (ix s t T u ix') : Marked (str "TD") s t → readTags t = .ok (T, u) → LeftBy 1 { ix with tags := T } u ix' →
      LeftBy 0 ix s ix'
  | noSets (ix s) : (∀ t, ¬ Marked (str "TI") s t) → LeftBy 1 ix s ix
  | inSets (ix s t T) : Marked (str "TI") s t → LeftList count32 readTagSetTable [] ix.tagSets T t →
      LeftBy 1 ix s { ix with tagSets := T }
  | sets (ix s t T u ix') : Marked (str "TI") s t → readTagSetIndex t = .ok (T, u) →
      LeftBy 2 { ix with tagSets := T } u ix' → LeftBy 1 ix s ix'
  | noColls (ix s) : (∀ t, ¬ Marked (str "CD") s t) → LeftBy 2 ix s ix
  | inColls (ix s t T) : Marked (str "CD") s t → LeftList count8 readVariantsTable [] ix.collectionIdx T t →
      LeftBy 2 ix s { ix with collectionIdx := T }
  | colls (ix s t T u ix') : Marked (str "CD") s t → readVariantsIndex t = .ok (T, u) →
      LeftBy 3 { ix with collectionIdx := T } u ix' → LeftBy 2 ix s ix'
  | noItems (ix s) : (∀ t, ¬ Marked (str "ID") s t) → LeftBy 3 ix s ix
  | inItems (ix s t T) : Marked (str "ID") s t → LeftList count32 readItem zeroItem ix.items.items T.items t →
      (∀ n u, readU32 t = .ok (n, u) → T.nextID = n) → ((∀ r, readU32 t ≠ .ok r) → T = ix.items) →
      LeftBy 3 ix s { ix with items := T }

section
variable {α β : Type}

theorem readStringZ_append : ∀ (p t : Str), (0 : UInt8) ∉ p → readStringZ (p ++ 0 :: t) = .ok (p, t)
  | [], t, _ => rfl
  | a :: p, t, h => by
    rw [List.cons_append, readStringZ, if_neg (by rintro rfl; exact h List.mem_cons_self),
      readStringZ_append p t fun h' => h (List.mem_cons_of_mem _ h')]
    rfl

/-- A section: fault in the marker, or fault behind it, or none. -/
theorem section_cases {pfx : Str} (hp : (0 : UInt8) ∉ pfx) (get : α → β) (set : β → α → α) (f : Fill β) (a : α) (s : Str) :
    let x := fillSection pfx (Fill.field get set f) a s
    ((∀ t, ¬ Marked pfx s t) ∧ x.val = a ∧ ∀ u, x.out ≠ .ok u) ∨
    ∃ t, Marked pfx s t ∧ x.val = set (f (get a) t).val a ∧ x.out = (f (get a) t).out := by
  intro x
  by_cases h : ∃ t, Marked pfx s t
  · obtain ⟨t, ht⟩ := h
    refine .inr ⟨t, ht, ?_⟩
    have hr : readSection pfx (Rd.pure ()) s = .ok ((), t) := by
      rw [readSection, Rd.bind, ht, readStringZ_append pfx t hp]
      simp only [Out.bind_ok]
      rw [if_neg (by simp)]; rfl
    have hs : (Fill.store (readSection pfx (Rd.pure ())) (fun _ (a : α) => a) a s).out = .ok t := by
      unfold Fill.store; rw [hr]
    have hv : (Fill.store (readSection pfx (Rd.pure ())) (fun _ (a : α) => a) a s).val = a := by
      unfold Fill.store; rw [hr]
    have hx : x = _ := Fill.seq_ok (g := Fill.field get set f) hs
    rw [hx, hv]
    exact ⟨rfl, rfl⟩
  · rw [not_exists] at h
    refine .inl ⟨h, ?_⟩
    have hr : ∀ r, readSection pfx (Rd.pure ()) s ≠ .ok r := by
      intro r hr
      obtain ⟨t, ht, _⟩ := section_ok (s' := r.2) (a := r.1) hr
      exact h t ht
    have hs : ∀ u, (Fill.store (readSection pfx (Rd.pure ())) (fun _ (a : α) => a) a s).out ≠ .ok u := by
      unfold Fill.store
      cases hc : readSection pfx (Rd.pure ()) s with
      | ok r => exact absurd hc (hr r)
      | _ => intro u hu; cases hu
    have hv : (Fill.store (readSection pfx (Rd.pure ())) (fun _ (a : α) => a) a s).val = a := by
      unfold Fill.store
      cases readSection pfx (Rd.pure ()) s <;> rfl
    have hx : x = _ := Fill.seq_fail (g := Fill.field get set f) hs
    rw [hx]
    exact ⟨hv, hs⟩

theorem Tracks.read_ok {f : Fill α} {r : Rd α} (h : Tracks f fun _ => r) {a : α} {s u : Str} (ho : (f a s).out = .ok u) :
    r s = .ok ((f a s).val, u) := by
  obtain ⟨h1, h2⟩ := h a s
  beta_reduce at h1 h2
  rw [ho] at h1
  cases hr : r s with
  | ok x =>
    rw [hr] at h1
    have h3 := Out.ok.inj h1
    rw [h2 x.1 x.2 hr, h3]
  | err e => rw [hr] at h1; cases h1
  | panic => rw [hr] at h1; cases h1
  | diverge => rw [hr] at h1; cases h1

theorem Tracks.read_fail {f : Fill α} {r : Rd α} (h : Tracks f fun _ => r) {a : α} {s : Str}
    (ho : ∀ u, (f a s).out ≠ .ok u) : ∀ x, r s ≠ .ok x := by
  intro x hx
  exact ho _ (h.ok (a := a) (v := x.1) (s' := x.2) hx).2

theorem fillLoop_left {zero : α} {f : Fill α} {r : Rd α} (h : Tracks f fun _ => r) : ∀ (n : Nat) (s : Str),
    (∀ u, (fillLoop zero f n s).out ≠ .ok u) → ∃ (m : Nat) (l : List α) (x : α) (s' : Str), m < n ∧
      readN r m s = .ok (l, s') ∧ (∀ y, r s' ≠ .ok y) ∧ (fillLoop zero f n s).val = l ++ x :: List.replicate (n - m - 1) zero
  | 0, s, hf => absurd rfl (hf s)
  | n + 1, s, hf => by
    by_cases ho : ∃ u, (f zero s).out = .ok u
    · obtain ⟨u, ho⟩ := ho
      rw [fillLoop_ok ho] at hf ⊢
      obtain ⟨m, l, x, s', h1, h2, h3, h4⟩ := fillLoop_left h n u hf
      refine ⟨m + 1, (f zero s).val :: l, x, s', by omega, ?_, h3, ?_⟩
      · show (Rd.bind r fun a => Rd.bind (readN r m) fun as => Rd.pure (a :: as)) s = _
        unfold Rd.bind
        rw [h.read_ok ho]
        show (readN r m u).bind _ = _
        rw [h2]; rfl
      · simp only
        rw [h4, show n + 1 - (m + 1) - 1 = n - m - 1 by omega]; rfl
    · rw [not_exists] at ho
      rw [fillLoop_fail ho]
      exact ⟨0, [], (f zero s).val, s, by omega, rfl, h.read_fail ho, by simp⟩

theorem slice_left {count : Rd Nat} {zero : α} {f : Fill α} {r : Rd α} (h : Tracks f fun _ => r) (old : List α) (s : Str)
    (hf : ∀ u, (Fill.slice count zero f old s).out ≠ .ok u) :
    LeftList count r zero old (Fill.slice count zero f old s).val s := by
  unfold LeftList
  unfold Fill.slice at hf ⊢
  cases hc : count s with
  | ok x =>
    rw [hc] at hf
    exact fillLoop_left h x.1 x.2 hf
  | _ => rfl

end

theorem items_left (old : Items) (s : Str) (hf : ∀ u, (fillItems old s).out ≠ .ok u) :
    LeftList count32 readItem zeroItem old.items (fillItems old s).val.items s ∧
    (∀ n u, readU32 s = .ok (n, u) → (fillItems old s).val.nextID = n) ∧
    ((∀ r, readU32 s ≠ .ok r) → (fillItems old s).val = old) := by
  unfold LeftList count32
  unfold fillItems at hf ⊢
  rw [Rd.bind]
  cases hc : readU32 s with
  | ok x =>
    rw [hc] at hf
    refine ⟨fillLoop_left tracks_item x.1.toNat x.2 hf, ?_, fun h => absurd rfl (h x)⟩
    intro n u h
    cases h; rfl
  | err e => exact ⟨rfl, fun n u h => (by cases h), fun _ => rfl⟩
  | panic => exact ⟨rfl, fun n u h => (by cases h), fun _ => rfl⟩
  | diverge => exact ⟨rfl, fun n u h => (by cases h), fun _ => rfl⟩

/-- **C67, exactly what a failed load leaves**: the sections read completely are those of the file, the section with the
fault has as many elements as it announces, those after the fault being zero, the sections behind it are the old ones;
the children maps and the number of words are the old ones. -/
theorem C67_exact (ix : Index) (file : Str) (h : ∀ rest, (ix.fill file).out ≠ .ok rest) :
    LeftBy 0 ix file (ix.fill file).val := by
  have hfill : (ix.fill file).val = (Index.fillSections ix file).val ∧ ∀ rest, (Index.fillSections ix file).out ≠ .ok rest := by
    rw [fill_eq] at h ⊢
    cases hx : Index.fillSections ix file with
    | mk v m o =>
      rw [hx] at h
      cases o with
      | ok s' => exact absurd rfl (h s')
      | _ => exact ⟨rfl, fun rest hr => by cases hr⟩
  rw [hfill.1]
  replace h := hfill.2
  clear hfill
  unfold Index.fillSections at h ⊢
  -- the tags
  rcases section_cases (pfx := prefixTD) (by decide) Index.tags (fun x (ix : Index) => { ix with tags := x }) fillTags ix file with
    ⟨h1, h2, h3⟩ | ⟨t, h1, h2, h3⟩
  · rw [Fill.seq_fail h3, h2]
    exact .noTags _ _ h1
  by_cases ho : ∃ u, (fillTags ix.tags t).out = .ok u
  swap
  · rw [not_exists] at ho
    rw [Fill.seq_fail (by rw [h3]; exact ho), h2]
    exact .inTags _ _ t _ h1 (slice_left tracks_tag _ _ ho)
  obtain ⟨u, ho⟩ := ho
  rw [ho] at h3
  rw [Fill.seq_ok h3] at h ⊢
  rw [h2] at h ⊢
  refine .tags _ _ t _ u _ h1 (tracks_tags.read_ok ho) ?_
  clear h1 h2 h3
  generalize ({ ix with tags := (fillTags ix.tags t).val } : Index) = ix at h ⊢
  clear ho t
  -- the sets
  rcases section_cases (pfx := prefixTI) (by decide) Index.tagSets (fun x (ix : Index) => { ix with tagSets := x })
    fillTagSetIndex ix u with ⟨h1, h2, h3⟩ | ⟨t, h1, h2, h3⟩
  · simp only
    rw [Fill.seq_fail h3, h2]
    exact .noSets _ _ h1
  by_cases ho : ∃ w, (fillTagSetIndex ix.tagSets t).out = .ok w
  swap
  · rw [not_exists] at ho
    simp only
    rw [Fill.seq_fail (by rw [h3]; exact ho), h2]
    exact .inSets _ _ t _ h1 (slice_left tracks_tagSetTable _ _ ho)
  obtain ⟨w, ho⟩ := ho
  rw [ho] at h3
  rw [Fill.seq_ok h3] at h ⊢
  rw [h2] at h ⊢
  refine .sets _ _ t _ w _ h1 (tracks_tagSetIndex.read_ok ho) ?_
  clear h1 h2 h3
  generalize ({ ix with tagSets := (fillTagSetIndex ix.tagSets t).val } : Index) = ix at h ⊢
  clear ho t
  -- the collections
  rcases section_cases (pfx := prefixCD) (by decide) Index.collectionIdx (fun x (ix : Index) => { ix with collectionIdx := x })
    fillVariantsIndex ix w with ⟨h1, h2, h3⟩ | ⟨t, h1, h2, h3⟩
  · simp only
    rw [Fill.seq_fail h3, h2]
    exact .noColls _ _ h1
  by_cases ho : ∃ y, (fillVariantsIndex ix.collectionIdx t).out = .ok y
  swap
  · rw [not_exists] at ho
    simp only
    rw [Fill.seq_fail (by rw [h3]; exact ho), h2]
    exact .inColls _ _ t _ h1 (slice_left tracks_variantsTable _ _ ho)
  obtain ⟨y, ho⟩ := ho
  rw [ho] at h3
  rw [Fill.seq_ok h3] at h ⊢
  rw [h2] at h ⊢
  refine .colls _ _ t _ y _ h1 (tracks_variantsIndex.read_ok ho) ?_
  clear h1 h2 h3
  generalize ({ ix with collectionIdx := (fillVariantsIndex ix.collectionIdx t).val } : Index) = ix at h ⊢
  clear ho t
  -- the nodes
  rcases section_cases (pfx := prefixID) (by decide) Index.items (fun x (ix : Index) => { ix with items := x }) fillItems ix y
    with ⟨h1, h2, h3⟩ | ⟨t, h1, h2, h3⟩
  · simp only
    rw [h2]
    exact .noItems _ _ h1
  · simp only at h ⊢
    rw [h3] at h
    rw [h2]
    obtain ⟨g1, g2, g3⟩ := items_left ix.items t h
    exact .inItems _ _ t _ h1 g1 g2 g3

/-! ## Example: a file that ends inside its second tag -/

/-- "TD", two tags announced, the first one complete. -/
def cutInTags : Str := str "TD" ++ [0, 2] ++ str "----" ++ str "NOUN" ++ str "NM"

example (ix : Index) : (∃ e, (ix.fill cutInTags).out = .err e) ∧
    (ix.fill cutInTags).val = { ix with tags := [⟨str "----", str "NOUN"⟩, ⟨[], []⟩] } := ⟨⟨_, rfl⟩, rfl⟩

/-! ## C68 — when a failed load allocates too much -/

/-- If no slice is longer than `B`, the call allocates at most one slot per byte and `j` slices more. -/
def Modest {α : Type} (j : Nat) (f : Fill α) : Prop :=
  ∀ B a s, (∀ n ∈ (f a s).made, n ≤ B) → (f a s).made.sum ≤ s.length + j * B

section
variable {α β : Type}

theorem Modest.store (r : Rd β) (set : β → α → α) : Modest 0 (Fill.store r set) := by
  intro B a s _
  unfold Fill.store
  cases r s <;> simp

theorem Modest.seq {j : Nat} {f g : Fill α} (h : Frugal 0 f) (hf : Modest j f) (hg : Modest j g) :
    Modest j (Fill.seq f g) := by
  intro B a s hB
  by_cases hx : ∃ t, (f a s).out = .ok t
  · obtain ⟨t, ht⟩ := hx
    rw [Fill.seq_ok ht] at hB ⊢
    have h1 := h a s t ht
    have h2 := hg B (f a s).val t fun n hn => hB n (List.mem_append_right _ hn)
    simp only [List.sum_append]
    omega
  · rw [Fill.seq_fail fun t ht => hx ⟨t, ht⟩] at hB ⊢
    exact hf B a s hB

theorem fillLoop_modest {j : Nat} {zero : α} {f : Fill α} (h : Frugal 0 f) (hf : Modest j f) (B : Nat) :
    ∀ n s, (∀ m ∈ (fillLoop zero f n s).made, m ≤ B) → (fillLoop zero f n s).made.sum ≤ s.length + j * B
  | 0, s, _ => by simp [fillLoop]
  | n + 1, s, hB => by
    by_cases hx : ∃ t, (f zero s).out = .ok t
    · obtain ⟨t, ht⟩ := hx
      rw [fillLoop_ok ht] at hB ⊢
      have h1 := h zero s t ht
      have h2 := fillLoop_modest (zero := zero) h hf B n t fun m hm => hB m (List.mem_append_right _ hm)
      simp only [List.sum_append]
      omega
    · rw [fillLoop_fail fun t ht => hx ⟨t, ht⟩] at hB ⊢
      exact hf B zero s hB

theorem Modest.slice {j : Nat} {count : Rd Nat} {zero : α} {f : Fill α} (hc : Eats 1 count) (h : Frugal 1 f)
    (hf : Modest j f) : Modest (j + 1) (Fill.slice count zero f) := by
  intro B a s
  unfold Fill.slice
  cases hr : count s with
  | ok x =>
    obtain ⟨n, t⟩ := x
    intro hB
    have h1 := hc s n t hr
    have h2 : n ≤ B := hB n List.mem_cons_self
    have h3 := fillLoop_modest (zero := zero) (h.le (Nat.zero_le 1)) hf B n t fun m hm => hB m (List.mem_cons_of_mem _ hm)
    simp only [List.sum_cons]
    rw [Nat.add_mul]
    omega
  | err e => simp
  | panic => simp
  | diverge => simp

theorem Modest.field {j : Nat} {get : α → β} {set : β → α → α} {f : Fill β} (h : Modest j f) :
    Modest j (Fill.field get set f) := fun B a s => h B (get a) s

theorem Modest.le {i j : Nat} {f : Fill α} (h : Modest i f) (hj : i ≤ j) : Modest j f :=
  fun B a s hB => (h B a s hB).trans (Nat.add_le_add_left (Nat.mul_le_mul_right _ hj) _)

theorem Modest.section {j : Nat} {pfx : Str} {f : Fill α} (h : Modest j f) : Modest j (fillSection pfx f) :=
  Modest.seq ((Frugal.store (eats_section pfx) _).le (Nat.zero_le 1)) ((Modest.store _ _).le (Nat.zero_le j)) h

end

theorem modest_items : Modest 1 fillItems := by
  intro B a s
  unfold fillItems
  cases hr : readU32 s with
  | ok x =>
    obtain ⟨n, t⟩ := x
    intro hB
    have h1 := eats_U32 s n t hr
    have h2 : n.toNat ≤ B := hB _ List.mem_cons_self
    have hit : Modest 0 fillItem :=
      Modest.seq ((Frugal.store eats_U32 _).le (Nat.zero_le 1)) (Modest.store _ _)
        (Modest.seq ((Frugal.store eats_U32 _).le (Nat.zero_le 1)) (Modest.store _ _)
          (Modest.seq ((Frugal.store eats_U32 _).le (Nat.zero_le 1)) (Modest.store _ _) (Modest.store _ _)))
    have h3 := fillLoop_modest (zero := zeroItem) (frugal_item.le (Nat.zero_le 1)) hit B n.toNat t
      fun m hm => hB m (List.mem_cons_of_mem _ hm)
    simp only [List.sum_cons]
    omega
  | err e => simp
  | panic => simp
  | diverge => simp

/-- **C68, exactly where an excess comes from**: whatever the file and the outcome, a load allocates at most four slots
per byte of the file, unless a count in the file announces more elements than the file has bytes. -/
theorem C68_excess (ix : Index) (file : Str) :
    (ix.fill file).made.sum ≤ 4 * file.length ∨ ∃ n ∈ (ix.fill file).made, file.length < n := by
  have hs : Modest 3 Index.fillSections := by
    unfold Index.fillSections
    refine Modest.seq ((frugal_section frugal_tags.field).le (Nat.zero_le 1)) (Modest.section (Modest.field ?_)) ?_
    · exact (Modest.slice eats_count8 ((Frugal.store eats_name _).seq (Frugal.store eats_name _) |>.le (by omega))
        (Modest.seq ((Frugal.store eats_name _).le (Nat.zero_le 1)) (Modest.store _ _) (Modest.store _ _))).le (by omega)
    refine Modest.seq ((frugal_section frugal_tagSetIndex.field).le (Nat.zero_le 1)) (Modest.section (Modest.field ?_)) ?_
    · exact Modest.slice eats_count32
        (Frugal.slice eats_count16 (Frugal.slice eats_count8 (Frugal.store eats_U8 _)))
        (Modest.slice eats_count16 (Frugal.slice eats_count8 (Frugal.store eats_U8 _))
          (Modest.slice eats_count8 (Frugal.store eats_U8 _) (Modest.store _ _)))
    refine Modest.seq ((frugal_section frugal_variantsIndex.field).le (Nat.zero_le 1)) (Modest.section (Modest.field ?_)) ?_
    · exact Modest.slice eats_count8
        (Frugal.slice eats_count32 (Frugal.slice eats_count8 (Frugal.store eats_U32 _)))
        (Modest.slice eats_count32 (Frugal.slice eats_count8 (Frugal.store eats_U32 _))
          (Modest.slice eats_count8 (Frugal.store eats_U32 _) (Modest.store _ _)))
    exact Modest.section (Modest.field (modest_items.le (by omega)))
  have hm : (ix.fill file).made = (Index.fillSections ix file).made := by
    rw [fill_eq]
    cases hx : Index.fillSections ix file with
    | mk v m o => cases o <;> rfl
  rw [hm]
  by_cases h : ∃ n ∈ (Index.fillSections ix file).made, file.length < n
  · exact .inr h
  · have hB : ∀ n ∈ (Index.fillSections ix file).made, n ≤ file.length := by
      intro n hn
      by_contra hc
      exact h ⟨n, hn, by omega⟩
    have := hs file.length ix file hB
    exact .inl (by omega)

/-- Both happen: an announced table of readings for which there is room in the file, and one for which there is none. -/
example (ix : Index) : (ix.fill (bomb 2)).made = [0, 2] ∧ (bomb 2).length = 11 ∧ (ix.fill (bomb 100)).made = [0, 100] :=
  ⟨rfl, rfl, rfl⟩

end Verif
