import Verif.Model.Receiver
import Verif.Lemmas.Canonical

/-! # Helper lemmas: reading into a receiver -/

namespace Verif

/-- The method `f` gives the results of the function `r` (which may depend on the old receiver). -/
def Tracks {α : Type} (f : Fill α) (r : α → Rd α) : Prop :=
  ∀ a s, (f a s).out = (r a s).bind (fun x => .ok x.2) ∧ ∀ v s', r a s = .ok (v, s') → (f a s).val = v

section
variable {α β : Type}

theorem Tracks.ok {f : Fill α} {r : α → Rd α} (h : Tracks f r) {a : α} {s : Str} {v : α} {s' : Str}
    (e : r a s = .ok (v, s')) : (f a s).val = v ∧ (f a s).out = .ok s' := by
  obtain ⟨h1, h2⟩ := h a s
  rw [e] at h1
  exact ⟨h2 v s' e, h1⟩

theorem Tracks.not_ok {f : Fill α} {r : α → Rd α} (h : Tracks f r) {a : α} {s : Str}
    (e : ∀ v s', r a s ≠ .ok (v, s')) : ∀ s', (f a s).out ≠ .ok s' := by
  obtain ⟨h1, -⟩ := h a s
  intro s' he
  rw [he] at h1
  cases hr : r a s with
  | ok x => exact e x.1 x.2 hr
  | err e => rw [hr] at h1; cases h1
  | panic => rw [hr] at h1; cases h1
  | diverge => rw [hr] at h1; cases h1

theorem Rd.bind_assoc {γ : Type} (r : Rd α) (f : α → Rd β) (g : β → Rd γ) :
    Rd.bind (Rd.bind r f) g = Rd.bind r fun a => Rd.bind (f a) g := by
  funext s
  unfold Rd.bind
  cases r s <;> rfl

theorem Rd.pure_bind (a : α) (f : α → Rd β) : Rd.bind (Rd.pure a) f = f a := rfl

theorem Tracks.store (r : Rd β) (set : β → α → α) :
    Tracks (Fill.store r set) fun a => Rd.bind r fun b => Rd.pure (set b a) := by
  intro a s
  unfold Fill.store Rd.bind
  beta_reduce
  cases hr : r s with
  | ok x =>
    refine ⟨rfl, ?_⟩
    intro v s' h
    obtain ⟨rfl, -⟩ := Prod.mk.inj (Out.ok.inj h)
    rfl
  | err e => exact ⟨rfl, fun v s' h => (nomatch h)⟩
  | panic => exact ⟨rfl, fun v s' h => (nomatch h)⟩
  | diverge => exact ⟨rfl, fun v s' h => (nomatch h)⟩

theorem Fill.seq_ok {f g : Fill α} {a : α} {s s' : Str} (h : (f a s).out = .ok s') :
    Fill.seq f g a s = { val := (g (f a s).val s').val, made := (f a s).made ++ (g (f a s).val s').made,
                         out := (g (f a s).val s').out } := by
  unfold Fill.seq
  cases hx : f a s with
  | mk v m o =>
    rw [hx] at h
    simp only at h
    subst h
    rfl

theorem Fill.seq_fail {f g : Fill α} {a : α} {s : Str} (h : ∀ s', (f a s).out ≠ .ok s') : Fill.seq f g a s = f a s := by
  unfold Fill.seq
  cases hx : f a s with
  | mk v m o =>
    rw [hx] at h
    cases o with
    | ok s' => exact absurd rfl (h s')
    | _ => rfl

theorem Tracks.seq {f g : Fill α} {r q : α → Rd α} (hf : Tracks f r) (hg : Tracks g q) :
    Tracks (Fill.seq f g) fun a => Rd.bind (r a) q := by
  intro a s
  show _ = ((Rd.bind (r a) q) s).bind _ ∧ _
  unfold Rd.bind
  beta_reduce
  cases hr : r a s with
  | ok x =>
    obtain ⟨b, t⟩ := x
    obtain ⟨h1, h2⟩ := hf.ok hr
    rw [Fill.seq_ok h2, h1]
    exact hg b t
  | err e =>
    have h1 := (hf a s).1
    rw [hr] at h1
    rw [Fill.seq_fail (by rw [h1]; intro s' h; cases h)]
    exact ⟨h1, fun v s' h => (nomatch h)⟩
  | panic =>
    have h1 := (hf a s).1
    rw [hr] at h1
    rw [Fill.seq_fail (by rw [h1]; intro s' h; cases h)]
    exact ⟨h1, fun v s' h => (nomatch h)⟩
  | diverge =>
    have h1 := (hf a s).1
    rw [hr] at h1
    rw [Fill.seq_fail (by rw [h1]; intro s' h; cases h)]
    exact ⟨h1, fun v s' h => (nomatch h)⟩

theorem Tracks.field {get : α → β} {set : β → α → α} {f : Fill β} {r : Rd β} (h : Tracks f fun _ => r) :
    Tracks (Fill.field get set f) fun a => Rd.bind r fun b => Rd.pure (set b a) := by
  intro a s
  obtain ⟨h1, h2⟩ := h (get a) s
  beta_reduce at h1 h2
  unfold Fill.field Rd.bind
  beta_reduce
  cases hr : r s with
  | ok x =>
    obtain ⟨b, t⟩ := x
    rw [hr] at h1
    refine ⟨h1, ?_⟩
    intro v s' e
    obtain ⟨rfl, -⟩ := Prod.mk.inj (Out.ok.inj e)
    show set (f (get a) s).val a = set b a
    rw [h2 b t hr]
  | err e => rw [hr] at h1; exact ⟨h1, fun v s' h => (nomatch h)⟩
  | panic => rw [hr] at h1; exact ⟨h1, fun v s' h => (nomatch h)⟩
  | diverge => rw [hr] at h1; exact ⟨h1, fun v s' h => (nomatch h)⟩

theorem fillLoop_ok {zero : α} {f : Fill α} {n : Nat} {s s' : Str} (h : (f zero s).out = .ok s') :
    fillLoop zero f (n + 1) s = { val := (f zero s).val :: (fillLoop zero f n s').val,
                                  made := (f zero s).made ++ (fillLoop zero f n s').made,
                                  out := (fillLoop zero f n s').out } := by
  unfold fillLoop
  cases hx : f zero s with
  | mk v m o =>
    rw [hx] at h
    simp only at h
    subst h
    cases n <;> rfl

theorem fillLoop_fail {zero : α} {f : Fill α} {n : Nat} {s : Str} (h : ∀ s', (f zero s).out ≠ .ok s') :
    fillLoop zero f (n + 1) s = { val := (f zero s).val :: List.replicate n zero, made := (f zero s).made,
                                  out := (f zero s).out } := by
  unfold fillLoop
  cases hx : f zero s with
  | mk v m o =>
    rw [hx] at h
    cases o with
    | ok s' => exact absurd rfl (h s')
    | _ => rfl

theorem fillLoop_tracks {zero : α} {f : Fill α} {r : α → Rd α} (h : Tracks f r) : ∀ n s,
    (fillLoop zero f n s).out = (readN (r zero) n s).bind (fun x => .ok x.2) ∧
      ∀ v s', readN (r zero) n s = .ok (v, s') → (fillLoop zero f n s).val = v
  | 0, s => by
    refine ⟨rfl, ?_⟩
    intro v s' e
    obtain ⟨rfl, -⟩ := Prod.mk.inj (Out.ok.inj e)
    rfl
  | n + 1, s => by
    show _ = ((Rd.bind (r zero) fun a => Rd.bind (readN (r zero) n) fun as => Rd.pure (a :: as)) s).bind _ ∧
      ∀ v s', (Rd.bind (r zero) fun a => Rd.bind (readN (r zero) n) fun as => Rd.pure (a :: as)) s = _ → _
    unfold Rd.bind
    beta_reduce
    cases hr : r zero s with
    | ok x =>
      obtain ⟨b, t⟩ := x
      obtain ⟨h1, h2⟩ := h.ok hr
      obtain ⟨i1, i2⟩ := fillLoop_tracks (zero := zero) h n t
      rw [fillLoop_ok h2]
      show (fillLoop zero f n t).out = ((readN (r zero) n t).bind _).bind _ ∧
        ∀ v s', (readN (r zero) n t).bind _ = _ → _
      cases hn : readN (r zero) n t with
      | ok y =>
        obtain ⟨l, u⟩ := y
        rw [hn] at i1
        refine ⟨i1, ?_⟩
        intro v s' e
        obtain ⟨rfl, -⟩ := Prod.mk.inj (Out.ok.inj e)
        show (f zero s).val :: (fillLoop zero f n t).val = b :: l
        rw [h1, i2 l u hn]
      | err e => rw [hn] at i1; exact ⟨i1, fun v s' h => (nomatch h)⟩
      | panic => rw [hn] at i1; exact ⟨i1, fun v s' h => (nomatch h)⟩
      | diverge => rw [hn] at i1; exact ⟨i1, fun v s' h => (nomatch h)⟩
    | err e =>
      have h1 := (h zero s).1
      rw [hr] at h1
      rw [fillLoop_fail (by rw [h1]; intro s' h; cases h)]
      exact ⟨h1, fun v s' h => (nomatch h)⟩
    | panic =>
      have h1 := (h zero s).1
      rw [hr] at h1
      rw [fillLoop_fail (by rw [h1]; intro s' h; cases h)]
      exact ⟨h1, fun v s' h => (nomatch h)⟩
    | diverge =>
      have h1 := (h zero s).1
      rw [hr] at h1
      rw [fillLoop_fail (by rw [h1]; intro s' h; cases h)]
      exact ⟨h1, fun v s' h => (nomatch h)⟩

theorem Tracks.slice {count : Rd Nat} {zero : α} {f : Fill α} {r : α → Rd α} (h : Tracks f r) :
    Tracks (Fill.slice count zero f) fun _ => Rd.bind count fun n => readN (r zero) n := by
  intro old s
  unfold Fill.slice Rd.bind
  beta_reduce
  cases hc : count s with
  | ok x => exact fillLoop_tracks h x.1 x.2
  | err e => exact ⟨rfl, fun v s' h => (nomatch h)⟩
  | panic => exact ⟨rfl, fun v s' h => (nomatch h)⟩
  | diverge => exact ⟨rfl, fun v s' h => (nomatch h)⟩

end

theorem tracks_tag : Tracks fillTag fun _ => readTag := by
  have h := (Tracks.store readName fun n (t : Tag) => { t with parent := n }).seq
    (Tracks.store readName fun n (t : Tag) => { t with name := n })
  simp only [Rd.bind_assoc, Rd.pure_bind] at h
  exact h

theorem tracks_tags : Tracks fillTags fun _ => readTags := by
  have h := Tracks.slice (count := count8) (zero := { parent := [], name := [] }) tracks_tag
  unfold count8 at h
  simp only [Rd.bind_assoc, Rd.pure_bind] at h
  exact h

theorem tracks_tagSet : Tracks fillTagSet fun _ => readTagSet := by
  have h := Tracks.slice (count := count8) (zero := (0 : UInt8)) (Tracks.store readU8 fun n _ => n)
  unfold count8 at h
  simp only [Rd.bind_assoc, Rd.pure_bind] at h
  have e : (Rd.bind readU8 fun b => Rd.pure b) = readU8 := by
    funext s; unfold Rd.bind; cases readU8 s <;> rfl
  rw [e] at h
  exact h

theorem tracks_tagSetTable : Tracks fillTagSetTable fun _ => readTagSetTable := by
  have h := Tracks.slice (count := count16) (zero := []) tracks_tagSet
  unfold count16 at h
  simp only [Rd.bind_assoc, Rd.pure_bind] at h
  exact h

theorem tracks_tagSetIndex : Tracks fillTagSetIndex fun _ => readTagSetIndex := by
  have h := Tracks.slice (count := count32) (zero := []) tracks_tagSetTable
  unfold count32 at h
  simp only [Rd.bind_assoc, Rd.pure_bind] at h
  exact h

theorem tracks_coll : Tracks fillColl fun _ => readColl := by
  have h := Tracks.slice (count := count8) (zero := (0 : UInt32)) (Tracks.store readU32 fun n _ => n)
  unfold count8 at h
  simp only [Rd.bind_assoc, Rd.pure_bind] at h
  have e : (Rd.bind readU32 fun b => Rd.pure b) = readU32 := by
    funext s; unfold Rd.bind; cases readU32 s <;> rfl
  rw [e] at h
  exact h

theorem tracks_variantsTable : Tracks fillVariantsTable fun _ => readVariantsTable := by
  have h := Tracks.slice (count := count32) (zero := []) tracks_coll
  unfold count32 at h
  simp only [Rd.bind_assoc, Rd.pure_bind] at h
  exact h

theorem tracks_variantsIndex : Tracks fillVariantsIndex fun _ => readVariantsIndex := by
  have h := Tracks.slice (count := count8) (zero := []) tracks_variantsTable
  unfold count8 at h
  simp only [Rd.bind_assoc, Rd.pure_bind] at h
  exact h

theorem tracks_item : Tracks fillItem fun _ => readItem := by
  have h := (Tracks.store readU32 fun n (i : Item) => { i with parent := n }).seq
    ((Tracks.store readU32 fun n (i : Item) => { i with id := n }).seq
      ((Tracks.store readU32 fun n (i : Item) => { i with letter := n.toInt32 }).seq
        (Tracks.store readU32 fun n (i : Item) => { i with variants := n })))
  simp only [Rd.bind_assoc, Rd.pure_bind] at h
  exact h

theorem tracks_items : Tracks fillItems fun _ => readItems := by
  intro old s
  unfold fillItems readItems
  show _ = (Rd.bind readU32 _ s).bind _ ∧ _
  unfold Rd.bind
  beta_reduce
  cases hc : readU32 s with
  | ok x =>
    obtain ⟨n, t⟩ := x
    obtain ⟨h1, h2⟩ := fillLoop_tracks (zero := zeroItem) tracks_item n.toNat t
    simp only [Out.bind]
    cases hn : readN readItem n.toNat t with
    | ok y =>
      rw [hn] at h1
      refine ⟨h1, ?_⟩
      intro v s' e
      obtain ⟨rfl, -⟩ := Prod.mk.inj (Out.ok.inj e)
      show ({ items := (fillLoop zeroItem fillItem n.toNat t).val, nextID := n } : Items) = _
      rw [h2 y.1 y.2 hn]
    | err e => rw [hn] at h1; exact ⟨h1, fun v s' h => (nomatch h)⟩
    | panic => rw [hn] at h1; exact ⟨h1, fun v s' h => (nomatch h)⟩
    | diverge => rw [hn] at h1; exact ⟨h1, fun v s' h => (nomatch h)⟩
  | err e => exact ⟨rfl, fun v s' h => (nomatch h)⟩
  | panic => exact ⟨rfl, fun v s' h => (nomatch h)⟩
  | diverge => exact ⟨rfl, fun v s' h => (nomatch h)⟩

theorem section_bind {α : Type} (pfx : Str) (r : Rd α) :
    (Rd.bind (readSection pfx (Rd.pure ())) fun _ => r) = readSection pfx r := by
  unfold readSection
  rw [Rd.bind_assoc]
  congr 1
  funext s
  split
  · rfl
  · rfl

theorem section_of_bind {α β : Type} (pfx : Str) (r : Rd α) (f : α → Rd β) :
    readSection pfx (Rd.bind r f) = Rd.bind (readSection pfx r) f := by
  rw [← section_bind pfx r, Rd.bind_assoc, section_bind]

theorem Tracks.section {α : Type} {pfx : Str} {f : Fill α} {r : α → Rd α} (h : Tracks f r) :
    Tracks (fillSection pfx f) fun a => readSection pfx (r a) := by
  have := (Tracks.store (readSection pfx (Rd.pure ())) fun _ (a : α) => a).seq h
  simp only [← section_of_bind, Rd.pure_bind] at this
  exact this

theorem tracks_sections : Tracks Index.fillSections fun ix =>
    Rd.bind (readSection prefixTD readTags) fun tags =>
    Rd.bind (readSection prefixTI readTagSetIndex) fun tagSets =>
    Rd.bind (readSection prefixCD readVariantsIndex) fun colls =>
    Rd.bind (readSection prefixID readItems) fun items =>
    Rd.pure { ix with tags := tags, tagSets := tagSets, collectionIdx := colls, items := items } := by
  have h := (tracks_tags.field (get := Index.tags) (set := fun x ix => { ix with tags := x })).section (pfx := prefixTD)
  have h := h.seq ((((tracks_tagSetIndex.field (get := Index.tagSets)
    (set := fun x ix => { ix with tagSets := x })).section (pfx := prefixTI))).seq
    ((((tracks_variantsIndex.field (get := Index.collectionIdx)
      (set := fun x ix => { ix with collectionIdx := x })).section (pfx := prefixCD))).seq
      ((tracks_items.field (get := Index.items) (set := fun x ix => { ix with items := x })).section (pfx := prefixID))))
  simp only [section_of_bind, Rd.bind_assoc, Rd.pure_bind] at h
  exact h

/-- The method gives the result of `load`. -/
theorem tracks_load : Tracks Index.fill fun ix => ix.load := by
  intro ix s
  obtain ⟨h1, h2⟩ := tracks_sections ix s
  beta_reduce at h1 h2 ⊢
  have hl : ix.load = Rd.bind (Rd.bind (readSection prefixTD readTags) fun tags =>
      Rd.bind (readSection prefixTI readTagSetIndex) fun tagSets =>
      Rd.bind (readSection prefixCD readVariantsIndex) fun colls =>
      Rd.bind (readSection prefixID readItems) fun items =>
      Rd.pure ({ ix with tags := tags, tagSets := tagSets, collectionIdx := colls, items := items } : Index))
      fun jx => Rd.pure jx.rebuildChildren := by
    simp only [Rd.bind_assoc, Rd.pure_bind]
    rfl
  rw [hl]
  generalize (Rd.bind (readSection prefixTD readTags) fun tags =>
      Rd.bind (readSection prefixTI readTagSetIndex) fun tagSets =>
      Rd.bind (readSection prefixCD readVariantsIndex) fun colls =>
      Rd.bind (readSection prefixID readItems) fun items =>
      Rd.pure ({ ix with tags := tags, tagSets := tagSets, collectionIdx := colls, items := items } : Index)) = r at h1 h2
  show (match Index.fillSections ix s with
    | { val := ix, made := m, out := .ok s } => { val := ix.rebuildChildren, made := m, out := .ok s }
    | x => x : Filled Index).out = _ ∧ ∀ v s', _ → (match Index.fillSections ix s with
    | { val := ix, made := m, out := .ok s } => { val := ix.rebuildChildren, made := m, out := .ok s }
    | x => x : Filled Index).val = _
  unfold Rd.bind
  beta_reduce
  cases hx : Index.fillSections ix s with
  | mk v m o =>
    rw [hx] at h1 h2
    simp only at h1 h2
    subst h1
    cases hr : r s with
    | ok y =>
      refine ⟨rfl, ?_⟩
      intro w s' e
      obtain ⟨rfl, -⟩ := Prod.mk.inj (Out.ok.inj e)
      show v.rebuildChildren = _
      rw [h2 y.1 y.2 hr]
    | err e => exact ⟨rfl, fun v s' h => (nomatch h)⟩
    | panic => exact ⟨rfl, fun v s' h => (nomatch h)⟩
    | diverge => exact ⟨rfl, fun v s' h => (nomatch h)⟩

/-! ## Allocation -/

/-- A successful call of `f` allocates at most one slot per byte it consumed beyond the first `k`. -/
def Frugal {α : Type} (k : Nat) (f : Fill α) : Prop :=
  ∀ a s s', (f a s).out = .ok s' → (f a s).made.sum + k + s'.length ≤ s.length

section
variable {α β : Type}

/-- A reader that consumes at least `k` bytes. -/
def Eats (k : Nat) (r : Rd β) : Prop := ∀ s b s', r s = .ok (b, s') → k + s'.length ≤ s.length

theorem Frugal.store {k : Nat} {r : Rd β} (h : Eats k r) (set : β → α → α) : Frugal k (Fill.store r set) := by
  intro a s s' e
  unfold Fill.store at e ⊢
  cases hr : r s with
  | ok x =>
    rw [hr] at e
    obtain rfl := Out.ok.inj e
    have := h s x.1 x.2 hr
    simpa using this
  | err e' => rw [hr] at e; cases e
  | panic => rw [hr] at e; cases e
  | diverge => rw [hr] at e; cases e

theorem Frugal.seq {k l : Nat} {f g : Fill α} (hf : Frugal k f) (hg : Frugal l g) : Frugal (k + l) (Fill.seq f g) := by
  intro a s s' e
  by_cases hx : ∃ t, (f a s).out = .ok t
  · obtain ⟨t, ht⟩ := hx
    rw [Fill.seq_ok ht] at e ⊢
    have h1 := hf a s t ht
    have h2 := hg _ t s' e
    simp only [List.sum_append]
    omega
  · rw [Fill.seq_fail fun t ht => hx ⟨t, ht⟩] at e
    exact absurd ⟨s', e⟩ hx

theorem Frugal.field {k : Nat} {get : α → β} {set : β → α → α} {f : Fill β} (h : Frugal k f) :
    Frugal k (Fill.field get set f) := fun a s s' e => h (get a) s s' e

theorem fillLoop_frugal {zero : α} {f : Fill α} (h : Frugal 1 f) : ∀ n s s', (fillLoop zero f n s).out = .ok s' →
    (fillLoop zero f n s).made.sum + n + s'.length ≤ s.length
  | 0, s, s', e => by
    obtain rfl := Out.ok.inj e
    simp [fillLoop]
  | n + 1, s, s', e => by
    by_cases hx : ∃ t, (f zero s).out = .ok t
    · obtain ⟨t, ht⟩ := hx
      rw [fillLoop_ok ht] at e ⊢
      have h1 := h zero s t ht
      have h2 := fillLoop_frugal h n t s' e
      simp only [List.sum_append]
      omega
    · rw [fillLoop_fail fun t ht => hx ⟨t, ht⟩] at e
      exact absurd ⟨s', e⟩ hx

theorem Frugal.slice {count : Rd Nat} {zero : α} {f : Fill α} (hc : Eats 1 count) (h : Frugal 1 f) :
    Frugal 1 (Fill.slice count zero f) := by
  intro a s s' e
  unfold Fill.slice at e ⊢
  cases hr : count s with
  | ok x =>
    obtain ⟨n, t⟩ := x
    rw [hr] at e
    have h1 := hc s n t hr
    have h2 := fillLoop_frugal h n t s' e
    simp only [List.sum_cons]
    omega
  | err e' => rw [hr] at e; cases e
  | panic => rw [hr] at e; cases e
  | diverge => rw [hr] at e; cases e

theorem Eats.bind {γ : Type} {k l : Nat} {r : Rd β} {f : β → Rd γ} (h1 : Eats k r) (h2 : ∀ b, Eats l (f b)) :
    Eats (k + l) (Rd.bind r f) := by
  intro s b s' e
  obtain ⟨a, t, e1, e2⟩ := Rd.bind_ok e
  have := h1 s a t e1
  have := h2 a t b s' e2
  omega

theorem Eats.le {k l : Nat} {r : Rd β} (h : Eats k r) (hl : l ≤ k) : Eats l r := by
  intro s b s' e
  have := h s b s' e
  omega

theorem Eats.pure (b : β) : Eats 0 (Rd.pure b) := by
  intro s c s' e
  obtain ⟨-, rfl⟩ := Prod.mk.inj (Out.ok.inj e)
  omega

theorem Frugal.le {k l : Nat} {f : Fill α} (h : Frugal k f) (hl : l ≤ k) : Frugal l f := by
  intro a s s' e
  have := h a s s' e
  omega

end

theorem eats_U8 : Eats 1 readU8 := by
  intro s b s' e
  obtain ⟨-, rfl⟩ := Canon_U8 _ _ _ e
  simp [writeU8, Wr.put]; omega
theorem eats_U16 : Eats 1 readU16 := by
  intro s b s' e
  obtain ⟨-, rfl⟩ := Canon_U16 _ _ _ e
  simp [writeU16, Wr.put]; omega
theorem eats_U32 : Eats 1 readU32 := by
  intro s b s' e
  obtain ⟨-, rfl⟩ := Canon_U32 _ _ _ e
  simp [writeU32, Wr.put]; omega
theorem eats_name : Eats 1 readName := by
  intro s b s' e
  obtain ⟨n, h, rfl, -⟩ := readName_ok e
  rw [List.length_append]; omega
theorem eats_section (pfx : Str) : Eats 1 (readSection pfx (Rd.pure ())) := by
  intro s b s' e
  obtain ⟨t, rfl, h⟩ := section_ok e
  obtain ⟨-, rfl⟩ := Prod.mk.inj (Out.ok.inj h)
  simp; omega
theorem eats_count8 : Eats 1 count8 := eats_U8.bind (l := 0) fun _ => Eats.pure _
theorem eats_count16 : Eats 1 count16 := eats_U16.bind (l := 0) fun _ => Eats.pure _
theorem eats_count32 : Eats 1 count32 := eats_U32.bind (l := 0) fun _ => Eats.pure _

theorem frugal_tags : Frugal 1 fillTags :=
  Frugal.slice eats_count8 ((Frugal.store eats_name _).seq (Frugal.store eats_name _) |>.le (by omega))
theorem frugal_tagSetIndex : Frugal 1 fillTagSetIndex :=
  Frugal.slice eats_count32 (Frugal.slice eats_count16 (Frugal.slice eats_count8 (Frugal.store eats_U8 _)))
theorem frugal_variantsIndex : Frugal 1 fillVariantsIndex :=
  Frugal.slice eats_count8 (Frugal.slice eats_count32 (Frugal.slice eats_count8 (Frugal.store eats_U32 _)))
theorem frugal_item : Frugal 1 fillItem :=
  ((Frugal.store eats_U32 _).seq ((Frugal.store eats_U32 _).seq
    ((Frugal.store eats_U32 _).seq (Frugal.store eats_U32 _)))).le (by omega)
theorem frugal_items : Frugal 1 fillItems := by
  intro a s s' e
  unfold fillItems at e ⊢
  cases hr : readU32 s with
  | ok x =>
    obtain ⟨n, t⟩ := x
    rw [hr] at e
    have h1 := eats_U32 s n t hr
    have h2 := fillLoop_frugal frugal_item n.toNat t s' e
    simp only [List.sum_cons]
    omega
  | err e' => rw [hr] at e; cases e
  | panic => rw [hr] at e; cases e
  | diverge => rw [hr] at e; cases e

theorem frugal_section {α : Type} {pfx : Str} {f : Fill α} (h : Frugal 1 f) : Frugal 1 (fillSection pfx f) :=
  ((Frugal.store (eats_section pfx) _).seq h).le (by omega)

theorem frugal_sections : Frugal 1 Index.fillSections :=
  ((frugal_section frugal_tags.field).seq ((frugal_section frugal_tagSetIndex.field).seq
    ((frugal_section frugal_variantsIndex.field).seq (frugal_section frugal_items.field)))).le (by omega)

theorem fill_eq (ix : Index) (s : Str) : ix.fill s = match Index.fillSections ix s with
    | { val := ix, made := m, out := .ok s } => { val := ix.rebuildChildren, made := m, out := .ok s }
    | x => x := rfl

theorem frugal_fill : Frugal 1 Index.fill := by
  intro ix s s' e
  have h := frugal_sections ix s s'
  rw [fill_eq] at e ⊢
  cases hx : Index.fillSections ix s with
  | mk v m o =>
    rw [hx] at e h
    cases o with
    | ok t => exact h e
    | _ => cases e

end Verif
