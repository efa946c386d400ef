import Verif.Lemmas.Receiver
import Verif.Props.LoadSafety

/-!
# C67, C68, C69 — what a load does to the index it is called on

`Index.fill` is `BinaryReadFrom` with its effects: `val` is the index afterwards, also after an error, and `made` are the
lengths of the slices that were allocated.
-/

namespace Verif

/-- `fill` and `load` describe the same call: the same success or error, the same rest of the stream, and on success the
same index. -/
theorem C67_outcome (ix : Index) (file : Str) :
    (∀ r rest, ix.load file = .ok (r, rest) → (ix.fill file).val = r ∧ (ix.fill file).out = .ok rest) ∧
    (∀ e, ix.load file = .err e → (ix.fill file).out = .err e) := by
  refine ⟨fun r rest h => tracks_load.ok (a := ix) h, fun e h => ?_⟩
  have := (tracks_load ix file).1
  beta_reduce at this
  rw [h] at this
  exact this

/-! ## C67 — a failed load -/

/-- C67, the part that holds: a file that is refused for its first marker, or ends before the number of tags, leaves the
index as it was. -/
theorem C67_partial (ix : Index) (file : Str) (h : file.length ≤ 3 ∨ ¬ str "TD" ++ [0] <+: file) :
    (∃ e, (ix.fill file).out = .err e) ∧ (ix.fill file).val = ix := by
  have herr : ∃ e, ix.load file = .err e := by
    rcases NoCrash_load ix file with ⟨⟨r, rest⟩, hx⟩ | h'
    · exfalso
      obtain ⟨k, names, -, -, hf, -⟩ := load_parts hx
      rcases h with h | h
      · rw [hf] at h
        simp [prefixTD, prefixTI] at h
      · refine h ?_
        rw [hf]
        exact List.prefix_append _ _
    · exact h'
  obtain ⟨e, he⟩ := herr
  have hout := (C67_outcome ix file).2 e he
  refine ⟨⟨e, hout⟩, ?_⟩
  have hmark : (∀ s', (Fill.store (readSection prefixTD (Rd.pure ())) (fun _ (a : Index) => a) ix file).out ≠ .ok s') ∨
      file = prefixTD ++ [0] := by
    by_contra hc
    rw [not_or] at hc
    obtain ⟨h1, h2⟩ := hc
    rw [not_forall] at h1
    obtain ⟨s', h1⟩ := h1
    rw [ne_eq, not_not] at h1
    unfold Fill.store at h1
    cases hr : readSection prefixTD (Rd.pure ()) file with
    | ok x =>
      obtain ⟨t, rfl, h3⟩ := section_ok hr
      rcases h with h | h
      · apply h2
        have : t = [] := by
          apply List.length_eq_zero_iff.1
          simp [prefixTD] at h
          exact List.length_eq_zero_iff.2 h
        rw [this]
      · exact h (List.prefix_append (prefixTD ++ [0]) t |>.trans (by simp))
    | err e => rw [hr] at h1; cases h1
    | panic => rw [hr] at h1; cases h1
    | diverge => rw [hr] at h1; cases h1
  rcases hmark with h1 | rfl
  · have hv : (Fill.store (readSection prefixTD (Rd.pure ())) (fun _ (a : Index) => a) ix file).val = ix := by
      unfold Fill.store
      cases readSection prefixTD (Rd.pure ()) file <;> rfl
    have hs : Index.fillSections ix file =
        Fill.store (readSection prefixTD (Rd.pure ())) (fun _ (a : Index) => a) ix file := by
      unfold Index.fillSections fillSection
      rw [Fill.seq_fail, Fill.seq_fail h1]
      rw [Fill.seq_fail h1]; exact h1
    rw [fill_eq, hs]
    generalize Fill.store (readSection prefixTD (Rd.pure ())) (fun _ (a : Index) => a) ix file = x at h1 hv
    obtain ⟨v, m, o⟩ := x
    cases o with
    | ok s' => exact absurd rfl (h1 s')
    | _ => exact hv
  · rfl

example : ∃ file : Str, file.length ≤ 3 ∨ ¬ str "TD" ++ [0] <+: file := ⟨str "TD", by decide⟩
example : ¬ str "TD" ++ [0] <+: str "PK\x03\x04 some other file" := by decide

theorem seq_keeps {α γ : Type} {f g : Fill α} {p : α → γ} (hf : ∀ a s, p (f a s).val = p a)
    (hg : ∀ a s, p (g a s).val = p a) (a : α) (s : Str) : p (Fill.seq f g a s).val = p a := by
  by_cases hx : ∃ t, (f a s).out = .ok t
  · obtain ⟨t, ht⟩ := hx
    rw [Fill.seq_ok ht]
    exact (hg _ _).trans (hf a s)
  · rw [Fill.seq_fail fun t ht => hx ⟨t, ht⟩]
    exact hf a s

theorem section_keeps {α γ : Type} {pfx : Str} {f : Fill α} {p : α → γ} (hf : ∀ a s, p (f a s).val = p a) (a : α)
    (s : Str) : p (fillSection pfx f a s).val = p a := by
  refine seq_keeps (fun b t => ?_) hf a s
  unfold Fill.store
  cases readSection pfx (Rd.pure ()) t <;> rfl

/-- What only the last step of a load touches. -/
def keptParts (ix : Index) : (ID → Option IdMap) × Nat := (ix.childrenMap, ix.wordsCount)

/-- Whatever the failure, the children maps and the number of words stay as they were. -/
theorem C67_kept (ix : Index) (file : Str) (h : ∀ rest, (ix.fill file).out ≠ .ok rest) :
    (ix.fill file).val.childrenMap = ix.childrenMap ∧ (ix.fill file).val.wordsCount = ix.wordsCount := by
  have hs : (Index.fillSections ix file).val.childrenMap = ix.childrenMap ∧
      (Index.fillSections ix file).val.wordsCount = ix.wordsCount := by
    have := seq_keeps (p := keptParts)
      (section_keeps (pfx := prefixTD) (f := Fill.field Index.tags (fun x (ix : Index) => { ix with tags := x }) fillTags)
        fun _ _ => rfl)
      (seq_keeps (section_keeps (pfx := prefixTI)
          (f := Fill.field Index.tagSets (fun x (ix : Index) => { ix with tagSets := x }) fillTagSetIndex) fun _ _ => rfl)
        (seq_keeps (section_keeps (pfx := prefixCD)
            (f := Fill.field Index.collectionIdx (fun x (ix : Index) => { ix with collectionIdx := x }) fillVariantsIndex)
            fun _ _ => rfl)
          (section_keeps (pfx := prefixID) (f := Fill.field Index.items (fun x (ix : Index) => { ix with items := x }) fillItems)
            fun _ _ => rfl))) ix file
    exact Prod.mk.inj this
  rw [fill_eq] at h ⊢
  cases hx : Index.fillSections ix file with
  | mk v m o =>
    rw [hx] at h hs
    cases o with
    | ok s' => exact absurd rfl (h s')
    | _ => exact hs

/-- The dictionary used in the counterexamples: the word "a" with the reading NOUN. -/
def nounHistory : List Op := [.tagID (str "NOUN") [], .addRunes [0x61], .addTagSet 1 [str "NOUN"]]

/-- C67 fails: a file that ends after "no tags" is refused, but the index has lost its tags and answers differently. -/
theorem not_C67 : ∃ ix, Run nounHistory ix ∧ ∃ file e, ix.load file = .err e ∧
    ix.tagSetsOf 1 = .ok [[⟨str "----", str "NOUN"⟩]] ∧
    (ix.fill file).val.tagSetsOf 1 = .ok [[⟨[], []⟩]] :=
  ⟨_, small_runs nounHistory (by decide), str "TD" ++ [0, 0], _, rfl, by decide, by decide⟩

/-- C67 fails for lookups as well: after a refused file whose node section announces one node, a word that was there is
not found, and a node obtained before panics. -/
theorem not_C67_lookup : ∃ ix, Run nounHistory ix ∧ ∃ file e, ix.load file = .err e ∧
    (ix.fetchString (str "a")).2 = .ok 1 ∧ ((ix.fill file).val.fetchString (str "a")).2 = .err (.noSuchNode 1) ∧
    (ix.fill file).val.tagSetsOf 1 = .panic :=
  ⟨_, small_runs nounHistory (by decide),
    str "TD" ++ [0, 0] ++ str "TI" ++ [0, 0, 0, 0, 0] ++ str "CD" ++ [0, 0] ++ str "ID" ++ [0, 0, 0, 0, 1], _, rfl,
    by decide, by decide, by decide⟩

/-! ## C68 — memory -/

/-- The number of slots a failing reader can have allocated beyond the bytes it was given. -/
def Greedy {α : Type} (c : Nat) (f : Fill α) : Prop := ∀ a s, (f a s).made.sum ≤ s.length + c

section
variable {α β : Type}

theorem Greedy.store (r : Rd β) (set : β → α → α) : Greedy 0 (Fill.store r set) := by
  intro a s
  unfold Fill.store
  cases r s <;> simp

theorem Greedy.seq {c : Nat} {f g : Fill α} (h : Frugal 0 f) (hf : Greedy c f) (hg : Greedy c g) :
    Greedy c (Fill.seq f g) := by
  intro a s
  by_cases hx : ∃ t, (f a s).out = .ok t
  · obtain ⟨t, ht⟩ := hx
    rw [Fill.seq_ok ht]
    have h1 := h a s t ht
    have h2 := hg (f a s).val t
    simp only [List.sum_append]
    omega
  · rw [Fill.seq_fail fun t ht => hx ⟨t, ht⟩]
    exact hf a s

theorem fillLoop_greedy {c : Nat} {zero : α} {f : Fill α} (h : Frugal 0 f) (hf : Greedy c f) :
    ∀ n s, (fillLoop zero f n s).made.sum ≤ s.length + c
  | 0, s => by simp [fillLoop]
  | n + 1, s => by
    by_cases hx : ∃ t, (f zero s).out = .ok t
    · obtain ⟨t, ht⟩ := hx
      rw [fillLoop_ok ht]
      have h1 := h zero s t ht
      have h2 := fillLoop_greedy (zero := zero) h hf n t
      simp only [List.sum_append]
      omega
    · rw [fillLoop_fail fun t ht => hx ⟨t, ht⟩]
      exact hf zero s

theorem Greedy.slice {c k : Nat} {count : Rd Nat} {zero : α} {f : Fill α} (hc : Eats 1 count)
    (hk : ∀ s n t, count s = .ok (n, t) → n ≤ k) (h : Frugal 1 f) (hf : Greedy c f) :
    Greedy (c + k) (Fill.slice count zero f) := by
  intro a s
  unfold Fill.slice
  cases hr : count s with
  | ok x =>
    obtain ⟨n, t⟩ := x
    have h1 := hc s n t hr
    have h2 := hk s n t hr
    have h3 := fillLoop_greedy (zero := zero) (h.le (Nat.zero_le 1)) hf n t
    simp only [List.sum_cons]
    omega
  | err e => simp
  | panic => simp
  | diverge => simp

theorem Greedy.field {c : Nat} {get : α → β} {set : β → α → α} {f : Fill β} (h : Greedy c f) :
    Greedy c (Fill.field get set f) := fun a s => h (get a) s

theorem Greedy.le {c d : Nat} {f : Fill α} (h : Greedy c f) (hd : c ≤ d) : Greedy d f :=
  fun a s => (h a s).trans (by omega)

theorem Greedy.section {c : Nat} {pfx : Str} {f : Fill α} (h : Greedy c f) : Greedy c (fillSection pfx f) :=
  Greedy.seq ((Frugal.store (eats_section pfx) _).le (Nat.zero_le 1)) ((Greedy.store _ _).le (Nat.zero_le c)) h

end

theorem count8_le (s : Str) (n : Nat) (t : Str) (h : count8 s = .ok (n, t)) : n ≤ 255 := by
  obtain ⟨k, u, -, h2⟩ := Rd.bind_ok h
  obtain ⟨rfl, -⟩ := Prod.mk.inj (Out.ok.inj h2)
  have := k.toNat_lt
  omega
theorem count16_le (s : Str) (n : Nat) (t : Str) (h : count16 s = .ok (n, t)) : n ≤ 65535 := by
  obtain ⟨k, u, -, h2⟩ := Rd.bind_ok h
  obtain ⟨rfl, -⟩ := Prod.mk.inj (Out.ok.inj h2)
  have := k.toNat_lt
  omega
theorem count32_le (s : Str) (n : Nat) (t : Str) (h : count32 s = .ok (n, t)) : n ≤ 4294967295 := by
  obtain ⟨k, u, -, h2⟩ := Rd.bind_ok h
  obtain ⟨rfl, -⟩ := Prod.mk.inj (Out.ok.inj h2)
  have := k.toNat_lt
  omega

theorem greedy_items : Greedy 4294967295 fillItems := by
  intro a s
  unfold fillItems
  cases hr : readU32 s with
  | ok x =>
    obtain ⟨n, t⟩ := x
    have h1 := eats_U32 s n t hr
    have hit : Greedy 0 fillItem :=
      Greedy.seq ((Frugal.store eats_U32 _).le (Nat.zero_le 1)) (Greedy.store _ _)
        (Greedy.seq ((Frugal.store eats_U32 _).le (Nat.zero_le 1)) (Greedy.store _ _)
          (Greedy.seq ((Frugal.store eats_U32 _).le (Nat.zero_le 1)) (Greedy.store _ _) (Greedy.store _ _)))
    have h3 := fillLoop_greedy (zero := zeroItem) (frugal_item.le (Nat.zero_le 1)) hit n.toNat t
    have := n.toNat_lt
    simp only [List.sum_cons]
    omega
  | err e => simp
  | panic => simp
  | diverge => simp

/-- C68, the part that holds: a load that succeeds has allocated, over all slices together, fewer slots than the bytes
it consumed. Missing: loads that fail, see `not_C68` and `C68_bound`. -/
theorem C68_partial (ix : Index) (file rest : Str) (r : Index) (h : ix.load file = .ok (r, rest)) :
    (ix.fill file).made.sum + rest.length < file.length := by
  have := frugal_fill ix file rest ((C67_outcome ix file).1 r rest h).2
  omega

/-- Also a load that fails allocates at most as many slots as the file has bytes, plus what one count of each nested
level can announce. -/
theorem C68_bound (ix : Index) (file : Str) :
    (ix.fill file).made.sum ≤ file.length + (4294967295 + 65535 + 255) := by
  have hs : Greedy (4294967295 + 65535 + 255) Index.fillSections := by
    unfold Index.fillSections
    refine Greedy.seq ((frugal_section frugal_tags.field).le (Nat.zero_le 1)) (Greedy.section (Greedy.field ?_)) ?_
    · exact (Greedy.slice eats_count8 count8_le ((Frugal.store eats_name _).seq (Frugal.store eats_name _) |>.le (by omega))
        (Greedy.seq ((Frugal.store eats_name _).le (Nat.zero_le 1)) (Greedy.store _ _) (Greedy.store _ _))).le (by omega)
    refine Greedy.seq ((frugal_section frugal_tagSetIndex.field).le (Nat.zero_le 1)) (Greedy.section (Greedy.field ?_)) ?_
    · exact (Greedy.slice eats_count32 count32_le
        (Frugal.slice eats_count16 (Frugal.slice eats_count8 (Frugal.store eats_U8 _)))
        (Greedy.slice eats_count16 count16_le (Frugal.slice eats_count8 (Frugal.store eats_U8 _))
          (Greedy.slice eats_count8 count8_le (Frugal.store eats_U8 _) (Greedy.store _ _)))).le (by omega)
    refine Greedy.seq ((frugal_section frugal_variantsIndex.field).le (Nat.zero_le 1)) (Greedy.section (Greedy.field ?_)) ?_
    · exact (Greedy.slice eats_count8 count8_le
        (Frugal.slice eats_count32 (Frugal.slice eats_count8 (Frugal.store eats_U32 _)))
        (Greedy.slice eats_count32 count32_le (Frugal.slice eats_count8 (Frugal.store eats_U32 _))
          (Greedy.slice eats_count8 count8_le (Frugal.store eats_U32 _) (Greedy.store _ _)))).le (by omega)
    exact Greedy.section (Greedy.field (greedy_items.le (by omega)))
  have := hs ix file
  rw [fill_eq]
  cases hx : Index.fillSections ix file with
  | mk v m o =>
    rw [hx] at this
    cases o <;> exact this

/-- Eleven bytes: no tags, and the number of tag set tables. -/
def bomb (n : UInt32) : Str := str "TD" ++ [0, 0] ++ (str "TI" ++ 0 :: (writeU32 n).bytes)

theorem bomb_tables (ix : Index) (n : UInt32) (hn : n ≠ 0) :
    (fillSection prefixTI (Fill.field (·.tagSets) (fun x ix => { ix with tagSets := x }) fillTagSetIndex) ix
        (str "TI" ++ 0 :: (writeU32 n).bytes)).made = [n.toNat] ∧
    ∃ e, (fillSection prefixTI (Fill.field (·.tagSets) (fun x ix => { ix with tagSets := x }) fillTagSetIndex) ix
        (str "TI" ++ 0 :: (writeU32 n).bytes)).out = .err e := by
  have hc : count32 (writeU32 n).bytes = .ok (n.toNat, []) := by
    have := RT_U32 n []
    rw [List.append_nil] at this
    unfold count32 Rd.bind
    rw [this]
    rfl
  obtain ⟨k, hk⟩ : ∃ k, n.toNat = k + 1 := ⟨n.toNat - 1, by
    have : n.toNat ≠ 0 := fun h => hn (UInt32.toNat_inj.1 h)
    omega⟩
  have hf : (fillTagSetTable [] []).made = [] ∧ ∃ e, (fillTagSetTable [] []).out = .err e := ⟨rfl, _, rfl⟩
  obtain ⟨hm, e, he⟩ := hf
  unfold fillSection
  rw [Fill.seq_ok (s' := (writeU32 n).bytes) rfl]
  unfold Fill.field fillTagSetIndex Fill.slice
  simp only [hc]
  rw [hk, fillLoop_fail (by rw [he]; intro s' h; cases h)]
  exact ⟨by simp [hm, Fill.store]; rfl, e, he⟩

/-- C68 fails: eleven bytes make the loader allocate any number of slots up to 2³² − 1 before it reports an error. -/
theorem not_C68 (ix : Index) (n : UInt32) (hn : n ≠ 0) : (bomb n).length = 11 ∧
    (∃ e, ix.load (bomb n) = .err e) ∧ n.toNat ∈ (ix.fill (bomb n)).made := by
  have hA : (fillSection prefixTD (Fill.field (·.tags) (fun x (ix : Index) => { ix with tags := x }) fillTags) ix
      (bomb n)).out = .ok (str "TI" ++ 0 :: (writeU32 n).bytes) := rfl
  obtain ⟨hm, e, he⟩ := bomb_tables (fillSection prefixTD (Fill.field (·.tags)
    (fun x (ix : Index) => { ix with tags := x }) fillTags) ix (bomb n)).val n hn
  have hs : (Index.fillSections ix (bomb n)).out = .err e ∧ n.toNat ∈ (Index.fillSections ix (bomb n)).made := by
    unfold Index.fillSections
    rw [Fill.seq_ok hA, Fill.seq_fail (by rw [he]; intro s' h; cases h)]
    exact ⟨he, by simp [hm]⟩
  have hfill : ix.fill (bomb n) = Index.fillSections ix (bomb n) := by
    rw [fill_eq]
    cases hx : Index.fillSections ix (bomb n) with
    | mk v m o =>
      rw [hx] at hs
      obtain rfl := hs.1
      rfl
  refine ⟨rfl, ?_, by rw [hfill]; exact hs.2⟩
  rcases NoCrash_load ix (bomb n) with ⟨⟨r, rest⟩, h⟩ | h
  · have := ((C67_outcome ix _).1 r rest h).2
    rw [hfill, hs.1] at this
    cases this
  · exact h

/-! ## C69 — counters of a loaded index -/

theorem loaded_length {into r : Index} {file rest : Str} (h : into.load file = .ok (r, rest)) :
    r.items.items.length = r.items.nextID.toNat := by
  obtain ⟨_, _, _, _, _, _, _, _, hit, _⟩ := load_parts h
  exact hit

/-- The index after adding one letter below the root. -/
def withChild (ix : Index) (its : Items) (c : Rune) : Index :=
  let m := Index.setChild (Index.ensureChildren ix.childrenMap 0) 0 c ix.items.nextID
  { ix with items := its, childrenMap := m }

/-- C69, the part that holds: load any file. If the index knows the root (`Get(0)` succeeds), then `Get` succeeds
exactly for the ids up to `NodesCount`, and a new word gets the next id. Missing: files without any node, see
`not_C69`. -/
theorem C69_partial (into r : Index) (file rest : Str) (h : into.load file = .ok (r, rest)) (h0 : r.get 0 = .ok 0) :
    (∀ id, (∃ n, r.get id = .ok n) ↔ id.toNat ≤ r.nodesCount) ∧
    (∀ c, r.children c = none → r.nodesCount + 2 < 4294967296 →
      (r.addRunes [c]).2 = .ok (UInt32.ofNat (r.nodesCount + 1)) ∧
      (r.addRunes [c]).1.nodesCount = r.nodesCount + 1 ∧
      ((r.addRunes [c]).1.fetchRunes [c]).2 = .ok (UInt32.ofNat (r.nodesCount + 1))) := by
  have hlen := loaded_length h
  have hpos : 0 < r.items.nextID.toNat := by
    unfold Index.get at h0
    by_contra hc
    rw [if_pos (by show r.items.nextID.toNat ≤ 0; omega)] at h0
    cases h0
  have hc : r.nodesCount = r.items.nextID.toNat - 1 := by
    unfold Index.nodesCount
    rw [UInt32.toNat_sub_of_le _ _ (by rw [UInt32.le_iff_toNat_le]; exact hpos)]
    rfl
  refine ⟨?_, ?_⟩
  · intro id
    rw [hc]
    unfold Index.get
    split
    · exact ⟨fun ⟨n, h⟩ => (nomatch h), fun h => by omega⟩
    · exact ⟨fun _ => by omega, fun _ => ⟨_, rfl⟩⟩
  · intro c hcc hroom
    have hnext : UInt32.ofNat (r.nodesCount + 1) = r.items.nextID := by
      apply UInt32.toNat_inj.1
      rw [UInt32.toNat_ofNat', hc]
      omega
    have hsucc : (r.items.nextID + 1).toNat = r.items.nextID.toNat + 1 := by
      rw [UInt32.toNat_add, Nat.mod_eq_of_lt]
      · rfl
      · simp; omega
    obtain ⟨its, e1, e2, -⟩ := newChild_spec r.items 0 c (by omega)
    obtain ⟨im, him⟩ := ensureChildren_isSome r.childrenMap 0
    have hnone : im c = none := by
      have := ensureChildren_getD r.childrenMap 0 0
      rw [him] at this
      simp only [Option.getD_some] at this
      rw [this]
      exact hcc
    have hstep : r.addStep 0 c = some (withChild r its c, r.items.nextID) := by
      unfold Index.addStep Index.getChildrenIDMap
      simp only [him, Option.getD_some, hnone, e1]
      rfl
    have hadd : r.addRunes [c] = (withChild r its c, .ok r.items.nextID) := by
      unfold Index.addRunes Index.addToNode Index.addLoop
      rw [if_neg (by simp), hstep]
      simp only [if_true]
      unfold Index.get withChild
      simp only [e2]
      rw [if_neg (by rw [hsucc]; omega)]
    rw [hadd, hnext]
    refine ⟨rfl, ?_, ?_⟩
    · unfold Index.nodesCount withChild
      simp only [e2]
      rw [UInt32.add_sub_cancel]
      show _ = r.nodesCount + 1
      omega
    · have hset : Index.setChild (Index.ensureChildren r.childrenMap 0) 0 c r.items.nextID 0 =
          some (fun x => if x = c then some r.items.nextID else im x) := by
        unfold Index.setChild
        rw [him]
        simp only [if_true]
      unfold Index.fetchRunes Index.fetchFromItem Index.getChildrenIDMap Index.ensureChildren
      unfold withChild
      simp only [hset, Option.getD_some, if_true]
      unfold Index.get
      simp only [e2]
      rw [if_neg (by rw [hsucc]; omega)]

/-- The file of an empty index, and a word that it does not have. -/
example : ∃ r, Index.new.load Index.new.save.bytes = .ok (r, []) ∧ r.get 0 = .ok 0 ∧ r.children 0x61 = none ∧
    r.nodesCount + 2 < 4294967296 := ⟨_, rfl, by decide, by decide, by decide⟩

/-- The file without any node. -/
def emptyFile : Str :=
  str "TD" ++ [0, 0] ++ str "TI" ++ [0, 0, 0, 0, 0] ++ str "CD" ++ [0, 0] ++ str "ID" ++ [0, 0, 0, 0, 0]

/-- C69 fails: a file that announces no nodes at all is loaded without an error. The index then claims 4 294 967 295
nodes but knows none of them, and the words added next are mixed up: after adding "ab" the word "b" is found. -/
theorem not_C69 : ∃ r, Index.new.load emptyFile = .ok (r, []) ∧ r.nodesCount = 4294967295 ∧
    (∀ id, ∃ e, r.get id = .err e) ∧ (r.addString (str "ab")).2 = .ok 1 ∧
    ((r.addString (str "ab")).1.fetchString (str "b")).2 = .ok 1 ∧
    (r.addString (str "ab")).1.word 1 = .ok (str "b") := by
  refine ⟨_, rfl, by decide, ?_, by decide, by decide, by decide⟩
  intro id
  unfold Index.get
  exact ⟨_, if_pos (Nat.zero_le _)⟩

end Verif
