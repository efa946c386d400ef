import Verif.Lemmas.Words
import Verif.Lemmas.Basic

/-! # Helper lemmas: the trie part of the index refines the list of words -/

namespace Verif

/-- Same content; only empty child maps may differ. -/
structure Index.Obs (ix ix' : Index) : Prop where
  tags : ix'.tags = ix.tags
  tagSets : ix'.tagSets = ix.tagSets
  collectionIdx : ix'.collectionIdx = ix.collectionIdx
  items : ix'.items = ix.items
  children : ix'.getChildrenMap = ix.getChildrenMap
  wordsCount : ix'.wordsCount = ix.wordsCount

theorem Index.Obs.refl (ix : Index) : Index.Obs ix ix := ⟨rfl, rfl, rfl, rfl, rfl, rfl⟩

theorem Index.Obs.trans {a b c : Index} (h : Index.Obs a b) (h' : Index.Obs b c) : Index.Obs a c :=
  ⟨h'.tags.trans h.tags, h'.tagSets.trans h.tagSets, h'.collectionIdx.trans h.collectionIdx,
    h'.items.trans h.items, h'.children.trans h.children, h'.wordsCount.trans h.wordsCount⟩

theorem ensureChildren_getD (m : ID → Option IdMap) (id k : ID) :
    ((Index.ensureChildren m id) k).getD (fun _ => none) = (m k).getD (fun _ => none) := by
  unfold Index.ensureChildren
  cases h : m id with
  | some _ => rfl
  | none =>
    simp only
    split
    · rename_i hk; subst hk; rw [h]; rfl
    · rfl

theorem ensureChildren_isSome (m : ID → Option IdMap) (id : ID) :
    ∃ im, Index.ensureChildren m id id = some im := by
  unfold Index.ensureChildren
  cases h : m id with
  | some im => exact ⟨im, h⟩
  | none => exact ⟨_, if_pos rfl⟩

theorem getChildrenIDMap_obs (ix : Index) (id : ID) : Index.Obs ix (ix.getChildrenIDMap id).1 := by
  refine ⟨rfl, rfl, rfl, rfl, ?_, rfl⟩
  funext k
  exact ensureChildren_getD ix.childrenMap id k

theorem getChildrenIDMap_snd (ix : Index) (id : ID) :
    (ix.getChildrenIDMap id).2 = ix.getChildrenMap id :=
  ensureChildren_getD ix.childrenMap id id

theorem word_obs {ix ix' : Index} (h : Index.Obs ix ix') (id : ID) : ix'.word id = ix.word id := by
  unfold Index.word; rw [h.items]

theorem get_obs {ix ix' : Index} (h : Index.Obs ix ix') (id : ID) : ix'.get id = ix.get id := by
  unfold Index.get; rw [h.items]

theorem fetchFromItem_obs (ix : Index) (p : ID) (rs : List Rune) :
    Index.Obs ix (ix.fetchFromItem p rs).1 := by
  induction rs generalizing ix p with
  | nil => exact .refl _
  | cons r rest ih =>
    have h := getChildrenIDMap_obs ix p
    unfold Index.fetchFromItem
    split
    rename_i ix1 cm heq
    rw [heq] at h
    split
    · exact h
    · split
      · exact h
      · exact h.trans (ih _ _)

theorem fetchItemFromParent_obs (ix : Index) (p : ID) (rs : List Rune) :
    Index.Obs ix (ix.fetchItemFromParent p rs).1 := by
  induction rs generalizing ix p with
  | nil => exact .refl _
  | cons r rest ih =>
    have h := getChildrenIDMap_obs ix p
    unfold Index.fetchItemFromParent
    split
    rename_i ix1 cm heq
    rw [heq] at h
    split
    · exact h
    · split
      · exact h
      · exact h.trans (ih _ _)

/-- The trie stores the words `nodes`; see `Spec/Dictionary.lean` for `nul`. -/
structure TrieOK (ix : Index) (d : Dict) : Prop where
  root : d.nodes[0]? = some []
  nodup : d.nodes.Nodup
  next : ix.items.nextID.toNat = d.nodes.length
  cap : d.nodes.length ≤ ix.items.items.length
  item0 : ix.items.items[0]? = some zeroItem
  item : ∀ k, 0 < k → k < d.nodes.length → ∃ it w, ix.items.items[k]? = some it ∧ it.id.toNat = k ∧
    it.parent.toNat < k ∧ d.nodes[it.parent.toNat]? = some w ∧ d.nodes[k]? = some (w ++ [it.letter])
  child : ∀ p l c, ix.getChildrenMap p l = some c ↔
    (∃ w, d.nodes[p.toNat]? = some w ∧ d.nodes[c.toNat]? = some (w ++ [l])) ∨
    (d.nul = true ∧ p = 0 ∧ l = 0 ∧ c = 0)
  nul : d.nul = true → [0] ∉ d.nodes

theorem TrieOK.congr {ix ix' : Index} {d d' : Dict} (h : TrieOK ix d) (hi : ix'.items = ix.items)
    (hc : ix'.getChildrenMap = ix.getChildrenMap) (hn : d'.nodes = d.nodes) (hu : d'.nul = d.nul) :
    TrieOK ix' d' := by
  constructor
  · rw [hn]; exact h.root
  · rw [hn]; exact h.nodup
  · rw [hn, hi]; exact h.next
  · rw [hn, hi]; exact h.cap
  · rw [hi]; exact h.item0
  · rw [hn, hi]; exact h.item
  · rw [hn, hu, hc]; exact h.child
  · rw [hn, hu]; exact h.nul

theorem TrieOK.obs {ix ix' : Index} {d : Dict} (h : TrieOK ix d) (ho : Index.Obs ix ix') :
    TrieOK ix' d := h.congr ho.items ho.children rfl rfl

theorem TrieOK.new : TrieOK Index.new Dict.empty := by
  constructor
  · rfl
  · simp [Dict.empty]
  · rfl
  · simp [Dict.empty, Index.new, Items.new]
  · rfl
  · intro k h1 h2
    simp only [Dict.empty, List.length_cons, List.length_nil] at h2
    omega
  · intro p l c
    simp only [Index.getChildrenMap, Index.new, Option.getD_none, Dict.empty]
    constructor
    · intro h; cases h
    · rintro (⟨w, _, h2⟩ | ⟨h, _⟩)
      · have := List.mem_of_getElem? h2
        simp at this
      · cases h
  · intro h; cases h

namespace TrieOK

variable {ix : Index} {d : Dict}

theorem length_pos (h : TrieOK ix d) : 0 < d.nodes.length :=
  (List.getElem?_eq_some_iff.1 h.root).1

theorem root_mem (h : TrieOK ix d) : ([] : List Rune) ∈ d.nodes := List.mem_of_getElem? h.root

theorem lt_next {k : Nat} {w : List Rune} (hk : d.nodes[k]? = some w) : k < d.nodes.length :=
  (List.getElem?_eq_some_iff.1 hk).1

theorem length_lt (h : TrieOK ix d) : d.nodes.length < 4294967296 := by
  rw [← h.next]; exact ix.items.nextID.toNat_lt

theorem idx_unique (h : TrieOK ix d) {i j : Nat} {w : List Rune} (hi : d.nodes[i]? = some w)
    (hj : d.nodes[j]? = some w) : i = j := nodup_getElem?_inj h.nodup hi hj

/-- Every prefix of a word with a node has a node. -/
theorem closed (h : TrieOK ix d) {k : Nat} {w : List Rune} (hk : d.nodes[k]? = some w) :
    ∀ p, p <+: w → p ∈ d.nodes := by
  induction k using Nat.strong_induction_on generalizing w with
  | _ k ih =>
    intro p hp
    by_cases hk0 : k = 0
    · subst hk0
      have hw : w = [] := by rw [h.root] at hk; exact (Option.some.inj hk).symm
      subst hw
      rw [List.prefix_nil.1 hp]
      exact h.root_mem
    · obtain ⟨it, w', _, _, h3, h4, h5⟩ := h.item k (by omega) (lt_next hk)
      have hw : w = w' ++ [it.letter] := by rw [h5] at hk; exact (Option.some.inj hk).symm
      subst hw
      rcases List.prefix_concat_iff.1 hp with rfl | hp
      · exact List.mem_of_getElem? hk
      · exact ih _ h3 h4 p hp

theorem prefixes_mem (h : TrieOK ix d) {k : Nat} {w : List Rune} (hk : d.nodes[k]? = some w) :
    ∀ p ∈ prefixes w, p ∈ d.nodes := fun p hp => h.closed hk p (mem_prefixes.1 hp).2

theorem exists_idx {w : List Rune} (hw : w ∈ d.nodes) : ∃ k : Nat, d.nodes[k]? = some w := by
  obtain ⟨k, hk, rfl⟩ := List.getElem_of_mem hw
  exact ⟨k, List.getElem?_eq_getElem hk⟩

theorem exists_id (h : TrieOK ix d) {w : List Rune} (hw : w ∈ d.nodes) :
    ∃ id : ID, d.nodes[id.toNat]? = some w := by
  obtain ⟨k, hk⟩ := exists_idx hw
  have h1 := lt_next hk
  have h2 := h.length_lt
  refine ⟨UInt32.ofNat k, ?_⟩
  rw [UInt32.toNat_ofNat', Nat.mod_eq_of_lt (by omega)]
  exact hk

theorem get_ok (h : TrieOK ix d) {id : ID} {w : List Rune} (hw : d.nodes[id.toNat]? = some w) :
    ix.get id = .ok id := by
  have := lt_next hw
  unfold Index.get
  rw [h.next, if_neg (by omega)]

theorem items_get (h : TrieOK ix d) {id : ID} (h0 : 0 < id.toNat) (h1 : id.toNat < d.nodes.length) :
    ∃ it w, ix.items.get id = some it ∧ ix.items.items[id.toNat]? = some it ∧ it.id.toNat = id.toNat ∧
      it.parent.toNat < id.toNat ∧ d.nodes[it.parent.toNat]? = some w ∧
      d.nodes[id.toNat]? = some (w ++ [it.letter]) := by
  obtain ⟨it, w, h2, h3⟩ := h.item id.toNat h0 h1
  refine ⟨it, w, ?_, h2, h3⟩
  unfold Items.get
  rw [if_neg (by omega), if_neg (by rw [h.next]; omega), h2]

theorem items_get_none (h : TrieOK ix d) {id : ID}
    (h0 : ¬ (0 < id.toNat ∧ id.toNat < d.nodes.length)) : ix.items.get id = none := by
  unfold Items.get
  split
  · rfl
  · rw [if_pos (by rw [h.next]; omega)]

theorem toNat_eq_zero {id : ID} : id.toNat = 0 ↔ id = 0 := by
  rw [← UInt32.toNat_inj]; rfl

/-- C03's core: `Word()` of the node of `w` is the UTF-8 text of `w`. -/
theorem wordFuel_eq (h : TrieOK ix d) (n : Nat) (id : ID) (w : List Rune)
    (hw : d.nodes[id.toNat]? = some w) (hn : id.toNat < n) :
    Index.wordFuel n ix.items id = .ok (encodeRunes w) := by
  induction n generalizing id w with
  | zero => omega
  | succ n ih =>
    unfold Index.wordFuel
    by_cases h0 : id = 0
    · subst h0
      have : w = [] := by
        have := h.root
        rw [show (0 : ID).toNat = 0 from rfl] at hw
        rw [hw] at this; exact Option.some.inj this
      subst this
      rfl
    · rw [if_neg h0]
      have h1 : 0 < id.toNat := Nat.pos_of_ne_zero fun h' => h0 (toNat_eq_zero.1 h')
      obtain ⟨it, w', hg, _, _, hlt, hp, hk⟩ := h.items_get h1 (lt_next hw)
      have hww : w = w' ++ [it.letter] := by rw [hk] at hw; exact (Option.some.inj hw).symm
      rw [hg]
      simp only
      by_cases hpz : it.parent = 0
      · rw [if_neg (by simpa using hpz)]
        have : w' = [] := by
          have hr := h.root
          rw [hpz, show (0 : ID).toNat = 0 from rfl] at hp
          rw [hp] at hr; exact Option.some.inj hr
        subst this
        rw [hww]
        simp [encodeRunes]
      · rw [if_pos hpz, ih it.parent w' hp (by omega)]
        rw [hww]
        simp [encodeRunes]

theorem word_eq (h : TrieOK ix d) {id : ID} {w : List Rune} (hw : d.nodes[id.toNat]? = some w) :
    ix.word id = .ok (encodeRunes w) :=
  h.wordFuel_eq _ id w hw (by rw [h.next]; have := lt_next hw; omega)

/-- One step down. -/
theorem child_some (h : TrieOK ix d) {p : ID} {w : List Rune} (hp : d.nodes[p.toNat]? = some w)
    (r : Rune) (c : ID) :
    ix.getChildrenMap p r = some c ↔ d.nodes[c.toNat]? = some (d.join w [r]) := by
  rw [h.child]
  rcases d.join_single w r with ⟨hj, hn⟩ | ⟨rfl, hu, rfl, hj⟩
  · rw [hj]
    constructor
    · rintro (⟨w', h1, h2⟩ | ⟨h1, rfl, rfl, rfl⟩)
      · rw [hp] at h1
        obtain rfl := Option.some.inj h1
        exact h2
      · exfalso
        apply hn
        rw [show (0 : ID).toNat = 0 from rfl, h.root] at hp
        exact ⟨(Option.some.inj hp).symm, h1, rfl⟩
    · intro h1
      exact .inl ⟨w, hp, h1⟩
  · rw [hj]
    constructor
    · rintro (⟨w', h1, h2⟩ | ⟨_, rfl, _, rfl⟩)
      · rw [hp] at h1
        obtain rfl := Option.some.inj h1
        exact absurd (List.mem_of_getElem? h2) (h.nul hu)
      · exact h.root
    · intro h1
      have h2 := h.idx_unique h1 h.root
      have h3 := h.idx_unique hp h.root
      exact .inr ⟨hu, toNat_eq_zero.1 h3, rfl, toNat_eq_zero.1 h2⟩

theorem child_none (h : TrieOK ix d) {p : ID} {w : List Rune} (hp : d.nodes[p.toNat]? = some w)
    (r : Rune) : ix.getChildrenMap p r = none ↔ d.join w [r] ∉ d.nodes := by
  constructor
  · intro hn hm
    obtain ⟨c, hc⟩ := h.exists_id hm
    rw [(h.child_some hp r c).2 hc] at hn
    cases hn
  · intro hm
    cases hc : ix.getChildrenMap p r with
    | none => rfl
    | some c => exact absurd (List.mem_of_getElem? ((h.child_some hp r c).1 hc)) hm

/-- The outcome of a lookup that starts at a known node. -/
def FetchSpec (d : Dict) (w rs : List Rune) (res : Out ID) : Prop :=
  (∃ id : ID, d.nodes[id.toNat]? = some (d.join w rs) ∧ res = .ok id) ∨
  (∃ pre r post, d.join w rs = pre ++ r :: post ∧ w <+: pre ∧ pre ∈ d.nodes ∧ pre ++ [r] ∉ d.nodes ∧
    res = .err (.notFound (encodeRunes pre) r))

theorem join_prefix (d : Dict) (w rs : List Rune) : w <+: d.join w rs := by
  unfold Dict.join
  split
  · rename_i h; rw [h.1]; exact List.nil_prefix
  · exact List.prefix_append _ _

theorem fetchFromItem_spec (h : TrieOK ix d) (p : ID) (w rs : List Rune)
    (hp : d.nodes[p.toNat]? = some w) (hrs : rs ≠ []) :
    FetchSpec d w rs (ix.fetchFromItem p rs).2 := by
  induction rs generalizing ix p w with
  | nil => exact absurd rfl hrs
  | cons r rest ih =>
    have ho := getChildrenIDMap_obs ix p
    have hs := getChildrenIDMap_snd ix p
    unfold Index.fetchFromItem
    split
    rename_i ix1 cm heq
    rw [heq] at ho hs
    simp only at ho hs
    subst hs
    have h1 := h.obs ho
    split
    · rename_i hn
      right
      rw [word_obs ho, h.word_eq hp]
      have hnm := (h.child_none hp r).1 hn
      rcases d.join_single w r with ⟨hj, _⟩ | ⟨rfl, hu, rfl, hj⟩
      · rw [hj] at hnm
        refine ⟨w, r, rest, ?_, List.prefix_refl _, List.mem_of_getElem? hp, hnm, rfl⟩
        rw [← d.join_step, hj]
        unfold Dict.join
        rw [if_neg (by simp)]
        simp
      · rw [hj] at hnm
        exact absurd h.root_mem hnm
    · rename_i c hc
      have hc' := (h.child_some hp r c).1 hc
      split
      · rename_i he
        subst he
        left
        exact ⟨c, hc', by rw [get_obs ho, h.get_ok hc']⟩
      · rename_i he
        have := ih h1 c _ hc' he
        unfold FetchSpec at this ⊢
        rw [d.join_step] at this
        rcases this with h' | ⟨pre, r', post, e1, e2, e3⟩
        · exact .inl h'
        · exact .inr ⟨pre, r', post, e1, (join_prefix d w [r]).trans e2, e3⟩

theorem fetchItemFromParent_eq (h : TrieOK ix d) (p : ID) (w rs : List Rune)
    (hp : d.nodes[p.toNat]? = some w) :
    (ix.fetchItemFromParent p rs).2 = (ix.fetchFromItem p rs).2 := by
  induction rs generalizing ix p w with
  | nil => rfl
  | cons r rest ih =>
    have ho := getChildrenIDMap_obs ix p
    have hs := getChildrenIDMap_snd ix p
    unfold Index.fetchItemFromParent Index.fetchFromItem
    generalize ix.getChildrenIDMap p = x at *
    obtain ⟨ix1, cm⟩ := x
    simp only at ho hs ⊢
    subst hs
    have h1 := h.obs ho
    cases hc : ix.getChildrenMap p r with
    | none => rfl
    | some c =>
      have hc' := (h.child_some hp r c).1 hc
      simp only
      split
      · rw [h1.get_ok hc']
      · exact ih h1 c _ hc'

end TrieOK

end Verif
