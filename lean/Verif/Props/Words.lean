import Verif.Lemmas.Answers
import Verif.Props.Utf8

/-!
# C01–C08, C53, C54 — words, nodes and lookups

`Run h ix`: the calls `h`, made one after another on a new index, stayed within capacity and led to `ix`
(`Spec/Dictionary.lean`; every history that satisfies the decidable bounds `Small` is such a run, see
`Props/Capacity.lean`). The histories contain every call that can change an index: adding words, lookups,
registering tags, tagging, `Optimize`, and saving followed by loading. `dictOf h` is the dictionary those calls
describe; `(dictOf h).words` are the sequences added.

The condition `NoReload h ∨ NoLeadingNul q` excludes exactly the case in which the code deviates: after
loading, lookups starting with NUL (see C18). What the code does then is `C02_exact`, `C03_exact`, `C05_exact` and
`C53_exact`; that the condition cannot be dropped is `not_C02`, `not_C03`, `not_C05` and `not_C53`
(`Props/WordsNul.lean`).
-/

namespace Verif

/-! ## Lookups across save and load -/

/-- Once leading NULs are skipped, they are skipped for ever. -/
theorem Run.nul_stays {h h' : List Op} {ix' : Index} (r' : Run (h ++ h') ix') (hn : (dictOf h).nul = true) :
    (dictOf (h ++ h')).nul = true := by
  induction h' using list_reverse_induction generalizing ix' with
  | nil => rw [List.append_nil]; exact hn
  | snoc l op ih =>
    rw [← List.append_assoc] at r' ⊢
    obtain ⟨ix0, r0, _⟩ := r'.snoc_inv
    have h0 := ih r0
    rw [dictOf_append]
    by_cases ho : op = .reload
    · subst ho
      have := r0.trie.nul h0
      simpa [Op.spec] using this
    · rw [Op.spec_nul _ _ ho]; exact h0

/-- An index that contains the one-character word NUL never begins to skip it. -/
theorem dictOf_nul_keeps {h h' : List Op} (hn : (dictOf h).nul = false) (hm : [0] ∈ (dictOf h).nodes) :
    (dictOf (h ++ h')).nul = false := by
  induction h' using list_reverse_induction with
  | nil => rw [List.append_nil]; exact hn
  | snoc l op ih =>
    rw [← List.append_assoc, dictOf_append]
    by_cases ho : op = .reload
    · subst ho
      have : [0] ∈ (dictOf (h ++ l)).nodes := (dictOf_nodes_prefix h l).subset hm
      simpa [Op.spec] using this
    · rw [Op.spec_nul _ _ ho]; exact ih

/-- What is found keeps its meaning: a found query leads to the same word at every later point. -/
theorem Run.join_stable {h h' : List Op} {ix ix' : Index} (r : Run h ix) (r' : Run (h ++ h') ix') {q : List Rune}
    {k : Nat} (hq : (dictOf h).nodes[k]? = some ((dictOf h).join [] q)) :
    (dictOf (h ++ h')).join [] q = (dictOf h).join [] q := by
  by_cases hn : (dictOf h).nul = true
  · unfold Dict.join; rw [r'.nul_stays hn, hn]
  · have hn : (dictOf h).nul = false := by simpa using hn
    have hj : (dictOf h).join [] q = q := Dict.join_root (.inl hn)
    by_cases hz : NoLeadingNul q
    · rw [hj]; exact Dict.join_root (.inr hz)
    · rw [hj] at hq
      cases q with
      | nil => exact absurd (by simp [NoLeadingNul]) hz
      | cons a l =>
        have ha : a = 0 := by simpa [NoLeadingNul] using hz
        subst ha
        have hm : [0] ∈ (dictOf h).nodes := r.trie.closed hq [0] ⟨l, rfl⟩
        rw [hj]
        exact Dict.join_root (.inl (dictOf_nul_keeps hn hm))

/-- Skipping leading NULs and then going on is the same as going on and then skipping them. -/
theorem Dict.join_join (d : Dict) (w rs : List Rune) : d.join (d.join [] w) rs = d.join [] (w ++ rs) := by
  unfold Dict.join
  by_cases hn : d.nul = true
  · simp only [hn, and_true, if_true]
    induction w with
    | nil => simp
    | cons a l ih =>
      by_cases ha : a = 0
      · subst ha; simpa using ih
      · simp [ha]
  · simp [hn]

/-! ## C01 -/

/-- C01: a sequence added at some point is found at every later point, and it is the same node. -/
theorem C01_runes {h h' : List Op} {ix ix' : Index} (w : List Rune) (hw : w ≠ []) (r : Run h ix)
    (r' : Run (h ++ Op.addRunes w :: h') ix') :
    ∃ id, (ix.addRunes w).2 = .ok id ∧ (ix'.fetchRunes w).2 = .ok id := by
  have e1 : h ++ Op.addRunes w :: h' = (h ++ [Op.addRunes w]) ++ h' := by simp
  rw [e1] at r'
  obtain ⟨ix1, r1⟩ := r'.before
  obtain ⟨ix0, r0, _, hf, rfl⟩ := r1.snoc_inv
  obtain rfl := r.unique r0
  have hf' := hf.nodes
  rw [dictOf_append] at hf'
  have hspec : (Op.addRunes w).spec (dictOf h) = (dictOf h).insert 0 w := rfl
  have hins : (dictOf h).insert 0 w = { dictOf h with
      nodes := addAll (dictOf h).nodes (prefixes ((dictOf h).join [] w)),
      words := (dictOf h).words ++ [(dictOf h).join [] w] } := by
    unfold Dict.insert
    rw [r.trie.root]
    simp only
    rw [if_neg hw]
  rw [hspec, hins] at hf'
  obtain ⟨id, h1, _, h3, _⟩ := r.trie.addLoop_spec 0 0 [] w (by rw [zero_toNat]; exact r.trie.root) hw hf'
  refine ⟨id, h1, ?_⟩
  rw [r'.trie.fetchRoot_iff]
  refine ⟨hw, ?_⟩
  have hn : (dictOf (h ++ [Op.addRunes w])).nodes = addAll (dictOf h).nodes (prefixes ((dictOf h).join [] w)) := by
    rw [dictOf_append, hspec, hins]
  have hj : (dictOf (h ++ [Op.addRunes w])).join [] w = (dictOf h).join [] w := by
    unfold Dict.join
    rw [dictOf_append, Op.spec_nul _ _ (by simp)]
  have h4 : (dictOf (h ++ [Op.addRunes w])).nodes[id.toNat]? = some ((dictOf (h ++ [Op.addRunes w])).join [] w) := by
    rw [hj, hn]; exact h3
  rw [prefix_getElem? (dictOf_nodes_prefix (h ++ [Op.addRunes w]) h') h4, r1.join_stable r' h4]

/-- C01 for strings. -/
theorem C01_string {h h' : List Op} {ix ix' : Index} (w : Str) (hw : w ≠ []) (r : Run h ix)
    (r' : Run (h ++ Op.addString w :: h') ix') :
    ∃ id, (ix.addString w).2 = .ok id ∧ (ix'.fetchString w).2 = .ok id := by
  have hd : decodeRunes w ≠ [] := fun e => hw ((C50_empty w).1 e)
  have hl : ¬ w.length = 0 := fun e => hw (List.length_eq_zero_iff.1 e)
  -- the same history with AddRunes
  have key : ∀ {l ixl}, Run l ixl → ∀ {a b}, l = a ++ Op.addString w :: b →
      Run (a ++ Op.addRunes (decodeRunes w) :: b) ixl := by
    have hsp : ∀ d : Dict, (Op.addString w).spec d = (Op.addRunes (decodeRunes w)).spec d := fun _ => rfl
    have hex : ∀ i : Index, (Op.addString w).exec i = (Op.addRunes (decodeRunes w)).exec i := by
      intro i; simp only [Op.exec, Index.addString]; rw [if_neg hl]
    have hdict : ∀ a b, dictOf (a ++ Op.addString w :: b) = dictOf (a ++ Op.addRunes (decodeRunes w) :: b) := by
      intro a b; unfold dictOf; rw [List.foldl_append, List.foldl_append]; rfl
    intro l ixl rl
    induction rl with
    | nil => intro a b e; simp at e
    | @step l0 ix0 op rl0 ha hf ih =>
      intro a b e
      rcases List.eq_nil_or_concat b with rfl | ⟨b', x, rfl⟩
      · have : l0 = a ∧ op = Op.addString w := by
          have := List.append_inj' e rfl
          exact ⟨this.1, by simpa using this.2⟩
        obtain ⟨rfl, rfl⟩ := this
        rw [hex]
        refine Run.step _ rl0 trivial ?_
        rw [← hex, ← hdict]
        exact hf
      · have e' : l0 ++ [op] = (a ++ Op.addString w :: b') ++ [x] := by
          rw [e]; simp
        have := List.append_inj' e' rfl
        obtain ⟨rfl, hx⟩ := this
        obtain rfl : op = x := by simpa using hx
        have r2 := ih rfl
        have e2 : a ++ Op.addRunes (decodeRunes w) :: (b' ++ [op]) =
            (a ++ Op.addRunes (decodeRunes w) :: b') ++ [op] := by simp
        rw [List.concat_eq_append, e2]
        refine Run.step _ r2 (by rw [← hdict]; exact ha) ?_
        have e3 := hdict a (b' ++ [op])
        rw [← e2, ← e3]
        have e4 : a ++ Op.addString w :: b' ++ [op] = a ++ Op.addString w :: (b' ++ [op]) := by simp
        rw [← e4]
        exact hf
  have r2 := key r' rfl
  obtain ⟨id, h1, h2⟩ := C01_runes (decodeRunes w) hd r r2
  refine ⟨id, ?_, h2⟩
  unfold Index.addString
  rw [if_neg hl]
  exact h1

/-! ## C02 -/

/-- C02: a lookup succeeds exactly on the non-empty prefixes of what was added, and fails with an error
otherwise. -/
theorem C02_runes {h : List Op} {ix : Index} (r : Run h ix) (q : List Rune)
    (hz : NoReload h ∨ NoLeadingNul q) :
    ((∃ id, (ix.fetchRunes q).2 = .ok id) ↔ q ≠ [] ∧ ∃ v ∈ (dictOf h).words, q <+: v) ∧
    ((∃ id, (ix.fetchRunes q).2 = .ok id) ∨ ∃ e, (ix.fetchRunes q).2 = .err e) := by
  refine ⟨?_, r.trie.fetch_err 0 q⟩
  simp only [r.trie.fetchRoot_iff, Run.root_join hz]
  constructor
  · rintro ⟨id, hq, hid⟩
    refine ⟨hq, ?_⟩
    rcases (dictOf_words h q).1 (List.mem_of_getElem? hid) with h0 | h1
    · exact absurd h0 hq
    · exact h1
  · rintro ⟨hq, hv⟩
    obtain ⟨id, hid⟩ := r.trie.exists_id ((dictOf_words h q).2 (.inr hv))
    exact ⟨id, hq, hid⟩

/-- C02 for strings: the runes of the string decide. -/
theorem C02_string {h : List Op} {ix : Index} (r : Run h ix) (w : Str)
    (hz : NoReload h ∨ NoLeadingNul (decodeRunes w)) :
    ((∃ id, (ix.fetchString w).2 = .ok id) ↔ w ≠ [] ∧ ∃ v ∈ (dictOf h).words, decodeRunes w <+: v) ∧
    ((∃ id, (ix.fetchString w).2 = .ok id) ∨ ∃ e, (ix.fetchString w).2 = .err e) := by
  have := C02_runes r (decodeRunes w) hz
  rw [Ne, C50_empty] at this
  exact this

/-! ## C03 -/

/-- C03: the node found for a sequence spells exactly that sequence. -/
theorem C03_fetch {h : List Op} {ix : Index} (r : Run h ix) (q : List Rune) (id : ID)
    (hz : NoReload h ∨ NoLeadingNul q) (hq : (ix.fetchRunes q).2 = .ok id) :
    ix.word id = .ok (encodeRunes q) := by
  rw [r.trie.fetchRoot_iff, Run.root_join hz] at hq
  exact r.trie.word_eq hq.2

/-- C03 for strings: `Word()` is the string with undecodable bytes replaced by U+FFFD ... -/
theorem C03_fetchString {h : List Op} {ix : Index} (r : Run h ix) (w : Str) (id : ID)
    (hz : NoReload h ∨ NoLeadingNul (decodeRunes w)) (hq : (ix.fetchString w).2 = .ok id) :
    ∃ w', Sanitized w w' ∧ ix.word id = .ok w' :=
  ⟨_, ((C50_any w).2 _).2 rfl, C03_fetch r _ id hz hq⟩

/-- ... hence the string itself if it is well-formed UTF-8. -/
theorem C03_fetchValid {h : List Op} {ix : Index} (r : Run h ix) (w : Str) (id : ID) (hv : ValidUtf8 w)
    (hz : NoReload h ∨ NoLeadingNul (decodeRunes w)) (hq : (ix.fetchString w).2 = .ok id) :
    ix.word id = .ok w := by
  have := C03_fetch r _ id hz hq
  rwa [C50_encode_decode w hv] at this

/-- C03: the node returned by adding a sequence spells it, now and after any further calls. -/
theorem C03_add {h h' : List Op} {ix ix' : Index} (w : List Rune) (hw : w ≠ []) (r : Run h ix)
    (r' : Run (h ++ Op.addRunes w :: h') ix') (hz : NoReload h ∨ NoLeadingNul w) :
    ∃ id, (ix.addRunes w).2 = .ok id ∧ ix'.word id = .ok (encodeRunes w) := by
  have e1 : h ++ Op.addRunes w :: h' = (h ++ [Op.addRunes w]) ++ h' := by simp
  rw [e1] at r'
  obtain ⟨ix1, r1⟩ := r'.before
  have r1' : Run (h ++ Op.addRunes w :: []) ix1 := r1
  obtain ⟨id, h1, h2⟩ := C01_runes w hw r r1'
  refine ⟨id, h1, ?_⟩
  rw [r1.trie.fetchRoot_iff] at h2
  have hj : (dictOf (h ++ [Op.addRunes w])).join [] w = w := by
    apply Dict.join_root
    rcases hz with hz | hz
    · left; rw [dictOf_append, Op.spec_nul _ _ (by simp), dictOf_nul h hz]
    · exact .inr hz
  rw [hj] at h2
  exact r'.trie.word_eq (prefix_getElem? (dictOf_nodes_prefix _ h') h2.2)

/-! ## C04 -/

/-- C04: `NodesCount` is the number of distinct non-empty prefixes of the added sequences. -/
theorem C04 {h : List Op} {ix : Index} (r : Run h ix) :
    ∃ L : List (List Rune), L.Nodup ∧ L.length = ix.nodesCount ∧
      ∀ p, p ∈ L ↔ p ≠ [] ∧ ∃ v ∈ (dictOf h).words, p <+: v := by
  have hroot := r.trie.root
  have hnd := r.trie.nodup
  have hc := r.trie.nodesCount
  have hw := dictOf_words h
  generalize (dictOf h).nodes = ns at *
  cases ns with
  | nil => simp at hroot
  | cons a L =>
    obtain rfl : a = [] := by simpa using hroot
    rw [List.nodup_cons] at hnd
    refine ⟨L, hnd.2, by rw [hc]; simp, ?_⟩
    intro p
    have := hw p
    rw [List.mem_cons] at this
    constructor
    · intro hp
      have hne : p ≠ [] := by rintro rfl; exact hnd.1 hp
      rcases this.1 (.inr hp) with h0 | h1
      · exact absurd h0 hne
      · exact ⟨hne, h1⟩
    · rintro ⟨hne, h1⟩
      rcases this.2 (.inr h1) with h0 | h1
      · exact absurd h0 hne
      · exact h1

/-- C04, consequence: histories that add the same sequences — in any order, any number of times — have
the same `NodesCount`. -/
theorem C04_order {h₁ h₂ : List Op} {ix₁ ix₂ : Index} (r₁ : Run h₁ ix₁) (r₂ : Run h₂ ix₂)
    (hsame : ∀ v, v ∈ (dictOf h₁).words ↔ v ∈ (dictOf h₂).words) : ix₁.nodesCount = ix₂.nodesCount := by
  obtain ⟨L₁, hn₁, hl₁, hm₁⟩ := C04 r₁
  obtain ⟨L₂, hn₂, hl₂, hm₂⟩ := C04 r₂
  rw [← hl₁, ← hl₂]
  refine ((List.perm_ext_iff_of_nodup hn₁ hn₂).2 fun p => ?_).length_eq
  rw [hm₁, hm₂]
  simp only [hsame]

/-! ## C05 -/

/-- C05: different sequences have different nodes. -/
theorem C05_injective {h : List Op} {ix : Index} (r : Run h ix) (p q : List Rune) (id : ID)
    (hzp : NoReload h ∨ NoLeadingNul p) (hzq : NoReload h ∨ NoLeadingNul q)
    (hp : (ix.fetchRunes p).2 = .ok id) (hq : (ix.fetchRunes q).2 = .ok id) : p = q := by
  rw [r.trie.fetchRoot_iff, Run.root_join hzp] at hp
  rw [r.trie.fetchRoot_iff, Run.root_join hzq] at hq
  have := hp.2.symm.trans hq.2
  exact Option.some.inj this

/-- C05: the ids are exactly 1, …, `NodesCount`: each is reached by a sequence, and no lookup returns
another id. -/
theorem C05_range {h : List Op} {ix : Index} (r : Run h ix) (id : ID) :
    (1 ≤ id.toNat ∧ id.toNat ≤ ix.nodesCount → ∃ q, (ix.fetchRunes q).2 = .ok id) ∧
    ∀ q, NoReload h ∨ NoLeadingNul q → (ix.fetchRunes q).2 = .ok id → 1 ≤ id.toNat ∧ id.toNat ≤ ix.nodesCount := by
  rw [r.trie.nodesCount]
  have hpos := r.trie.length_pos
  constructor
  · rintro ⟨h1, h2⟩
    have hlt : id.toNat < (dictOf h).nodes.length := by omega
    have hw := List.getElem?_eq_getElem hlt
    have hne : (dictOf h).nodes[id.toNat] ≠ [] := by
      intro e
      have := r.trie.idx_unique hw (by rw [e]; exact r.trie.root)
      omega
    refine ⟨(dictOf h).nodes[id.toNat], ?_⟩
    rw [r.trie.fetchRoot_iff, r.trie.join_self (List.mem_of_getElem? hw)]
    exact ⟨hne, hw⟩
  · rintro q hz hq
    rw [r.trie.fetchRoot_iff, Run.root_join hz] at hq
    have := TrieOK.lt_next hq.2
    have h0 : id.toNat ≠ 0 := by
      intro e
      rw [e, r.trie.root] at hq
      exact hq.1 (Option.some.inj hq.2).symm
    omega

/-- C05: the node of a sequence never changes. -/
theorem C05_stable {h h' : List Op} {ix ix' : Index} (r : Run h ix) (r' : Run (h ++ h') ix') (q : List Rune)
    (id : ID) (hq : (ix.fetchRunes q).2 = .ok id) : (ix'.fetchRunes q).2 = .ok id := by
  rw [r.trie.fetchRoot_iff] at hq
  rw [r'.trie.fetchRoot_iff]
  exact ⟨hq.1, by rw [prefix_getElem? (dictOf_nodes_prefix h h') hq.2, r.join_stable r' hq.2]⟩

/-- C05: ids denote the same word for ever. -/
theorem C05_word_stable {h h' : List Op} {ix ix' : Index} (r : Run h ix) (r' : Run (h ++ h') ix') (id : ID)
    (hid : id.toNat ≤ ix.nodesCount) : ix'.word id = ix.word id := by
  have hpos := r.trie.length_pos
  rw [r.trie.nodesCount] at hid
  have hlt : id.toNat < (dictOf h).nodes.length := by omega
  have h1 := List.getElem?_eq_getElem hlt
  rw [r.trie.word_eq h1, r'.trie.word_eq (prefix_getElem? (dictOf_nodes_prefix h h') h1)]

/-! ## C06 -/

/-- C06: adding below a node what is already there returns the existing node and changes no answer.
`AddRunes` and `AddString` are the case `p = 0`. -/
theorem C06 {h : List Op} {ix : Index} (r : Run h ix) (p : ID) (rs : List Rune) (id : ID)
    (hf : (ix.fetchFromItem p rs).2 = .ok id) :
    (ix.addToNode p rs).2 = .ok id ∧ SameAnswers ix (ix.addToNode p rs).1 := by
  obtain ⟨hrs, w, hw, hid⟩ := (r.trie.fetch_iff p rs id).1 hf
  have hall : addAll (dictOf h).nodes (prefixes ((dictOf h).join w rs)) = (dictOf h).nodes :=
    addAll_of_subset (r.trie.prefixes_mem hid)
  obtain ⟨c, h1, _, h3, _, h5⟩ := r.trie.addLoop_spec p p w rs hw hrs (by rw [hall]; exact r.trie.length_lt)
  rw [hall] at h3
  refine ⟨?_, SameAnswers.of_obs (h5 (List.mem_of_getElem? hid))⟩
  unfold Index.addToNode
  rw [h1, UInt32.toNat_inj.1 (r.trie.idx_unique h3 hid)]

/-- C06 for `AddString`. -/
theorem C06_string {h : List Op} {ix : Index} (r : Run h ix) (w : Str) (id : ID)
    (hf : (ix.fetchString w).2 = .ok id) :
    (ix.addString w).2 = .ok id ∧ SameAnswers ix (ix.addString w).1 := by
  have := C06 r 0 (decodeRunes w) id hf
  unfold Index.addString
  rw [if_neg]
  · exact this
  · intro e
    have := List.length_eq_zero_iff.1 e
    subst this
    have := ((r.trie.fetch_iff 0 _ id).1 hf).1
    exact this rfl

/-! ## C07 -/

/-- C07: rejected adds return an error and leave the index unchanged - completely, in any state. -/
theorem C07_empty (ix : Index) (p : ID) :
    ix.addString [] = (ix, .err .emptyWord) ∧ ix.addRunes [] = (ix, .err .emptyRunes) ∧
    ix.addToNode p [] = (ix, .err .emptyRunes) := ⟨rfl, rfl, rfl⟩

/-- C07: `AddToNode` below an id that denotes no node. -/
theorem C07_unknown {h : List Op} {ix : Index} (r : Run h ix) (p : ID) (rs : List Rune)
    (hp : ix.nodesCount < p.toNat) :
    (ix.addToNode p rs).1 = ix ∧
      ((ix.addToNode p rs).2 = .err .emptyRunes ∨ (ix.addToNode p rs).2 = .err (.noParent p)) := by
  rw [r.trie.nodesCount] at hp
  have := r.trie.length_pos
  exact r.trie.addToNode_err p rs (.inl (List.getElem?_eq_none (by omega)))

/-! ## C08 -/

/-- C08: adding `rs` below the node of `w` is adding `w ++ rs`: same result, same state. -/
theorem C08 {h : List Op} {ix : Index} (r : Run h ix) (w rs : List Rune) (n : ID) (hrs : rs ≠ [])
    (hn : (ix.fetchRunes w).2 = .ok n) {ix' : Index} (hf : Run (h ++ [Op.addToNode n rs]) ix') :
    ix.addToNode n rs = ix.addRunes (w ++ rs) := by
  rw [r.trie.fetchRoot_iff] at hn
  have e := r.trie.addLoop_join 0 w rs n hn.2 hrs
  unfold Index.addRunes Index.addToNode
  rw [e]
  obtain ⟨ix0, r0, _, hfit, rfl⟩ := hf.snoc_inv
  obtain rfl := r.unique r0
  have hcap := hfit.nodes
  rw [dictOf_append] at hcap
  simp only [Op.spec, Dict.insert] at hcap
  rw [hn.2] at hcap
  simp only at hcap
  rw [if_neg hrs] at hcap
  obtain ⟨c, h1, _⟩ := r.trie.addLoop_spec n n _ rs hn.2 hrs hcap
  have ho := addLoop_orig n 0 ix n rs
  have := ho.2 c h1
  exact Prod.ext ho.1 (by rw [h1, this])

/-! ## C53 -/

/-- C53: the error of a failed lookup contains the text of the longest known prefix `pre` of `q` and the
first rune that does not continue it. -/
theorem C53 {h : List Op} {ix : Index} (r : Run h ix) (q : List Rune) (hq : q ≠ [])
    (hz : NoReload h ∨ NoLeadingNul q) (hno : ∀ id, (ix.fetchRunes q).2 ≠ .ok id) :
    ∃ pre c post, q = pre ++ c :: post ∧ (ix.fetchRunes q).2 = .err (.notFound (encodeRunes pre) c) ∧
      ∀ p, p ≠ [] → p <+: q → ((∃ id, (ix.fetchRunes p).2 = .ok id) ↔ p <+: pre) := by
  have hj := Run.root_join hz
  rcases r.trie.fetchFromItem_spec 0 [] q (by rw [zero_toNat]; exact r.trie.root) hq with
    ⟨id, _, h2⟩ | ⟨pre, c, post, e1, _, e3, e4, e5⟩
  · exact absurd h2 (hno id)
  · rw [hj] at e1
    refine ⟨pre, c, post, e1, e5, ?_⟩
    intro p hp hpq
    have hzp : NoReload h ∨ NoLeadingNul p := by
      refine hz.imp_right fun hz => ?_
      obtain ⟨s, rfl⟩ := hpq
      cases p with
      | nil => exact absurd rfl hp
      | cons a l => simpa [NoLeadingNul] using hz
    obtain ⟨k, hk⟩ := TrieOK.exists_idx e3
    simp only [r.trie.fetchRoot_iff, Run.root_join hzp]
    constructor
    · rintro ⟨id, _, hid⟩
      by_contra hnp
      apply e4
      apply r.trie.closed hid
      have h1 : pre ++ [c] <+: q := ⟨post, by rw [e1]; simp⟩
      rcases List.prefix_or_prefix_of_prefix h1 hpq with h2 | h2
      · exact h2
      · rcases List.prefix_concat_iff.1 h2 with rfl | h3
        · exact List.prefix_refl _
        · exact absurd h3 hnp
    · intro hpp
      obtain ⟨id, hid⟩ := r.trie.exists_id (r.trie.closed hk p hpp)
      exact ⟨id, hp, hid⟩

/-! ## C54 -/

/-- C54: the children of the node of `w` are exactly its known one-rune extensions. -/
theorem C54 {h : List Op} {ix : Index} (r : Run h ix) (w : List Rune) (n : ID) (c : Rune) (child : ID)
    (hn : (w = [] ∧ n = 0) ∨ (ix.fetchRunes w).2 = .ok n) :
    ix.getChildrenMap n c = some child ↔ (ix.fetchRunes (w ++ [c])).2 = .ok child := by
  have hnode : (dictOf h).nodes[n.toNat]? = some ((dictOf h).join [] w) := by
    rcases hn with ⟨rfl, rfl⟩ | hn
    · rw [Dict.join_root (.inr (by simp [NoLeadingNul]))]; exact r.trie.root
    · exact ((r.trie.fetchRoot_iff _ _).1 hn).2
  rw [r.trie.child_some hnode, r.trie.fetchRoot_iff, Dict.join_join]
  simp

/-- C54: an id without a node has no children. -/
theorem C54_unknown {h : List Op} {ix : Index} (r : Run h ix) (n : ID) (c : Rune)
    (hn : ix.nodesCount < n.toNat) : ix.getChildrenMap n c = none := by
  rw [r.trie.nodesCount] at hn
  have := r.trie.length_pos
  exact r.trie.children_none (List.getElem?_eq_none (by omega)) c

/-- C54: a lookup from an id without a node fails and names that id and the first rune asked for. -/
theorem C54_unknown_lookup {h : List Op} {ix : Index} (r : Run h ix) (n : ID) (c : Rune) (rest : List Rune)
    (hn : ix.nodesCount < n.toNat) :
    (ix.fetchFromItem n (c :: rest)).2 = .err (.notFound (str "no item: " ++ str (toString n.toNat)) c) ∧
    (ix.fetchItemFromParent n (c :: rest)).2 = .err (.notFound (str "no item: " ++ str (toString n.toNat)) c) := by
  rw [r.trie.nodesCount] at hn
  have := r.trie.length_pos
  have h1 := r.trie.fetch_none (List.getElem?_eq_none (i := n.toNat) (by omega)) c rest
  have e : Index.noItemText n = str "no item: " ++ str (toString n.toNat) := by
    simp [Index.noItemText, str]
  rw [e] at h1
  exact h1

example : (execAll [.addRunes [0x61]]).nodesCount < (77 : ID).toNat := by decide

end Verif
