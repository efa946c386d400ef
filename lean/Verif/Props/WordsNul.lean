import Verif.Props.Reload
import Verif.Props.Words

/-!
# C02, C03, C05, C53 — what happens with NUL

The theorems of `Props/Words.lean` about lookups leave one case out: a query that begins with NUL, in an index that was
loaded from a file. Here is what the code does then. Loading a file whose index does not contain the one-character word
NUL makes the root a child of itself under NUL; `FetchRunes` of the word NUL then returns the root, whose id is 0, and
leading NULs of all queries are skipped.
-/

namespace Verif

/-- What a query is taken for: its leading NULs are skipped if the word NUL is (wrongly) found at the root. -/
def Index.readAs (ix : Index) (q : List Rune) : List Rune :=
  if (ix.fetchRunes [0]).2 = .ok 0 then q.dropWhile (· == 0) else q

theorem Run.nul_iff {h : List Op} {ix : Index} (r : Run h ix) :
    (ix.fetchRunes [0]).2 = .ok 0 ↔ (dictOf h).nul = true := by
  rw [r.trie.fetchRoot_iff, zero_toNat, r.trie.root]
  unfold Dict.join
  by_cases hn : (dictOf h).nul = true
  · simp [hn]
  · simp [hn]

theorem Run.readAs_eq {h : List Op} {ix : Index} (r : Run h ix) (q : List Rune) :
    ix.readAs q = (dictOf h).join [] q := by
  unfold Index.readAs Dict.join
  by_cases hn : (dictOf h).nul = true
  · rw [if_pos (r.nul_iff.2 hn)]; simp [hn]
  · rw [if_neg fun e => hn (r.nul_iff.1 e)]; simp [hn]

/-- It is the query itself in an index that was never loaded from a file, and for a query that does not begin with
NUL. -/
theorem readAs_usual {h : List Op} {ix : Index} (r : Run h ix) (q : List Rune) (hz : NoReload h ∨ NoLeadingNul q) :
    ix.readAs q = q := by
  rw [r.readAs_eq, Run.root_join hz]

/-- It is the query itself also if the word NUL has a node of its own. -/
theorem readAs_known (ix : Index) (q : List Rune) (id : ID)
    (hid : (ix.fetchRunes [0]).2 = .ok id) (h0 : id ≠ 0) : ix.readAs q = q := by
  unfold Index.readAs
  rw [if_neg]
  rw [hid]
  intro e
  exact h0 (Out.ok.inj e)

/-! ## C02 -/

/-- C02 without any condition: a lookup succeeds exactly if what it is taken for is a prefix of an added sequence. -/
theorem C02_exact {h : List Op} {ix : Index} (r : Run h ix) (q : List Rune) :
    ((∃ id, (ix.fetchRunes q).2 = .ok id) ↔
      q ≠ [] ∧ (ix.readAs q = [] ∨ ∃ v ∈ (dictOf h).words, ix.readAs q <+: v)) ∧
    ((∃ id, (ix.fetchRunes q).2 = .ok id) ∨ ∃ e, (ix.fetchRunes q).2 = .err e) := by
  refine ⟨?_, r.trie.fetch_err 0 q⟩
  rw [r.readAs_eq]
  simp only [r.trie.fetchRoot_iff]
  constructor
  · rintro ⟨id, hq, hid⟩
    exact ⟨hq, (dictOf_words h _).1 (List.mem_of_getElem? hid)⟩
  · rintro ⟨hq, hv⟩
    obtain ⟨id, hid⟩ := r.trie.exists_id ((dictOf_words h _).2 hv)
    exact ⟨id, hq, hid⟩

theorem nulSample_run : Run [.addRunes [97], .reload] (execAll [.addRunes [97], .reload]) := small_runs _ (by decide)

/-- C02 does not hold of queries that begin with NUL in a loaded index: only "a" was added, "\x00a" is found. -/
theorem not_C02 : ∃ (h : List Op) (ix : Index) (q : List Rune) (id : ID), Run h ix ∧ (ix.fetchRunes q).2 = .ok id ∧
    ¬ ∃ v ∈ (dictOf h).words, q <+: v :=
  ⟨_, _, [0, 97], 1, nulSample_run, (nulSample_run.trie.fetchRoot_iff _ _).2 (by decide), by decide⟩

/-! ## C03 -/

/-- C03 without any condition: the node found spells what the query was taken for. -/
theorem C03_exact {h : List Op} {ix : Index} (r : Run h ix) (q : List Rune) (id : ID)
    (hq : (ix.fetchRunes q).2 = .ok id) : ix.word id = .ok (encodeRunes (ix.readAs q)) := by
  rw [r.trie.fetchRoot_iff] at hq
  rw [r.readAs_eq]
  exact r.trie.word_eq hq.2

/-- C03 for adding, without any condition: what is added is what the sequence is taken for. -/
theorem C03_add_exact {h h' : List Op} {ix ix' : Index} (w : List Rune) (hw : w ≠ []) (r : Run h ix)
    (r' : Run (h ++ Op.addRunes w :: h') ix') :
    ∃ id, (ix.addRunes w).2 = .ok id ∧ ix'.word id = .ok (encodeRunes (ix.readAs w)) := by
  obtain ⟨id, h1, _⟩ := C01_runes w hw r r'
  refine ⟨id, h1, ?_⟩
  have e1 : h ++ Op.addRunes w :: h' = (h ++ [Op.addRunes w]) ++ h' := by simp
  rw [e1] at r'
  obtain ⟨ix1, r1⟩ := r'.before
  obtain ⟨id', h1', h2⟩ := C01_runes (h' := []) w hw r r1
  obtain rfl : id' = id := by rw [h1] at h1'; exact (Out.ok.inj h1').symm
  rw [r1.trie.fetchRoot_iff] at h2
  have hj : (dictOf (h ++ [Op.addRunes w])).join [] w = (dictOf h).join [] w := by
    unfold Dict.join
    rw [dictOf_append, Op.spec_nul _ _ (by simp)]
  rw [r.readAs_eq, ← hj]
  exact r'.trie.word_eq (prefix_getElem? (dictOf_nodes_prefix _ h') h2.2)

/-- C03 does not hold of queries that begin with NUL in a loaded index: the node found for "\x00a" spells "a". -/
theorem not_C03 : ∃ (h : List Op) (ix : Index) (q : List Rune) (id : ID), Run h ix ∧ (ix.fetchRunes q).2 = .ok id ∧
    ix.word id ≠ .ok (encodeRunes q) := by
  have hf := (nulSample_run.trie.fetchRoot_iff [0, 97] 1).2 (by decide)
  refine ⟨_, _, [0, 97], 1, nulSample_run, hf, ?_⟩
  rw [nulSample_run.trie.word_eq (w := [97]) (by decide)]
  decide

/-! ## C05 -/

/-- C05 without any condition: two sequences have the same node exactly if they are found and taken for the same. -/
theorem C05_exact {h : List Op} {ix : Index} (r : Run h ix) (p q : List Rune) (id : ID)
    (hp : (ix.fetchRunes p).2 = .ok id) : (ix.fetchRunes q).2 = .ok id ↔ q ≠ [] ∧ ix.readAs p = ix.readAs q := by
  rw [r.trie.fetchRoot_iff] at hp
  rw [r.trie.fetchRoot_iff, r.readAs_eq, r.readAs_eq]
  constructor
  · rintro ⟨hq, hid⟩
    exact ⟨hq, Option.some.inj (hp.2.symm.trans hid)⟩
  · rintro ⟨hq, e⟩
    exact ⟨hq, by rw [← e]; exact hp.2⟩

/-- C05 without any condition: the ids lookups return are 1, …, `NodesCount`, and the root's 0 if the word NUL is taken
for nothing. -/
theorem C05_range_exact {h : List Op} {ix : Index} (r : Run h ix) (id : ID) :
    (∃ q, (ix.fetchRunes q).2 = .ok id) ↔
      (1 ≤ id.toNat ∧ id.toNat ≤ ix.nodesCount) ∨ (id = 0 ∧ ix.readAs [0] = []) := by
  constructor
  · rintro ⟨q, hq⟩
    have hq' := (r.trie.fetchRoot_iff q id).1 hq
    by_cases h0 : id = 0
    · subst h0
      right
      refine ⟨rfl, ?_⟩
      rw [zero_toNat, r.trie.root] at hq'
      rw [r.readAs_eq]
      have hj := (Option.some.inj hq'.2).symm
      unfold Dict.join at hj ⊢
      by_cases hn : (dictOf h).nul = true
      · simp [hn]
      · simp [hn] at hj; exact absurd hj hq'.1
    · left
      have hpos : id.toNat ≠ 0 := fun e => h0 (TrieOK.toNat_eq_zero.1 e)
      have := TrieOK.lt_next hq'.2
      rw [r.trie.nodesCount]
      omega
  · rintro (hid | ⟨rfl, hn⟩)
    · exact (C05_range r id).1 hid
    · refine ⟨[0], ?_⟩
      rw [r.readAs_eq] at hn
      rw [r.trie.fetchRoot_iff, hn]
      exact ⟨by simp, by rw [zero_toNat]; exact r.trie.root⟩

/-- C05 does not hold of queries that begin with NUL in a loaded index: "a" and "\x00a" are the same node, and the word
NUL is node 0. -/
theorem not_C05 : ∃ (h : List Op) (ix : Index) (p q : List Rune) (id : ID), Run h ix ∧ (ix.fetchRunes p).2 = .ok id ∧
    (ix.fetchRunes q).2 = .ok id ∧ p ≠ q ∧ (ix.fetchRunes [0]).2 = .ok 0 :=
  ⟨_, _, [97], [0, 97], 1, nulSample_run, (nulSample_run.trie.fetchRoot_iff _ _).2 (by decide),
    (nulSample_run.trie.fetchRoot_iff _ _).2 (by decide), by decide,
    (nulSample_run.trie.fetchRoot_iff _ _).2 (by decide)⟩

/-! ## C53 -/

/-- C53 without any condition: the error names the longest known prefix of what the query is taken for and the first
rune that does not continue it. -/
theorem C53_exact {h : List Op} {ix : Index} (r : Run h ix) (q : List Rune) (hq : q ≠ [])
    (hno : ∀ id, (ix.fetchRunes q).2 ≠ .ok id) :
    ∃ pre c post, ix.readAs q = pre ++ c :: post ∧ (ix.fetchRunes q).2 = .err (.notFound (encodeRunes pre) c) ∧
      ∀ p, p ≠ [] → ix.readAs p <+: ix.readAs q → ((∃ id, (ix.fetchRunes p).2 = .ok id) ↔ ix.readAs p <+: pre) := by
  simp only [r.readAs_eq]
  rcases r.trie.fetchFromItem_spec 0 [] q (by rw [zero_toNat]; exact r.trie.root) hq with
    ⟨id, _, h2⟩ | ⟨pre, c, post, e1, _, e3, e4, e5⟩
  · exact absurd h2 (hno id)
  · refine ⟨pre, c, post, e1, e5, ?_⟩
    intro p hp hpq
    obtain ⟨k, hk⟩ := TrieOK.exists_idx e3
    simp only [r.trie.fetchRoot_iff]
    constructor
    · rintro ⟨id, _, hid⟩
      by_contra hnp
      apply e4
      apply r.trie.closed hid
      have h1 : pre ++ [c] <+: (dictOf h).join [] q := ⟨post, by rw [e1]; simp⟩
      rcases List.prefix_or_prefix_of_prefix h1 hpq with h2 | h2
      · exact h2
      · rcases List.prefix_concat_iff.1 h2 with e | h3
        · rw [e]; exact List.prefix_refl _
        · exact absurd h3 hnp
    · intro hpp
      obtain ⟨id, hid⟩ := r.trie.exists_id (r.trie.closed hk _ hpp)
      exact ⟨id, hp, hid⟩

/-- C53 does not hold of queries that begin with NUL in a loaded index: "\x00b" fails at 'b', the text before it should
be "\x00", which is found, and is empty. -/
theorem not_C53 : ∃ (h : List Op) (ix : Index) (q : List Rune), Run h ix ∧ q ≠ [] ∧
    (∀ id, (ix.fetchRunes q).2 ≠ .ok id) ∧
    ¬ ∃ pre c post, q = pre ++ c :: post ∧ (ix.fetchRunes q).2 = .err (.notFound (encodeRunes pre) c) := by
  have hno : ∀ id, ((execAll [.addRunes [97], .reload]).fetchRunes [0, 98]).2 ≠ .ok id := by
    intro id e
    have h1 := (nulSample_run.trie.fetchRoot_iff _ _).1 e
    have h2 : (dictOf [.addRunes [97], .reload]).join [] [0, 98] ∉ (dictOf [.addRunes [97], .reload]).nodes := by decide
    exact h2 (List.mem_of_getElem? h1.2)
  refine ⟨_, _, [0, 98], nulSample_run, by simp, hno, ?_⟩
  rintro ⟨pre, c, post, e, he⟩
  obtain ⟨pre', c', post', h1, h2, _⟩ := C53_exact nulSample_run [0, 98] (by simp) hno
  rw [nulSample_run.readAs_eq, show (dictOf [.addRunes [97], .reload]).join [] [0, 98] = [98] from by decide] at h1
  rw [he] at h2
  simp only [Out.err.injEq, Err.notFound.injEq] at h2
  have hpre' : pre' = [] ∧ c' = 98 := by
    cases pre' with
    | nil => simp at h1; exact ⟨rfl, h1.1.symm⟩
    | cons a l => simp at h1
  obtain ⟨rfl, rfl⟩ := hpre'
  obtain ⟨h3, rfl⟩ := h2
  cases pre with
  | nil => simp at e
  | cons a l =>
    obtain rfl : 0 = a := (List.cons.inj e).1
    have h4 := congrArg List.length h3
    rw [show encodeRunes (0 :: l) = encodeRune 0 ++ encodeRunes l from rfl, List.length_append,
      show (encodeRune 0).length = 1 from by decide] at h4
    simp [encodeRunes] at h4

end Verif
