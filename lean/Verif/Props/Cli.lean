import Verif.Lemmas.Cli

/-!
# C49, C63 — the interactive tool

`processInput lib disk ix line` is the processing of one line with the index `ix`; `disk` is what `reload` loads.
-/

namespace Verif

open Index

/-! ## C49 -/

/-- Every line is answered, or it is one of the lines listed in `Crashes` and the tool panics; it never hangs. -/
theorem C49_exact {h : List Op} {ix : Index} (r : Run h ix) (lib : Lib) (disk : Option Index) (line : Str) :
    (Crashes lib ix line ∧ (processInput lib disk ix line).2 = .panic) ∨
    (¬ Crashes lib ix line ∧ ∃ p, (processInput lib disk ix line).2 = .ok p) := by
  obtain ⟨c, rest, hsp⟩ : ∃ c rest, splitSpaces line = c :: rest := by
    cases hs : splitSpaces line with
    | nil => exact absurd hs (splitSpaces_ne_nil line)
    | cons c rest => exact ⟨c, rest, rfl⟩
  rw [Crashes.inv hsp]
  have ht := processTag_exact lib ix (c :: rest)
  have hs := processSet_exact lib ix (c :: rest)
  have hn := processNode_exact r (c :: rest)
  have hv := processVar_exact lib ix (c :: rest)
  have hq := processSearch_exact r line
  unfold processInput
  simp only [hsp, List.headD_cons]
  generalize (∃ c' a n, c :: rest = [c', a] ∧ atoi a = some n ∧ n < 0) = T at *
  generalize (∃ c' a n, c :: rest = [c', str "table", a] ∧ atoi a = some n ∧ n < 0) = S at *
  generalize (∃ c' a rest' v, c :: rest = c' :: a :: rest' ∧ lib.parseUint a = some v ∧
        1 ≤ (upper16 v).toNat ∧
        (ix.collectionIdx.getD ((upper16 v).toNat - 1) []).length ≤ (lower16 v).toNat) = V at *
  generalize (∃ c' a, c :: rest = [c', a] ∧
        ((∃ n, atoi a = some n ∧ n ≤ 0 ∧ n % 4294967296 = 0 ∧ n < ix.nodesCount) ∨
         (atoi a = none ∧ (ix.fetchString a).2 = .ok 0))) = N at *
  by_cases h1 : c = str "tag" ∨ c = str "t"
  · have e : ¬ (c = str "set" ∨ c = str "s") ∧ ¬ (c = str "var" ∨ c = str "v") ∧ ¬ (c = str "node" ∨ c = str "n") ∧
        c ∈ commands := by rcases h1 with rfl | rfl <;> decide
    rw [if_pos h1]
    rcases ht with ⟨a, b⟩ | ⟨a, b⟩
    · exact .inl ⟨.inl ⟨h1, b⟩, a⟩
    · refine .inr ⟨?_, a⟩
      rintro (⟨_, y⟩ | ⟨y, _⟩ | ⟨y, _⟩ | ⟨y, _⟩ | ⟨y, _⟩)
      exacts [b y, e.1 y, e.2.1 y, e.2.2.1 y, y e.2.2.2]
  · rw [if_neg h1]
    by_cases h2 : c = str "set" ∨ c = str "s"
    · have e : ¬ (c = str "var" ∨ c = str "v") ∧ ¬ (c = str "node" ∨ c = str "n") ∧ c ∈ commands := by
        rcases h2 with rfl | rfl <;> decide
      rw [if_pos h2]
      rcases hs with ⟨a, b⟩ | ⟨a, b⟩
      · exact .inl ⟨.inr (.inl ⟨h2, b⟩), a⟩
      · refine .inr ⟨?_, a⟩
        rintro (⟨y, _⟩ | ⟨_, y⟩ | ⟨y, _⟩ | ⟨y, _⟩ | ⟨y, _⟩)
        exacts [h1 y, b y, e.1 y, e.2.1 y, y e.2.2]
    · rw [if_neg h2]
      by_cases h3 : c = str "node" ∨ c = str "n"
      · have e : ¬ (c = str "var" ∨ c = str "v") ∧ c ∈ commands := by rcases h3 with rfl | rfl <;> decide
        rw [if_pos h3]
        rcases hn with ⟨a, b⟩ | ⟨a, b⟩
        · exact .inl ⟨.inr (.inr (.inr (.inl ⟨h3, b⟩))), a⟩
        · refine .inr ⟨?_, a⟩
          rintro (⟨y, _⟩ | ⟨y, _⟩ | ⟨y, _⟩ | ⟨_, y⟩ | ⟨y, _⟩)
          exacts [h1 y, h2 y, e.1 y, b y, y e.2]
      · rw [if_neg h3]
        by_cases h4 : c = str "var" ∨ c = str "v"
        · have e : c ∈ commands := by rcases h4 with rfl | rfl <;> decide
          rw [if_pos h4]
          rcases hv with ⟨a, b⟩ | ⟨a, b⟩
          · exact .inl ⟨.inr (.inr (.inl ⟨h4, b⟩)), a⟩
          · refine .inr ⟨?_, a⟩
            rintro (⟨y, _⟩ | ⟨y, _⟩ | ⟨_, y⟩ | ⟨y, _⟩ | ⟨y, _⟩)
            exacts [h1 y, h2 y, b y, h3 y, y e]
        · rw [if_neg h4]
          by_cases h5 : c = str "reload" ∨ c = str "r"
          · have e : c ∈ commands := by rcases h5 with rfl | rfl <;> decide
            rw [if_pos h5]
            refine .inr ⟨?_, by cases disk <;> exact ⟨_, rfl⟩⟩
            rintro (⟨y, _⟩ | ⟨y, _⟩ | ⟨y, _⟩ | ⟨y, _⟩ | ⟨y, _⟩)
            exacts [h1 y, h2 y, h4 y, h3 y, y e]
          · rw [if_neg h5]
            by_cases h6 : c = str "exit" ∨ c = str "e"
            · have e : c ∈ commands := by rcases h6 with rfl | rfl <;> decide
              rw [if_pos h6]
              refine .inr ⟨?_, _, rfl⟩
              rintro (⟨y, _⟩ | ⟨y, _⟩ | ⟨y, _⟩ | ⟨y, _⟩ | ⟨y, _⟩)
              exacts [h1 y, h2 y, h4 y, h3 y, y e]
            · rw [if_neg h6]
              have e : c ∉ commands := by
                unfold commands
                simp only [List.mem_cons, List.not_mem_nil, or_false]
                rintro (y | y | y | y | y | y | y | y | y | y | y | y)
                exacts [h1 (.inl y), h1 (.inr y), h2 (.inl y), h2 (.inr y), h3 (.inl y), h3 (.inr y), h4 (.inl y),
                  h4 (.inr y), h5 (.inl y), h5 (.inr y), h6 (.inl y), h6 (.inr y)]
              by_cases h0 : (ix.fetchString line).2 = .ok 0
              · exact .inl ⟨.inr (.inr (.inr (.inr ⟨e, h0⟩))), hq.1 h0⟩
              · refine .inr ⟨?_, hq.2 h0⟩
                rintro (⟨y, _⟩ | ⟨y, _⟩ | ⟨y, _⟩ | ⟨y, _⟩ | ⟨_, y⟩)
                exacts [h1 y, h2 y, h4 y, h3 y, h0 y]

/-- The lines of a session never make it hang, and if none of them is listed in `Crashes`, all are answered.
`reload` may bring in another index, `disk`. -/
theorem C49_partial {h h' : List Op} {ix ixd : Index} (r : Run h ix) (rd : Run h' ixd) (lib : Lib)
    (disk : Option Index) (hd : ∀ x, disk = some x → x = ixd) (lines : List Str) :
    (∀ x ∈ session lib disk ix lines, x ≠ .diverge ∧ ∀ e, x ≠ .err e) ∧
    ((∀ line ∈ lines, ¬ Crashes lib ix line ∧ ¬ Crashes lib ixd line) →
      ∀ x ∈ session lib disk ix lines, ∃ p, x = .ok p) := by
  have one : ∀ (s : Index), (Index.Obs ix s ∨ Index.Obs ixd s) → ∀ line,
      ((Crashes lib ix line ∨ Crashes lib ixd line) ∧ (processInput lib disk s line).2 = .panic) ∨
      ∃ p, (processInput lib disk s line).2 = .ok p := by
    rintro s (ho | ho) line
    · rw [processInput_congr ho]
      rcases C49_exact r lib disk line with ⟨a, b⟩ | ⟨_, b⟩
      · exact .inl ⟨.inl a, b⟩
      · exact .inr b
    · rw [processInput_congr ho]
      rcases C49_exact rd lib disk line with ⟨a, b⟩ | ⟨_, b⟩
      · exact .inl ⟨.inr a, b⟩
      · exact .inr b
  have all : ∀ (s : Index), (Index.Obs ix s ∨ Index.Obs ixd s) → ∀ x ∈ session lib disk s lines,
      (x = .panic ∧ ∃ line ∈ lines, Crashes lib ix line ∨ Crashes lib ixd line) ∨ ∃ p, x = .ok p := by
    induction lines with
    | nil => intro s _ x hx; cases hx
    | cons line rest ih =>
      intro s hs x hx
      have o := one s hs line
      have hs' : Index.Obs ix (processInput lib disk s line).1 ∨ Index.Obs ixd (processInput lib disk s line).1 := by
        rcases processInput_obs lib disk s line with h1 | h1
        · exact hs.imp (·.trans h1) (·.trans h1)
        · rw [hd _ h1.symm]
          exact .inr (.refl _)
      unfold session at hx
      generalize processInput lib disk s line = y at *
      obtain ⟨s', out⟩ := y
      simp only at o hs' hx
      rcases o with ⟨hc, rfl⟩ | ⟨p, rfl⟩
      · simp only [List.mem_singleton] at hx
        exact .inl ⟨hx, line, List.mem_cons_self, hc⟩
      · have tail : ∀ x ∈ session lib disk s' rest,
            (x = .panic ∧ ∃ l ∈ line :: rest, Crashes lib ix l ∨ Crashes lib ixd l) ∨ ∃ p, x = .ok p := by
          intro x hx
          rcases ih s' hs' x hx with ⟨e, l, hl, hc⟩ | e
          · exact .inl ⟨e, l, List.mem_cons_of_mem _ hl, hc⟩
          · exact .inr e
        cases p <;> simp only [List.mem_cons, List.not_mem_nil, or_false] at hx
        all_goals
          first
          | exact .inr ⟨_, hx⟩
          | rcases hx with hx | hx
            · exact .inr ⟨_, hx⟩
            · exact tail x hx
  constructor
  · intro x hx
    rcases all ix (.inl (.refl _)) x hx with ⟨rfl, _⟩ | ⟨p, rfl⟩
    · exact ⟨by simp, by simp⟩
    · exact ⟨by simp, by simp⟩
  · intro hl x hx
    rcases all ix (.inl (.refl _)) x hx with ⟨rfl, l, hm, hc⟩ | hp
    · rcases hc with hc | hc
      · exact absurd hc (hl l hm).1
      · exact absurd hc (hl l hm).2
    · exact hp

/-- The hypotheses are met: a session of five lines on the sample index. -/
example : ∀ lib : Lib, ∃ ix, Run sampleHistory ix ∧
    ∀ line ∈ [str "ab", str "node 1", str "tag 0", str "set tables", str "r"], ¬ Crashes lib ix line := by
  intro lib
  refine ⟨_, sample_runs, ?_⟩
  intro line hl hc
  simp only [List.mem_cons, List.not_mem_nil, or_false] at hl
  rcases hl with rfl | rfl | rfl | rfl | rfl
  · rw [Crashes.inv (c := str "ab") (rest := []) (by decide)] at hc
    rcases hc with ⟨h, _⟩ | ⟨h, _⟩ | ⟨h, _⟩ | ⟨h, _⟩ | ⟨_, h⟩
    · revert h; decide
    · revert h; decide
    · revert h; decide
    · revert h; decide
    · have := ((found_root_iff sample_runs _).1 h).2.2
      revert this; decide
  · rw [Crashes.inv (c := str "node") (rest := [str "1"]) (by decide)] at hc
    rcases hc with ⟨h, _⟩ | ⟨h, _⟩ | ⟨h, _⟩ | ⟨_, c, a, he, ⟨n, h1, h2, _⟩ | ⟨h, _⟩⟩ | ⟨h, _⟩
    · revert h; decide
    · revert h; decide
    · revert h; decide
    · simp only [List.cons.injEq, and_true] at he
      rw [← he.2, show atoi (str "1") = some 1 from by decide] at h1
      cases h1
      omega
    · simp only [List.cons.injEq, and_true] at he
      rw [← he.2] at h
      revert h; decide
    · exact h (by decide)
  · rw [Crashes.inv (c := str "tag") (rest := [str "0"]) (by decide)] at hc
    rcases hc with ⟨_, c, a, n, he, h1, h2⟩ | ⟨h, _⟩ | ⟨h, _⟩ | ⟨h, _⟩ | ⟨h, _⟩
    · simp only [List.cons.injEq, and_true] at he
      rw [← he.2, show atoi (str "0") = some 0 from by decide] at h1
      cases h1
      omega
    · revert h; decide
    · revert h; decide
    · revert h; decide
    · exact h (by decide)
  · rw [Crashes.inv (c := str "set") (rest := [str "tables"]) (by decide)] at hc
    rcases hc with ⟨h, _⟩ | ⟨_, c, a, n, he, _⟩ | ⟨h, _⟩ | ⟨h, _⟩ | ⟨h, _⟩
    · revert h; decide
    · simp at he
    · revert h; decide
    · revert h; decide
    · exact h (by decide)
  · rw [Crashes.inv (c := str "r") (rest := []) (by decide)] at hc
    rcases hc with ⟨h, _⟩ | ⟨h, _⟩ | ⟨h, _⟩ | ⟨h, _⟩ | ⟨h, _⟩
    · revert h; decide
    · revert h; decide
    · revert h; decide
    · revert h; decide
    · exact h (by decide)

/-- C49 does not hold: whatever the index, the tool crashes on `tag -1` and on `set table -1`; if the index has a
word, on `node 0`; if it was loaded from a file (and has no word NUL), on a line that consists of the character
NUL. -/
theorem not_C49 {h : List Op} {ix : Index} (r : Run h ix) (lib : Lib) (disk : Option Index) :
    (processInput lib disk ix (str "tag -1")).2 = .panic ∧
    (processInput lib disk ix (str "set table -1")).2 = .panic ∧
    (1 ≤ ix.nodesCount → (processInput lib disk ix (str "node 0")).2 = .panic) ∧
    ((dictOf h).nul = true → (processInput lib disk ix [0]).2 = .panic) := by
  have go : ∀ line, Crashes lib ix line → (processInput lib disk ix line).2 = .panic := by
    intro line hc
    rcases C49_exact r lib disk line with ⟨_, b⟩ | ⟨a, _⟩
    · exact b
    · exact absurd hc a
  refine ⟨go _ (.tag (str "tag") (str "-1") (-1) (.inl rfl) (by decide) (by decide) (by decide)),
    go _ (.table (str "set") (str "-1") (-1) (.inl rfl) (by decide) (by decide) (by decide)), fun h1 => go _ ?_,
    fun hn => go _ ?_⟩
  · exact .node (str "node") (str "0") 0 (.inl rfl) (by decide) (by decide) (by decide) (by decide) (by omega)
  · refine .search (by decide) ((found_root_iff r _).2 ⟨by decide, hn, by decide⟩)

/-- A loaded index is such an index. -/
example : ∃ ix, Run sampleHistory ix ∧ (dictOf sampleHistory).nul = true ∧ 1 ≤ ix.nodesCount :=
  ⟨_, sample_runs, by decide, by rw [sample_runs.trie.nodesCount]; decide⟩

/-- The node with the number `k` is displayed, with its word, readings and children, for `1 ≤ k < NodesCount`. -/
theorem C49_node_partial {h : List Op} {ix : Index} (r : Run h ix) (lib : Lib) (disk : Option Index)
    (line c a : Str) (k : ID) (hc : c = str "node" ∨ c = str "n") (hl : splitSpaces line = [c, a])
    (ha : atoi a = some (k.toNat : Int)) (h1 : 1 ≤ k.toNat) (h2 : k.toNat < ix.nodesCount) :
    ∃ w L it, ix.word k = .ok w ∧ ix.tagSetsOf k = .ok L ∧ ix.items.items[k.toNat]? = some it ∧
      (processInput lib disk ix line).2 = .ok (.node k w it L (ix.getChildrenMap k)) := by
  obtain ⟨w, L, it, e1, e2, e3, e4⟩ := showNode_ok r h1 (Nat.le_of_lt h2)
  refine ⟨w, L, it, e1, e2, e3, ?_⟩
  have e : ¬ (c = str "tag" ∨ c = str "t") ∧ ¬ (c = str "set" ∨ c = str "s") := by
    rcases hc with rfl | rfl <;> decide
  have hcnt : a ≠ str "count" := by
    rintro rfl
    rw [show atoi (str "count") = none from by decide] at ha
    cases ha
  have hu : toU32 (k.toNat : Int) = k := by
    apply UInt32.toNat_inj.1
    unfold toU32
    have := k.toNat_lt
    rw [UInt32.toNat_ofNat', Nat.mod_eq_of_lt (by omega)]
    omega
  unfold processInput
  simp only [hl, List.headD_cons]
  rw [if_neg e.1, if_neg e.2, if_pos hc]
  unfold processNode
  simp only [ha]
  rw [if_neg hcnt, if_neg (by simp), if_neg (by omega), hu]
  rcases get_cases r k with ⟨_, hg⟩ | ⟨hg, _⟩
  · rw [hg]
    exact e4
  · omega

/-- The last node cannot be displayed by its number: the number `NodesCount` is refused. -/
theorem not_C49_last (ix : Index) (lib : Lib) (disk : Option Index) (line c a : Str)
    (hc : c = str "node" ∨ c = str "n") (hl : splitSpaces line = [c, a])
    (ha : atoi a = some (ix.nodesCount : Int)) : (processInput lib disk ix line).2 = .ok .message := by
  have e : ¬ (c = str "tag" ∨ c = str "t") ∧ ¬ (c = str "set" ∨ c = str "s") := by
    rcases hc with rfl | rfl <;> decide
  have hcnt : a ≠ str "count" := by
    rintro rfl
    rw [show atoi (str "count") = none from by decide] at ha
    cases ha
  unfold processInput
  simp only [hl, List.headD_cons]
  rw [if_neg e.1, if_neg e.2, if_pos hc]
  unfold processNode
  simp only [ha]
  rw [if_neg hcnt, if_neg (by simp), if_pos (by omega)]

/-- The hypotheses are met: "node 1" displays node 1 of the sample index. -/
example : ∃ ix, Run sampleHistory ix ∧ splitSpaces (str "node 1") = [str "node", str "1"] ∧
    atoi (str "1") = some ((1 : ID).toNat : Int) ∧ (1 : ID).toNat < ix.nodesCount :=
  ⟨_, sample_runs, by decide, by decide, by rw [sample_runs.trie.nodesCount]; decide⟩

/-! ## C63 -/

/-- C63 does not hold: a dictionary word that is also a command is never searched. -/
theorem not_C63 (w : Str) (hw : w ∈ commands) (ix : Index) (lib : Lib) (disk : Option Index) (L : List (List Tag)) :
    (processInput lib disk ix w).2 ≠ .ok (.readings L) := by
  unfold commands at hw
  simp only [List.mem_cons, List.not_mem_nil, or_false] at hw
  have hs : ∀ x ∈ commands, splitSpaces x = [x] := by decide
  rcases hw with rfl | rfl | rfl | rfl | rfl | rfl | rfl | rfl | rfl | rfl | rfl | rfl
  all_goals
    unfold processInput
    rw [hs _ (by decide)]
    first
    | (intro h; cases h)
    | (cases disk <;> intro h <;> cases h)

/-- Such words exist: here the word "t", a noun, is found by the API with its reading. -/
example : ∃ ix, Run [.tagID (str "NOUN") [], .addString (str "t"), .addTagSet 1 [str "NOUN"]] ix ∧
    (ix.fetchString (str "t")).2 = .ok 1 ∧ ix.tagSetsOf 1 = .ok [[newTag [] (str "NOUN")]] ∧ str "t" ∈ commands := by
  refine ⟨execAll [.tagID (str "NOUN") [], .addString (str "t"), .addTagSet 1 [str "NOUN"]],
    small_runs _ (by decide), by decide, by decide, by decide⟩

/-- C63, for lines that do not begin with a command: a string that is an added word, or begins one, is answered
with its readings (`empty` if it has none); every other string is not found. -/
theorem C63_partial {h : List Op} {ix : Index} (r : Run h ix) (lib : Lib) (disk : Option Index) (line : Str)
    (hz : NoReload h ∨ NoLeadingNul (decodeRunes line)) (hc : (splitSpaces line).headD [] ∉ commands) :
    ((line ≠ [] ∧ ∃ v ∈ (dictOf h).words, decodeRunes line <+: v) →
      ∃ id L, (ix.fetchString line).2 = .ok id ∧ ix.word id = .ok (encodeRunes (decodeRunes line)) ∧
        ix.tagSetsOf id = .ok L ∧
        (processInput lib disk ix line).2 = .ok (if L = [] then .empty else .readings L)) ∧
    (¬ (line ≠ [] ∧ ∃ v ∈ (dictOf h).words, decodeRunes line <+: v) →
      (processInput lib disk ix line).2 = .ok .notFound) := by
  have hp : (processInput lib disk ix line) = processSearch ix line := by
    unfold commands at hc
    simp only [List.mem_cons, List.not_mem_nil, or_false, not_or] at hc
    unfold processInput
    simp only
    rw [if_neg (by tauto), if_neg (by tauto), if_neg (by tauto), if_neg (by tauto), if_neg (by tauto),
      if_neg (by tauto)]
  have hq := C02_string r line hz
  have hid := fetchString_cases r line
  have hw : ∀ id, (ix.fetchString line).2 = .ok id → ix.word id = .ok (encodeRunes (decodeRunes line)) :=
    fun id hid => C03_fetch r _ id hz hid
  have hroot : (ix.fetchString line).2 ≠ .ok 0 := by
    intro h0
    have hr := (found_root_iff r _).1 h0
    rcases hz with hz | hz
    · rw [dictOf_nul h hz] at hr
      exact absurd hr.2.1 (by decide)
    · cases hd : decodeRunes line with
      | nil => exact hr.1 hd
      | cons c q =>
        rw [hd] at hr hz
        exact hz (by simp [hr.2.2 c List.mem_cons_self])
  have o : Index.Obs ix (ix.fetchString line).1 := fetchFromItem_obs ix 0 (decodeRunes line)
  rw [hp]
  unfold processSearch
  generalize ix.fetchString line = x at *
  obtain ⟨b, res⟩ := x
  simp only at *
  rcases hid with ⟨id, rfl, hid⟩ | ⟨e, rfl⟩
  · have h0 : id.toNat ≠ 0 := fun e => hroot (congrArg Out.ok (UInt32.toNat_inj.1 e))
    obtain ⟨_, _, ⟨L, hL⟩, _⟩ := (C34_partial r id).2 (by omega) hid
    refine ⟨fun _ => ⟨id, L, rfl, hw id rfl, hL, ?_⟩, fun hn => absurd (hq.1.1 ⟨id, rfl⟩) hn⟩
    show (b.tagSetsOf id).bind _ = _
    rw [(SameAnswers.of_obs o).tagSets, hL]
    simp only [Out.bind_ok, List.length_eq_zero_iff]
  · refine ⟨fun hn => ?_, fun _ => rfl⟩
    obtain ⟨id, hid⟩ := hq.1.2 hn
    cases hid

/-- The hypotheses are met: the line "ab" on the sample index. -/
example : ∃ ix, Run sampleHistory ix ∧ NoLeadingNul (decodeRunes (str "ab")) ∧
    (splitSpaces (str "ab")).headD [] ∉ commands ∧
    ∃ v ∈ (dictOf sampleHistory).words, decodeRunes (str "ab") <+: v :=
  ⟨_, sample_runs, by unfold NoLeadingNul; decide, by decide, by decide⟩

end Verif
