import Verif.Lemmas.IntLit
import Verif.Props.Numbers

/-!
# C91: a number typed at the tool means that number

`set` and `var` read integer literals of Go (`Spec/IntLit.lean`), `tag`, `set table` and `node` decimal numbers. What is
typed at `set` and `node` is then cut to 32 bits. The library is Go's: `goLib`.
-/

namespace Verif

/-- What the tool shows for the tag set with the number `n`: what `TagSetIndex().Get(n)` returns. -/
def setReply (ix : Index) (n : Nat) : Out Reply :=
  match ix.tagSets.get (UInt32.ofNat n) with
  | none => .ok .message
  | some ts => .ok (.tagSet (shownTags ix ts))

/-- C91, a text stands for at most one number. -/
theorem C91_unambiguous {s : Str} {y z : Int} (h1 : SignedLit s y) (h2 : SignedLit s z) : y = z := by
  have plus : str "+" = [0x2b] := by decide
  have minus : str "-" = [0x2d] := by decide
  have nosign : ∀ (c : UInt8) (t : Str) (n : Nat), IntLit (c :: t) n → c ≠ 0x2d ∧ c ≠ 0x2b := by
    intro c t n h
    obtain ⟨c', r, d, he, hd⟩ := intLit_head h
    obtain ⟨rfl, rfl⟩ := List.cons.inj he
    constructor <;> (rintro rfl; revert hd; decide +revert)
  unfold SignedLit at h1 h2
  rw [plus, minus] at h1 h2
  obtain ⟨n, ⟨a, rfl⟩ | ⟨t, rfl, a, rfl⟩ | ⟨t, rfl, a, rfl⟩⟩ := h1 <;>
    obtain ⟨m, ⟨b, rfl⟩ | ⟨t', he, b, rfl⟩ | ⟨t', he, b, rfl⟩⟩ := h2
  · rw [intLit_unique a b]
  · subst he; exact absurd rfl (nosign _ _ _ a).2
  · subst he; exact absurd rfl (nosign _ _ _ a).1
  · exact absurd rfl (nosign _ _ _ b).2
  · obtain ⟨-, rfl⟩ := List.cons.inj he; rw [intLit_unique a b]
  · exact absurd (List.cons.inj he).1 (by decide)
  · exact absurd rfl (nosign _ _ _ b).1
  · exact absurd (List.cons.inj he).1 (by decide)
  · obtain ⟨-, rfl⟩ := List.cons.inj he; rw [intLit_unique a b]

/-- **C91, `set`, exactly**, on any index: a literal whose number fits into 64 bits shows the set whose number is the
remainder modulo 2^32; any other text is refused. -/
theorem C91_set_exact (ix : Index) (fold : Str → Str → Bool) (disk : Option Index) (a : Str) (hs : 0x20 ∉ a)
    (hw : a ≠ str "tables" ∧ a ≠ str "table") :
    let reply := (processInput (goLib fold) disk ix (str "set " ++ a)).2
    (∀ z, SignedLit a z → FitsInt z → reply = setReply ix (z % 4294967296).toNat) ∧
    ((∀ z, SignedLit a z → ¬ FitsInt z) → reply = .ok .message) := by
  intro reply
  have key : reply = (match parseInt0 a with
        | none => .ok .message
        | some n => setReply ix (n % 4294967296).toNat) := by
    show (processInput (goLib fold) disk ix (str "set " ++ a)).2 = _
    rw [processInput_set (c := str "set") (rest := [a]) (line := str "set " ++ a) (.inl rfl)
      (splitSpaces_two (c := str "set") (by decide) hs)]
    unfold processSet
    simp only
    rw [if_neg hw.1, if_neg hw.2]
    rfl
  constructor
  · intro z h1 h2
    rw [key, (parseInt0_iff a z).2 ⟨h1, h2⟩]
  · intro h
    cases hp : parseInt0 a with
    | none => rw [key, hp]
    | some z =>
      have := (parseInt0_iff a z).1 hp
      exact absurd this.2 (h z this.1)

/-- C91, `set`: a literal shows the set with that number if it is a number of 32 bits; a text that is no literal is
refused, and so is a number beyond 64 bits. Missing: the numbers between, see `C91_set_exact` and `not_C91`. -/
theorem C91_set_partial (ix : Index) (fold : Str → Str → Bool) (disk : Option Index) (a : Str) (hs : 0x20 ∉ a)
    (hw : a ≠ str "tables" ∧ a ≠ str "table") :
    let reply := (processInput (goLib fold) disk ix (str "set " ++ a)).2
    (∀ n : Nat, SignedLit a n → n < 4294967296 → reply = setReply ix n) ∧
    (∀ z, SignedLit a z → ¬ FitsInt z → reply = .ok .message) ∧
    ((¬ ∃ z, SignedLit a z) → reply = .ok .message) := by
  have key := C91_set_exact ix fold disk a hs hw
  refine ⟨fun n h hn => ?_, fun z h hz => ?_, fun h => ?_⟩
  · have := key.1 n h (by unfold FitsInt; omega)
    rw [this]
    congr 1
    omega
  · refine key.2 fun y hy hf => ?_
    rw [C91_unambiguous hy h] at hf
    exact hz hf
  · exact key.2 fun z hz => absurd ⟨z, hz⟩ h

/-- **C91, `var`**, on any index: a literal without a sign below 2^32 shows the collection with
that number; any other text is refused. -/
theorem C91_var (ix : Index) (fold : Str → Str → Bool) (disk : Option Index) (a : Str) (hs : 0x20 ∉ a) :
    let reply := (processInput (goLib fold) disk ix (str "var " ++ a)).2
    (∀ n : Nat, IntLit a n → n < 4294967296 → reply = (ix.variants (UInt32.ofNat n)).bind fun c =>
      .ok (.variants (c.map fun id => (id, (ix.tagSets.get id).map (shownTags ix))))) ∧
    ((∀ n, IntLit a n → 4294967296 ≤ n) → reply = .ok .message) := by
  intro reply
  have key : reply = (match (parseUint0 4294967295 a).map UInt32.ofNat with
      | none => .ok .message
      | some v => (ix.variants v).bind fun c =>
        .ok (.variants (c.map fun id => (id, (ix.tagSets.get id).map (shownTags ix))))) := by
    show (processInput (goLib fold) disk ix (str "var " ++ a)).2 = _
    rw [processInput_var (c := str "var") (rest := [a]) (line := str "var " ++ a) (.inl rfl)
      (splitSpaces_two (c := str "var") (by decide) hs)]
    rfl
  constructor
  · intro n h hn
    rw [key, (parseUint0_iff _ a n).2 ⟨h, by omega⟩]
    rfl
  · intro h
    cases hp : parseUint0 4294967295 a with
    | none => rw [key, hp]; rfl
    | some n =>
      have := (parseUint0_iff _ a n).1 hp
      have := h n this.1
      omega

/-- **C91, `node`, exactly**: a decimal number from `NodesCount` on is refused; below, the node shown is the one whose
number is the remainder modulo 2^32, if there is one, and the tool crashes if the remainder is 0. So the numbers from 1 to
`NodesCount - 1` show their node. -/
theorem C91_node_exact {h : List Op} {ix : Index} (r : Run h ix) (lib : Lib) (disk : Option Index) (a : Str) (hs : 0x20 ∉ a)
    (z : Int) (hz : SignedDecimal a z) (hf : FitsInt z) :
    let reply := (processInput lib disk ix (str "node " ++ a)).2
    (ix.nodesCount ≤ z → reply = .ok .message) ∧
    (z < ix.nodesCount → (z % 4294967296 = 0 → reply = .panic) ∧
      (ix.nodesCount < z % 4294967296 → reply = .ok .message) ∧
      ∀ k : ID, k.toNat = z % 4294967296 → 1 ≤ k.toNat → k.toNat ≤ ix.nodesCount →
        ∃ w L it, ix.word k = .ok w ∧ ix.tagSetsOf k = .ok L ∧ ix.nodeItem k = .ok it ∧
          reply = .ok (.node k w it L (ix.getChildrenMap k))) := by
  intro reply
  have ha := (atoi_iff a z).2 ⟨hz, hf⟩
  have hcnt : a ≠ str "count" := by
    rintro rfl
    rw [show atoi (str "count") = none from by decide] at ha
    cases ha
  have key : reply = (if z ≥ ix.nodesCount then (ix, .ok .message)
        else match ix.get (toU32 z) with
          | .ok id => showNode ix id
          | _ => (ix, .ok .message)).2 := by
    show (processInput lib disk ix (str "node " ++ a)).2 = _
    unfold processInput
    simp only [show splitSpaces (str "node " ++ a) = [str "node", a] from splitSpaces_two (c := str "node") (by decide) hs,
      List.headD_cons]
    rw [if_neg (by decide), if_neg (by decide), if_pos (by decide)]
    unfold processNode
    simp only [ha]
    rw [if_neg hcnt, if_neg (by simp)]
    rfl
  have hu : ((toU32 z).toNat : Int) = z % 4294967296 := by
    unfold toU32
    rw [UInt32.toNat_ofNat', Nat.mod_eq_of_lt (by omega)]
    omega
  constructor
  · intro h1
    rw [key, if_pos h1]
  · intro h1
    rw [if_neg (by omega)] at key
    refine ⟨fun h0 => ?_, fun hl => ?_, fun k hk h1 h2 => ?_⟩
    · have e : toU32 z = 0 := UInt32.toNat_inj.1 (by show (toU32 z).toNat = 0; omega)
      rw [e] at key
      rcases get_cases r 0 with ⟨_, hg⟩ | ⟨hg, _⟩
      · rw [key, hg]
        exact showNode_root ix
      · exact absurd hg (Nat.not_lt_zero _)
    · rcases get_cases r (toU32 z) with ⟨hg, _⟩ | ⟨_, hg⟩
      · omega
      · obtain ⟨e, hg⟩ := hg
        rw [key, hg]
    · have e : toU32 z = k := UInt32.toNat_inj.1 (by omega)
      rw [e] at key
      obtain ⟨w, L, it, e1, e2, e3, e4⟩ := showNode_ok r h1 h2
      refine ⟨w, L, it, e1, e2, ?_, ?_⟩
      · unfold Index.nodeItem
        rw [e3]
      · rcases get_cases r k with ⟨_, hg⟩ | ⟨hg, _⟩
        · rw [key, hg]
          exact e4
        · omega

/-- **C91, `tag` and `set table`, exactly**, on any index: a decimal number shows the tag or the table with that number; a
number beyond the last is refused, and a negative one crashes the tool. -/
theorem C91_tag_exact (ix : Index) (lib : Lib) (disk : Option Index) (a : Str) (hs : 0x20 ∉ a)
    (z : Int) (hz : SignedDecimal a z) (hf : FitsInt z) :
    (∀ n : Nat, z = n →
      (processInput lib disk ix (str "tag " ++ a)).2 = .ok (match ix.tags[n]? with
        | some t => .tag n t
        | none => .message) ∧
      (processInput lib disk ix (str "set table " ++ a)).2 = .ok (match ix.tagSets[n]? with
        | some t => .table t
        | none => .message)) ∧
    (z < 0 → (processInput lib disk ix (str "tag " ++ a)).2 = .panic ∧
      (processInput lib disk ix (str "set table " ++ a)).2 = .panic) := by
  have ha := (atoi_iff a z).2 ⟨hz, hf⟩
  have hcnt : a ≠ str "count" := by
    rintro rfl
    rw [show atoi (str "count") = none from by decide] at ha
    cases ha
  have k1 : (processInput lib disk ix (str "tag " ++ a)).2 = if z ≥ ix.tags.length then .ok .message
        else (sliceAt ix.tags z).bind fun t => .ok (.tag z.toNat t) := by
    rw [processInput_tag (c := str "tag") (rest := [a]) (line := str "tag " ++ a) (.inl rfl)
      (splitSpaces_two (c := str "tag") (by decide) hs)]
    unfold processTag
    simp only [ha]
    rw [if_neg hcnt]
  have k2 : (processInput lib disk ix (str "set table " ++ a)).2 = if z ≥ ix.tagSets.length then .ok .message
        else (sliceAt ix.tagSets z).bind fun t => .ok (.table t) := by
    rw [processInput_set (c := str "set") (rest := [str "table", a]) (line := str "set table " ++ a) (.inl rfl) ?_]
    · unfold processSet
      simp only [ha]
      rw [if_neg (by decide), if_pos trivial]
    · have e := splitSpaces_two (c := str "table") (a := a) (by decide) hs
      show splitSpaces (0x73 :: 0x65 :: 0x74 :: 0x20 :: (str "table" ++ 0x20 :: a)) = _
      simp only [splitSpaces, e]
      rfl
  have gen : ∀ {α : Type} (l : List α) (f : α → Reply),
      (∀ n : Nat, z = n → (if z ≥ l.length then Out.ok Reply.message else (sliceAt l z).bind fun t => .ok (f t)) =
        .ok (match l[n]? with
          | some t => f t
          | none => .message)) ∧
      (z < 0 → (if z ≥ l.length then Out.ok Reply.message else (sliceAt l z).bind fun t => .ok (f t)) = .panic) := by
    intro α l f
    constructor
    · rintro n rfl
      by_cases hn : n < l.length
      · rw [if_neg (by omega), sliceAt, if_neg (by omega), Int.toNat_natCast, List.getElem?_eq_getElem hn]
        rfl
      · rw [if_pos (by omega), List.getElem?_eq_none (by omega)]
    · intro hz
      rw [if_neg (by omega), sliceAt, if_pos hz]
      rfl
  constructor
  · intro n hn
    refine ⟨?_, ?_⟩
    · rw [k1]
      have := (gen ix.tags (fun t => .tag z.toNat t)).1 n hn
      rw [this]
      subst hn
      rw [Int.toNat_natCast]
      cases ix.tags[n]? <;> rfl
    · rw [k2]
      refine ((gen ix.tagSets .table).1 n hn).trans ?_
      generalize ix.tagSets[n]? = o
      cases o <;> rfl
  · intro hz
    rw [k1, k2]
    exact ⟨(gen ix.tags (fun t => .tag z.toNat t)).2 hz, (gen ix.tagSets .table).2 hz⟩

/-! ## The hypotheses are met -/

/-- Literals: 10, +10, 0x_1f and 010, which is eight. -/
example : SignedLit (str "10") 10 ∧ SignedLit (str "+10") 10 ∧ SignedLit (str "0x_1f") 31 ∧ SignedLit (str "010") 8 := by
  refine ⟨(parseInt0_iff _ _).1 ?_ |>.1, (parseInt0_iff _ _).1 ?_ |>.1, (parseInt0_iff _ _).1 ?_ |>.1,
    (parseInt0_iff _ _).1 ?_ |>.1⟩ <;> decide

/-- Texts that are not literals. -/
example : (¬ ∃ z, SignedLit (str "0x") z) ∧ (¬ ∃ z, SignedLit (str "1__0") z) ∧ ¬ ∃ n, IntLit (str "+1") n := by
  refine ⟨?_, ?_, ?_⟩
  · rintro ⟨z, n, ⟨h, _⟩ | ⟨t, he, _⟩ | ⟨t, he, _⟩⟩
    · have := (parseUint0_iff n (str "0x") n).2 ⟨h, le_refl _⟩
      rw [show parseUint0 n (str "0x") = none from rfl] at this
      cases this
    · exact absurd (Option.some.inj (congrArg List.head? he : some (0x30 : UInt8) = some 0x2b)) (by decide)
    · exact absurd (Option.some.inj (congrArg List.head? he : some (0x30 : UInt8) = some 0x2d)) (by decide)
  · rintro ⟨z, n, ⟨h, _⟩ | ⟨t, he, _⟩ | ⟨t, he, _⟩⟩
    · rcases (intLit_iff _ _).1 h with ⟨_, h⟩ | ⟨p, b, ds, hp, he, _⟩
      · exact absurd h (by rw [show scan 10 false 0 (str "1__0") = none from by decide]; simp)
      · simp only [basePrefixes, List.mem_cons, Prod.mk.injEq, List.not_mem_nil, or_false] at hp
        have : ∀ w ∈ ["0", "0b", "0B", "0o", "0O", "0x", "0X"], ∀ ds, str "1__0" ≠ str w ++ ds := by
          intro w hw ds he
          have h1 : ∀ w ∈ ["0", "0b", "0B", "0o", "0O", "0x", "0X"], (str w).head? = some 0x30 := by decide
          have h2 := congrArg List.head? he
          rw [List.head?_append, h1 w hw] at h2
          exact absurd (Option.some.inj (h2 : some (0x31 : UInt8) = some 0x30)) (by decide)
        rcases hp with ⟨rfl, _⟩ | ⟨rfl, _⟩ | ⟨rfl, _⟩ | ⟨rfl, _⟩ | ⟨rfl, _⟩ | ⟨rfl, _⟩ | ⟨rfl, _⟩ <;>
          exact this _ (by simp) _ he
    · exact absurd (Option.some.inj (congrArg List.head? he : some (0x31 : UInt8) = some 0x2b)) (by decide)
    · exact absurd (Option.some.inj (congrArg List.head? he : some (0x31 : UInt8) = some 0x2d)) (by decide)
  · rintro ⟨n, h⟩
    have := (parseUint0_iff n (str "+1") n).2 ⟨h, le_refl _⟩
    rw [show parseUint0 n (str "+1") = none from rfl] at this
    cases this

/-- For `node`, 010 is ten. -/
example : SignedDecimal (str "010") 10 ∧ SignedDecimal (str "-10") (-10) :=
  ⟨((atoi_iff _ _).1 (by decide)).1, ((atoi_iff _ _).1 (by decide)).1⟩

/-! ## Violations -/

set_option maxRecDepth 8000 in
/-- C91 does not hold: `set 4294967296` shows the set 0, `set -4294967295` the set 1, and `node -4294967295` the node 1;
`node -1` is refused, but `tag -1` crashes the tool. -/
theorem not_C91 (fold : Str → Str → Bool) (disk : Option Index) : ∃ ix, Run sampleHistory ix ∧
    (∃ names, (processInput (goLib fold) disk ix (str "set 4294967296")).2 = .ok (.tagSet names)) ∧
    (processInput (goLib fold) disk ix (str "set 4294967296")).2 = (processInput (goLib fold) disk ix (str "set 0")).2 ∧
    (processInput (goLib fold) disk ix (str "set -4294967295")).2 = (processInput (goLib fold) disk ix (str "set 1")).2 ∧
    (∃ w it L kids, (processInput (goLib fold) disk ix (str "node -4294967295")).2 = .ok (.node 1 w it L kids)) ∧
    (processInput (goLib fold) disk ix (str "node -1")).2 = .ok .message ∧
    (processInput (goLib fold) disk ix (str "tag -1")).2 = .panic :=
  ⟨execAll sampleHistory, sample_runs, ⟨_, rfl⟩, rfl, rfl, ⟨_, _, _, _, rfl⟩, rfl, rfl⟩

end Verif
