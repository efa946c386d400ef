import Verif.Model.Output
import Verif.Spec.Output
import Verif.Lemmas.Printed
import Mathlib.Data.List.Dedup

/-! # Helper lemmas: reading a transcript of the interactive tool back -/

namespace Verif

/-! ### Orders of visiting -/

theorem int32_surj (r : Rune) : ∃ n < 4294967296, r = (UInt32.ofNat n).toInt32 := by
  refine ⟨r.toUInt32.toNat, r.toUInt32.toNat_lt, ?_⟩
  rw [UInt32.ofNat_toNat]
  rfl

theorem enumerable_of (N : Nat) (f : Nat → Rune) (hf : ∀ r, ∃ n < N, r = f n) (m : IdMap) : ∃ l, Enumerates m l := by
  refine ⟨((List.range N).map f).dedup.filterMap fun k => (m k).map fun v => (k, v), ?_, ?_⟩
  · intro k v
    rw [List.mem_filterMap]
    constructor
    · rintro ⟨a, -, ha⟩
      cases hm : m a with
      | none => rw [hm] at ha; cases ha
      | some b =>
        rw [hm] at ha
        simp only [Option.map_some, Option.some.injEq, Prod.mk.injEq] at ha
        obtain ⟨rfl, rfl⟩ := ha
        exact hm
    · intro h
      refine ⟨k, ?_, by rw [h]; rfl⟩
      rw [List.mem_dedup]
      obtain ⟨n, hn, rfl⟩ := hf k
      exact List.mem_map.2 ⟨n, List.mem_range.2 hn, rfl⟩
  · have hk : ∀ l : List Rune, ((l.filterMap fun k => (m k).map fun v => (k, v)).map (·.1)).Sublist l := by
      intro l
      induction l with
      | nil => simp
      | cons a l ih =>
        rw [List.filterMap_cons]
        cases hm : m a with
        | none => exact ih.trans (List.sublist_cons_self _ _)
        | some v => exact ih.cons_cons a
    exact (hk _).nodup (List.nodup_dedup _)

/-- There are such orders. -/
theorem exists_visits : ∃ order, Visits order :=
  ⟨fun m => (enumerable_of _ _ int32_surj m).choose, fun m => (enumerable_of _ _ int32_surj m).choose_spec⟩

/-! ### The text of what is shown -/

/-- The line of one set of a collection, without the line end. -/
def setLine (i : Nat) (e : TagSetID × Option (List Str)) : Str :=
  str "- " ++ (pad2 i ++ (str ": " ++ (pad3 e.1.toNat ++ (str ": " ++ (match e.2 with
    | none => str "!!!NOT FOUND!!!"
    | some names => str "TS" ++ (pad3 e.1.toNat ++ (str ": " ++ joinComma names)))))))

/-- The lines of the sets, each after a line end. -/
def setLines : Nat → List (TagSetID × Option (List Str)) → Str
  | _, [] => []
  | i, e :: l => 0x0a :: (setLine i e ++ setLines (i + 1) l)

/-- The bytes written for what is shown. -/
def Screen.text (order : IdMap → List (Rune × ID)) : Screen → Str
  | .node id w p v L m => nodeText id w ⟨p, id, 0, v⟩ (L.map fun t => t.map fun n => ⟨[], n⟩) (order m) ++ str "\n"
  | .tags n names => str "set." ++ (intText n ++ (str "(0x" ++ (intHex n ++ (str "): " ++ (joinWith (str ", ") names ++ str "\n")))))
  | .sets v l => str "variant: " ++ (itoa v.toNat ++ (str ": [" ++ (joinWith (str " ") (l.map fun e => itoa e.1.toNat) ++
      (str "]" ++ (setLines 0 l ++ str "\n\n")))))
  | .nothing => str "\n"

/-- A name that can be told from what surrounds it. -/
def OneLineName (n : Str) : Prop := n.length = 4 ∧ (0x0a : UInt8) ∉ n

/-- What can be read back. -/
def Screen.Plain : Screen → Prop
  | .node _ w _ v L _ => (0x0a : UInt8) ∉ w ∧ (∀ t ∈ L, ∀ n ∈ t, n.length = 4) ∧ (v = 0 → L = [])
  | .tags _ names => ∀ n ∈ names, OneLineName n
  | .sets _ l => ∀ e ∈ l, ∀ names, e.2 = some names → ∀ n ∈ names, OneLineName n
  | .nothing => True

theorem intText_no {c : UInt8} (n : Int) (hc : ¬ (0x30 ≤ c.toNat ∧ c.toNat ≤ 0x39)) (hm : c ≠ 0x2d) : c ∉ intText n := by
  unfold intText
  split
  · exact itoa_no hc
  · intro h
    rcases List.mem_append.1 h with h | h
    · have e : str "-" = [0x2d] := by decide
      rw [e] at h
      exact hm (List.mem_singleton.1 h)
    · exact itoa_no hc h

theorem intText_inj {a b : Int} (h : intText a = intText b) : a = b := by
  have minus : ∀ n, (0x2d : UInt8) ∉ itoa n := fun n => itoa_no (by decide)
  have e : str "-" = [0x2d] := by decide
  unfold intText at h
  split at h <;> split at h
  · have := itoa_inj h
    omega
  · exfalso
    have := minus a.toNat
    rw [h, e] at this
    exact this List.mem_cons_self
  · exfalso
    have := minus b.toNat
    rw [← h, e] at this
    exact this List.mem_cons_self
  · have := itoa_inj (List.append_cancel_left h)
    omega

/-! ### Joined texts -/

theorem joinWith_no {c : UInt8} {sep : Str} (hs : c ∉ sep) : ∀ l : List Str, (∀ a ∈ l, c ∉ a) → c ∉ joinWith sep l
  | [], _ => by simp [joinWith]
  | [a], h => h a List.mem_cons_self
  | a :: b :: l, h => by
    unfold joinWith
    intro hc
    rcases List.mem_append.1 hc with hc | hc
    · exact h a List.mem_cons_self hc
    · rcases List.mem_append.1 hc with hc | hc
      · exact hs hc
      · exact joinWith_no hs (b :: l) (fun x hx => h x (List.mem_cons_of_mem _ hx)) hc

/-- Pieces of a fixed length can be told apart whatever joins them. -/
theorem joinWith_length_inj {k : Nat} (hk : 0 < k) {sep : Str} (hs : sep ≠ []) : ∀ l m : List Str, (∀ a ∈ l, a.length = k) → (∀ a ∈ m, a.length = k) →
    joinWith sep l = joinWith sep m → l = m
  | [], [], _, _, _ => rfl
  | [], b :: m, _, hm, h => by
    exfalso
    have := hm b List.mem_cons_self
    cases m with
    | nil => have h : [] = b := h; rw [← h] at this; simp at this; omega
    | cons c m =>
      unfold joinWith at h
      have := congrArg List.length h
      simp only [List.length_append, List.length_nil] at this
      omega
  | a :: l, [], hl, _, h => by
    exfalso
    have := hl a List.mem_cons_self
    cases l with
    | nil => have h : a = [] := h; rw [h] at this; simp at this; omega
    | cons c m =>
      unfold joinWith at h
      have := congrArg List.length h
      simp only [List.length_append, List.length_nil] at this
      omega
  | [a], [b], _, _, h => by have h : a = b := h; rw [h]
  | [a], b :: c :: m, hl, hm, h => by
    exfalso
    have h : a = b ++ (sep ++ joinWith sep (c :: m)) := h
    have h1 := hl a List.mem_cons_self
    have h2 := hm b List.mem_cons_self
    have := congrArg List.length h
    have hs := List.length_pos_iff.2 hs
    simp only [List.length_append] at this
    omega
  | a :: c :: l, [b], hl, hm, h => by
    exfalso
    have h : a ++ (sep ++ joinWith sep (c :: l)) = b := h
    have h1 := hl a List.mem_cons_self
    have h2 := hm b List.mem_cons_self
    have := congrArg List.length h
    have hs := List.length_pos_iff.2 hs
    simp only [List.length_append] at this
    omega
  | a :: c :: l, b :: d :: m, hl, hm, h => by
    have h : a ++ (sep ++ joinWith sep (c :: l)) = b ++ (sep ++ joinWith sep (d :: m)) := h
    obtain ⟨rfl, h2⟩ := List.append_inj h ((hl a List.mem_cons_self).trans (hm b List.mem_cons_self).symm)
    rw [joinWith_length_inj hk hs (c :: l) (d :: m) (fun x hx => hl x (List.mem_cons_of_mem _ hx))
      (fun x hx => hm x (List.mem_cons_of_mem _ hx)) (List.append_cancel_left h2)]

/-- Pieces without the separating byte can be told apart. -/
theorem joinWith_stop_inj {c : UInt8} : ∀ l m : List Str, (∀ a ∈ l, c ∉ a ∧ a ≠ []) → (∀ a ∈ m, c ∉ a ∧ a ≠ []) →
    joinWith [c] l = joinWith [c] m → l = m
  | [], [], _, _, _ => rfl
  | [], [b], _, hm, h => absurd (show [] = b from h).symm (hm b List.mem_cons_self).2
  | [], b :: d :: m, _, _, h => by unfold joinWith at h; simp at h
  | [a], [], hl, _, h => absurd (show a = [] from h) (hl a List.mem_cons_self).2
  | a :: d :: l, [], _, _, h => by unfold joinWith at h; simp at h
  | [a], [b], _, _, h => by have h : a = b := h; rw [h]
  | [a], b :: d :: m, hl, hm, h => by
    exfalso
    have h : a = b ++ ([c] ++ joinWith [c] (d :: m)) := h
    have := (hl a List.mem_cons_self).1
    rw [h] at this
    exact this (by simp)
  | a :: d :: l, [b], hl, hm, h => by
    exfalso
    have h : a ++ ([c] ++ joinWith [c] (d :: l)) = b := h
    have := (hm b List.mem_cons_self).1
    rw [← h] at this
    exact this (by simp)
  | a :: d :: l, b :: e :: m, hl, hm, h => by
    have h : a ++ c :: joinWith [c] (d :: l) = b ++ c :: joinWith [c] (e :: m) := h
    obtain ⟨rfl, h2⟩ := stop_split (hl a List.mem_cons_self).1 (hm b List.mem_cons_self).1 h
    rw [joinWith_stop_inj (d :: l) (e :: m) (fun x hx => hl x (List.mem_cons_of_mem _ hx))
      (fun x hx => hm x (List.mem_cons_of_mem _ hx)) h2]

theorem joinComma_no {c : UInt8} (hc : c ≠ 0x2c) (l : List Str) (h : ∀ a ∈ l, c ∉ a) : c ∉ joinComma l := by
  intro hm
  rcases joinComma_mem l hm with h1 | ⟨a, ha, h1⟩
  · exact hc h1
  · exact h a ha h1

theorem pad3_digit {n : Nat} {c : UInt8} (h : c ∈ pad3 n) : 0x30 ≤ c.toNat ∧ c.toNat ≤ 0x39 := by
  unfold pad3 at h
  rcases List.mem_append.1 h with h | h
  · rw [(List.mem_replicate.1 h).2]
    decide
  · exact itoa_digit h

theorem pad3_no {n : Nat} {c : UInt8} (hc : ¬ (0x30 ≤ c.toNat ∧ c.toNat ≤ 0x39)) : c ∉ pad3 n :=
  fun h => hc (pad3_digit h)

/-! ### The lines of a collection -/

theorem setLine_no {i : Nat} {e : TagSetID × Option (List Str)}
    (h : ∀ names, e.2 = some names → ∀ n ∈ names, OneLineName n) : (0x0a : UInt8) ∉ setLine i e := by
  unfold setLine
  have e1 : (0x0a : UInt8) ∉ str "- " := by decide
  have e2 : (0x0a : UInt8) ∉ str ": " := by decide
  have e3 : (0x0a : UInt8) ∉ str "TS" := by decide
  have e4 : (0x0a : UInt8) ∉ str "!!!NOT FOUND!!!" := by decide
  have e5 : ∀ n, (0x0a : UInt8) ∉ pad2 n := fun n => pad2_no (by decide)
  have e6 : ∀ n, (0x0a : UInt8) ∉ pad3 n := fun n => pad3_no (by decide)
  cases hn : e.2 with
  | none => simp [e1, e2, e4, e5, e6]
  | some names =>
    have := joinComma_no (c := 0x0a) (by decide) names fun a ha => (h names hn a ha).2
    simp [e1, e2, e3, e5, e6, this]

theorem setLine_inj {i : Nat} {e e' : TagSetID × Option (List Str)}
    (h : ∀ names, e.2 = some names → ∀ n ∈ names, OneLineName n)
    (h' : ∀ names, e'.2 = some names → ∀ n ∈ names, OneLineName n) (hi : e.1 = e'.1)
    (heq : setLine i e = setLine i e') : e = e' := by
  obtain ⟨a, x⟩ := e
  obtain ⟨b, y⟩ := e'
  simp only at hi
  subst hi
  unfold setLine at heq
  have heq := List.append_cancel_left (List.append_cancel_left (List.append_cancel_left
    (List.append_cancel_left (List.append_cancel_left heq))))
  cases x with
  | none =>
    cases y with
    | none => rfl
    | some m => simp [str] at heq
  | some l =>
    cases y with
    | none => simp [str] at heq
    | some m =>
      have heq := List.append_cancel_left (List.append_cancel_left (List.append_cancel_left heq))
      have := joinComma_inj (separable_length 4) l m
        (fun n hn => ⟨(h l rfl n hn).1, by intro e; have := (h l rfl n hn).1; rw [e] at this; cases this⟩)
        (fun n hn => ⟨(h' m rfl n hn).1, by intro e; have := (h' m rfl n hn).1; rw [e] at this; cases this⟩) heq
      rw [this]

theorem setLines_split : ∀ (l m : List (TagSetID × Option (List Str))) (i : Nat) (r r' : Str),
    (∀ e ∈ l, ∀ names, e.2 = some names → ∀ n ∈ names, OneLineName n) →
    (∀ e ∈ m, ∀ names, e.2 = some names → ∀ n ∈ names, OneLineName n) → l.map (·.1) = m.map (·.1) →
    setLines i l ++ 0x0a :: r = setLines i m ++ 0x0a :: r' → l = m ∧ r = r'
  | [], [], _, _, _, _, _, _, h => ⟨rfl, (List.cons.inj h).2⟩
  | [], _ :: _, _, _, _, _, _, h, _ => by cases h
  | _ :: _, [], _, _, _, _, _, h, _ => by cases h
  | e :: l, e' :: m, i, r, r', hl, hm, hid, h => by
    rw [List.map_cons, List.map_cons] at hid
    obtain ⟨hid1, hid2⟩ := List.cons.inj hid
    have start : ∀ (l : List (TagSetID × Option (List Str))) (r : Str), ∃ u, setLines (i + 1) l ++ 0x0a :: r = 0x0a :: u := by
      intro l r
      cases l with
      | nil => exact ⟨r, rfl⟩
      | cons e l => exact ⟨_, rfl⟩
    unfold setLines at h
    simp only [List.cons_append, List.append_assoc] at h
    have h := (List.cons.inj h).2
    obtain ⟨u, hu⟩ := start l r
    obtain ⟨v, hv⟩ := start m r'
    rw [hu, hv] at h
    obtain ⟨h1, h2⟩ := stop_split (setLine_no (hl e List.mem_cons_self)) (setLine_no (hm e' List.mem_cons_self)) h
    have := setLine_inj (hl e List.mem_cons_self) (hm e' List.mem_cons_self) hid1 h1
    subst this
    obtain ⟨h3, h4⟩ := setLines_split l m (i + 1) r r' (fun x hx => hl x (List.mem_cons_of_mem _ hx))
      (fun x hx => hm x (List.mem_cons_of_mem _ hx)) hid2 (by rw [hu, hv, h2])
    exact ⟨by rw [h3], h4⟩

/-! ### The children of a node, with what follows -/

theorem lines_split : ∀ (l m : List (Rune × ID)) (r r' : Str), l.length = m.length →
    (l.map fun e => str "- " ++ childBody e ++ str "\n").flatten ++ r =
      (m.map fun e => str "- " ++ childBody e ++ str "\n").flatten ++ r' → l = m ∧ r = r'
  | [], [], _, _, _, h => ⟨rfl, h⟩
  | [], _ :: _, _, _, h, _ => by cases h
  | _ :: _, [], _, _, h, _ => by cases h
  | e :: l, e' :: m, r, r', hl, h => by
    rw [List.map_cons, List.map_cons, List.flatten_cons, List.flatten_cons] at h
    simp only [List.append_assoc] at h
    have h := List.append_cancel_left h
    obtain ⟨rfl, h2⟩ := childBody_split (u := _) (v := _) h
    obtain ⟨h3, h4⟩ := lines_split l m r r' (Nat.succ.inj hl) (by simp only [List.append_assoc]; exact h2)
    exact ⟨by rw [h3], h4⟩

theorem children_rest {a b : List (Rune × ID)} {r r' : Str} (h : childrenText a ++ r = childrenText b ++ r') :
    a.Perm b ∧ r = r' := by
  have e0 : str "Children: --------\n" = str "Children: " ++ (0x2d :: str "-------\n") := by decide
  have dig : ∀ (n : Nat) (s : Str), ∃ c u, itoa n ++ s = c :: u ∧ c ≠ 0x2d := by
    intro n s
    cases hn : itoa n with
    | nil => exact absurd hn (itoa_ne_nil n)
    | cons c u =>
      refine ⟨c, u ++ s, rfl, ?_⟩
      rintro rfl
      have := itoa_digit (n := n) (c := 0x2d) (by rw [hn]; exact List.mem_cons_self)
      revert this
      decide
  unfold childrenText at h
  split at h <;> split at h
  · simp only [List.append_assoc] at h
    have h := List.append_cancel_left h
    have e1 : str " items:\n" = 0x20 :: str "items:\n" := by decide
    rw [e1] at h
    simp only [List.cons_append] at h
    obtain ⟨h1, h2⟩ := stop_split (itoa_no (by decide)) (itoa_no (by decide)) h
    have hlen := itoa_inj h1
    have h3 := List.append_cancel_left h2
    obtain ⟨l, hl, el⟩ := sorted_preimage a
    obtain ⟨m, hm, em⟩ := sorted_preimage b
    rw [childLines_eq, childLines_eq, el, em, List.map_map, List.map_map] at h3
    obtain ⟨h4, h5⟩ := lines_split l m _ _ (by rw [hl.length_eq, hm.length_eq, hlen]) h3
    subst h4
    exact ⟨hl.symm.trans hm, h5⟩
  · exfalso
    rw [e0] at h
    simp only [List.append_assoc] at h
    have h := List.append_cancel_left h
    obtain ⟨c, u, e, hc⟩ := dig a.length (str " items:\n" ++ ((childLines a).flatten ++ r))
    rw [e] at h
    exact hc (List.cons.inj h).1
  · exfalso
    rw [e0] at h
    simp only [List.append_assoc] at h
    have h := List.append_cancel_left h
    obtain ⟨c, u, e, hc⟩ := dig b.length (str " items:\n" ++ ((childLines b).flatten ++ r'))
    rw [e] at h
    exact hc (List.cons.inj h).1.symm
  · have ha : a = [] := List.eq_nil_of_length_eq_zero (by omega)
    have hb : b = [] := List.eq_nil_of_length_eq_zero (by omega)
    rw [ha, hb]
    exact ⟨List.Perm.nil, List.append_cancel_left h⟩

theorem enumerates_eq {m m' : IdMap} {a a' : List (Rune × ID)} (ha : Enumerates m a) (ha' : Enumerates m' a')
    (h : a.Perm a') : m = m' := by
  funext k
  cases hk : m k with
  | some v => exact ((ha'.mem k v).1 (h.subset ((ha.mem k v).2 hk))).symm
  | none =>
    cases hk' : m' k with
    | none => rfl
    | some v =>
      rw [(ha.mem k v).1 (h.symm.subset ((ha'.mem k v).2 hk'))] at hk
      cases hk

theorem namesOf_named (L : List (List Str)) : namesOf (L.map fun t => t.map fun n => ⟨[], n⟩) = L := by
  unfold namesOf
  rw [List.map_map]
  conv => rhs; rw [← List.map_id L]
  apply List.map_congr_left
  intro t _
  simp [List.map_map, Function.comp_def]

/-! ### What is shown can be read back -/

theorem node_split {order order' : IdMap → List (Rune × ID)} (ho : Visits order) (ho' : Visits order')
    {id id' p p' : ID} {w w' : Str} {v v' : VariantID} {L L' : List (List Str)} {m m' : IdMap} {r r' : Str}
    (h1 : (Screen.node id w p v L m).Plain) (h1' : (Screen.node id' w' p' v' L' m').Plain)
    (h : (Screen.node id w p v L m).text order ++ r = (Screen.node id' w' p' v' L' m').text order' ++ r') :
    Screen.node id w p v L m = Screen.node id' w' p' v' L' m' ∧ r = r' := by
  obtain ⟨hw, hL, hv⟩ := h1
  obtain ⟨hw', hL', hv'⟩ := h1'
  unfold Screen.text nodeText at h
  have e1 : str "\n" = [0x0a] := by decide
  rw [e1] at h
  simp only [List.append_assoc, List.cons_append, List.nil_append] at h
  have h := List.append_cancel_left h
  obtain ⟨h1, h2⟩ := stop_split (itoa_no (by decide)) (itoa_no (by decide)) h
  have h3 := List.append_cancel_left h2
  obtain ⟨h4, h5⟩ := stop_split hw hw' h3
  have h6 := List.append_cancel_left h5
  obtain ⟨h7, h8⟩ := stop_split (itoa_no (by decide)) (itoa_no (by decide)) h6
  have four : ∀ L : List (List Str), (∀ t ∈ L, ∀ n ∈ t, n.length = 4) →
      ∀ t ∈ (L.map fun t => t.map fun n => (⟨[], n⟩ : Tag)), ∀ x ∈ t, x.name.length = 4 := by
    intro L hL t ht x hx
    obtain ⟨t', ht', rfl⟩ := List.mem_map.1 ht
    obtain ⟨n, hn, rfl⟩ := List.mem_map.1 hx
    exact hL t' ht' n hn
  obtain ⟨h9, h10, h11⟩ := variants_split (four L hL) (four L' hL')
    (by obtain ⟨t, ht⟩ := childrenText_start (order m); exact ⟨t ++ 0x0a :: r, by rw [ht, List.append_assoc]⟩)
    (by obtain ⟨t, ht⟩ := childrenText_start (order' m'); exact ⟨t ++ 0x0a :: r', by rw [ht, List.append_assoc]⟩) h8
  obtain ⟨h12, h13⟩ := children_rest h11
  have hLL : L = L' := by
    by_cases h0 : v = 0
    · rw [hv h0, hv' (h9 ▸ h0)]
    · have := h10 h0
      rwa [namesOf_named, namesOf_named] at this
  have q1 : id = id' := UInt32.toNat_inj.1 (itoa_inj h1)
  have q2 : p = p' := UInt32.toNat_inj.1 (itoa_inj h7)
  have q3 : v = v' := h9
  have q4 : m = m' := enumerates_eq (ho m) (ho' m') h12
  subst q1 q2 q3 q4 h4 hLL
  exact ⟨rfl, (List.cons.inj h13).2⟩

theorem tags_split {order order' : IdMap → List (Rune × ID)} {n n' : Int} {l l' : List Str} {r r' : Str}
    (h1 : (Screen.tags n l).Plain) (h1' : (Screen.tags n' l').Plain)
    (h : (Screen.tags n l).text order ++ r = (Screen.tags n' l').text order' ++ r') :
    Screen.tags n l = Screen.tags n' l' ∧ r = r' := by
  unfold Screen.text at h
  have e1 : str "\n" = [0x0a] := by decide
  have e2 : str "(0x" = 0x28 :: str "0x" := by decide
  rw [e1, e2] at h
  simp only [List.append_assoc, List.cons_append, List.nil_append] at h
  have h := List.append_cancel_left h
  obtain ⟨h2, h3⟩ := stop_split (intText_no n (by decide) (by decide)) (intText_no n' (by decide) (by decide)) h
  have hn := intText_inj h2
  subst hn
  have h4 := List.append_cancel_left (List.append_cancel_left (List.append_cancel_left h3))
  obtain ⟨h5, h6⟩ := stop_split (joinWith_no (by decide) l fun a ha => (h1 a ha).2)
    (joinWith_no (by decide) l' fun a ha => (h1' a ha).2) h4
  have := joinWith_length_inj (k := 4) (by omega) (by decide) l l' (fun a ha => (h1 a ha).1) (fun a ha => (h1' a ha).1) h5
  subst this
  exact ⟨rfl, h6⟩

theorem sets_split {order order' : IdMap → List (Rune × ID)} {v v' : VariantID}
    {l l' : List (TagSetID × Option (List Str))} {r r' : Str}
    (h1 : (Screen.sets v l).Plain) (h1' : (Screen.sets v' l').Plain)
    (h : (Screen.sets v l).text order ++ r = (Screen.sets v' l').text order' ++ r') :
    Screen.sets v l = Screen.sets v' l' ∧ r = r' := by
  unfold Screen.text at h
  have e1 : str "\n\n" = [0x0a, 0x0a] := by decide
  have e2 : str ": [" = 0x3a :: str " [" := by decide
  have e3 : str "]" = [0x5d] := by decide
  have e4 : str " " = [0x20] := by decide
  rw [e1, e2, e3, e4] at h
  simp only [List.append_assoc, List.cons_append, List.nil_append] at h
  have h := List.append_cancel_left h
  obtain ⟨h2, h3⟩ := stop_split (itoa_no (by decide)) (itoa_no (by decide)) h
  have hv : v = v' := UInt32.toNat_inj.1 (itoa_inj h2)
  subst hv
  have h4 := List.append_cancel_left h3
  have nums : ∀ (c : UInt8), ¬ (0x30 ≤ c.toNat ∧ c.toNat ≤ 0x39) → ∀ l : List (TagSetID × Option (List Str)),
      ∀ a ∈ l.map fun e => itoa e.1.toNat, c ∉ a := by
    intro c hc l a ha
    obtain ⟨e, -, rfl⟩ := List.mem_map.1 ha
    exact itoa_no hc
  obtain ⟨h5, h6⟩ := stop_split (joinWith_no (by decide) _ (nums 0x5d (by decide) l))
    (joinWith_no (by decide) _ (nums 0x5d (by decide) l')) h4
  have ne : ∀ l : List (TagSetID × Option (List Str)), ∀ a ∈ l.map fun e => itoa e.1.toNat, a ≠ [] := by
    intro l a ha
    obtain ⟨e, -, rfl⟩ := List.mem_map.1 ha
    exact itoa_ne_nil _
  have h7 := joinWith_stop_inj (c := 0x20) _ _ (fun a ha => ⟨nums 0x20 (by decide) l a ha, ne l a ha⟩)
    (fun a ha => ⟨nums 0x20 (by decide) l' a ha, ne l' a ha⟩) h5
  have h8 : l.map (·.1) = l'.map (·.1) := by
    have inj : Function.Injective fun i : TagSetID => itoa i.toNat := fun a b hab => UInt32.toNat_inj.1 (itoa_inj hab)
    apply List.map_injective_iff.2 inj
    rw [List.map_map, List.map_map]
    exact h7
  obtain ⟨h9, h10⟩ := setLines_split l l' 0 _ _ h1 h1' h8 h6
  subst h9
  exact ⟨rfl, (List.cons.inj h10).2⟩

/-- What is shown first can be read off what is written, whatever follows. -/
theorem Screen.text_split {order order' : IdMap → List (Rune × ID)} (ho : Visits order) (ho' : Visits order')
    {s s' : Screen} {r r' : Str} (hs : s.Plain) (hs' : s'.Plain) (h : s.text order ++ r = s'.text order' ++ r') :
    s = s' ∧ r = r' := by
  have a1 : ∀ id w p v L m o, ∃ u, (Screen.node id w p v L m).text o = 0x4e :: u := fun id w p v L m o => ⟨_, rfl⟩
  have a2 : ∀ n l o, ∃ u, (Screen.tags n l).text o = 0x73 :: u := fun n l o => ⟨_, rfl⟩
  have a3 : ∀ v l o, ∃ u, (Screen.sets v l).text o = 0x76 :: u := fun v l o => ⟨_, rfl⟩
  have a4 : ∀ o, ∃ u, Screen.nothing.text o = 0x0a :: u := fun o => ⟨[], rfl⟩
  cases s with
  | node id w p v L m =>
    cases s' with
    | node id' w' p' v' L' m' => exact node_split ho ho' hs hs' h
    | tags n' l' => 
      exfalso; obtain ⟨u, e⟩ := a1 id w p v L m order; obtain ⟨u', e'⟩ := a2 n' l' order'
      rw [e, e'] at h; exact absurd (List.cons.inj h).1 (by decide)
    | sets v' l' =>
      exfalso; obtain ⟨u, e⟩ := a1 id w p v L m order; obtain ⟨u', e'⟩ := a3 v' l' order'
      rw [e, e'] at h; exact absurd (List.cons.inj h).1 (by decide)
    | nothing =>
      exfalso; obtain ⟨u, e⟩ := a1 id w p v L m order; obtain ⟨u', e'⟩ := a4 order'
      rw [e, e'] at h; exact absurd (List.cons.inj h).1 (by decide)
  | tags n l =>
    obtain ⟨u, e⟩ := a2 n l order
    cases s' with
    | node id' w' p' v' L' m' =>
      exfalso; obtain ⟨u', e'⟩ := a1 id' w' p' v' L' m' order'
      rw [e, e'] at h; exact absurd (List.cons.inj h).1 (by decide)
    | tags n' l' => exact tags_split hs hs' h
    | sets v' l' =>
      exfalso; obtain ⟨u', e'⟩ := a3 v' l' order'
      rw [e, e'] at h; exact absurd (List.cons.inj h).1 (by decide)
    | nothing =>
      exfalso; obtain ⟨u', e'⟩ := a4 order'
      rw [e, e'] at h; exact absurd (List.cons.inj h).1 (by decide)
  | sets v l =>
    obtain ⟨u, e⟩ := a3 v l order
    cases s' with
    | node id' w' p' v' L' m' =>
      exfalso; obtain ⟨u', e'⟩ := a1 id' w' p' v' L' m' order'
      rw [e, e'] at h; exact absurd (List.cons.inj h).1 (by decide)
    | tags n' l' =>
      exfalso; obtain ⟨u', e'⟩ := a2 n' l' order'
      rw [e, e'] at h; exact absurd (List.cons.inj h).1 (by decide)
    | sets v' l' => exact sets_split hs hs' h
    | nothing =>
      exfalso; obtain ⟨u', e'⟩ := a4 order'
      rw [e, e'] at h; exact absurd (List.cons.inj h).1 (by decide)
  | nothing =>
    obtain ⟨u, e⟩ := a4 order
    cases s' with
    | node id' w' p' v' L' m' =>
      exfalso; obtain ⟨u', e'⟩ := a1 id' w' p' v' L' m' order'
      rw [e, e'] at h; exact absurd (List.cons.inj h).1 (by decide)
    | tags n' l' =>
      exfalso; obtain ⟨u', e'⟩ := a2 n' l' order'
      rw [e, e'] at h; exact absurd (List.cons.inj h).1 (by decide)
    | sets v' l' =>
      exfalso; obtain ⟨u', e'⟩ := a3 v' l' order'
      rw [e, e'] at h; exact absurd (List.cons.inj h).1 (by decide)
    | nothing => exact ⟨rfl, List.append_cancel_left h⟩

theorem Screen.text_ne_nil (order : IdMap → List (Rune × ID)) (s : Screen) : s.text order ≠ [] := by
  cases s with
  | node => intro h; cases (show _ :: _ = [] from h)
  | tags => intro h; cases (show _ :: _ = [] from h)
  | sets => intro h; cases (show _ :: _ = [] from h)
  | nothing => intro h; cases (show _ :: _ = [] from h)

end Verif
