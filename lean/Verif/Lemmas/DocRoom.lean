import Verif.Lemmas.ImportRun
import Verif.Lemmas.Room
import Verif.Spec.DocRoom
import Verif.Props.Reload
import Verif.Props.Optimize
import Verif.Props.Tagging

/-! # Documents within capacity -/

namespace Verif

/-- A grammeme or a form. -/
inductive IStep where
  | gram (n p : Str)
  | form (w : Str) (tags : List Str)

def stepsOf : List Entry → List IStep
  | [] => []
  | .grammeme n p :: es => .gram n p :: stepsOf es
  | .lem fs :: es => fs.map (fun f => .form f.1 f.2) ++ stepsOf es

/-- The node id `AddString` returns. -/
def formID (d : Dict) (w : Str) : ID := UInt32.ofNat (((Op.addString w).spec d).nodes.idxOf (decodeRunes w))

def stepCalls (d : Dict) : List IStep → List Op
  | [] => []
  | .gram n p :: r => .tagID n p :: stepCalls ((Op.tagID n p).spec d) r
  | .form w tags :: r => .addString w :: .addTagSet (formID d w) tags ::
      stepCalls ((Op.addTagSet (formID d w) tags).spec ((Op.addString w).spec d)) r

theorem stepCalls_append (a b : List IStep) (d : Dict) :
    stepCalls d (a ++ b) = stepCalls d a ++ stepCalls ((stepCalls d a).foldl Op.spec d) b := by
  induction a generalizing d with
  | nil => rfl
  | cons x a ih => cases x <;> simp [stepCalls, ih]

theorem formCalls_steps (fs : List (Str × List Str)) (d : Dict) :
    formCalls d fs = stepCalls d (fs.map fun f => .form f.1 f.2) := by
  induction fs generalizing d with
  | nil => rfl
  | cons f fs ih =>
    obtain ⟨w, tags⟩ := f
    simp only [formCalls, List.map_cons, stepCalls, formID, ih]

theorem importCalls_steps (es : List Entry) (d : Dict) : importCalls d es = stepCalls d (stepsOf es) := by
  induction es generalizing d with
  | nil => rfl
  | cons e es ih =>
    cases e with
    | grammeme n p => simp only [importCalls, stepsOf, stepCalls, ih]
    | lem fs => simp only [importCalls, stepsOf, stepCalls_append, ← formCalls_steps, ih]

/-- The grammemes and forms of the steps. -/
def stepForms : List IStep → List (Str × List Str)
  | [] => []
  | .gram _ _ :: r => stepForms r
  | .form w tags :: r => (w, tags) :: stepForms r

def stepNames : List IStep → List Str
  | [] => []
  | .gram n _ :: r => n :: stepNames r
  | .form _ _ :: r => stepNames r

theorem stepForms_append (a b : List IStep) : stepForms (a ++ b) = stepForms a ++ stepForms b := by
  induction a with
  | nil => rfl
  | cons x a ih => cases x <;> simp [stepForms, ih]

theorem stepNames_append (a b : List IStep) : stepNames (a ++ b) = stepNames a ++ stepNames b := by
  induction a with
  | nil => rfl
  | cons x a ih => cases x <;> simp [stepNames, ih]

theorem stepForms_map (fs : List (Str × List Str)) : stepForms (fs.map fun f => IStep.form f.1 f.2) = fs := by
  induction fs with
  | nil => rfl
  | cons f fs ih => simp [stepForms, ih]

theorem stepNames_map (fs : List (Str × List Str)) : stepNames (fs.map fun f => IStep.form f.1 f.2) = [] := by
  induction fs with
  | nil => rfl
  | cons f fs ih => simp [stepNames, ih]

theorem stepForms_stepsOf (es : List Entry) : stepForms (stepsOf es) = allForms es := by
  induction es with
  | nil => rfl
  | cons e es ih => cases e <;> simp [stepsOf, stepForms, stepForms_append, stepForms_map, allForms, ih]

theorem mem_stepNames (es : List Entry) (n : Str) : n ∈ stepNames (stepsOf es) ↔ ∃ p, Entry.grammeme n p ∈ es := by
  induction es with
  | nil => simp [stepsOf, stepNames]
  | cons e es ih =>
    cases e with
    | grammeme m p =>
      simp only [stepsOf, stepNames, List.mem_cons, ih, Entry.grammeme.injEq]
      constructor
      · rintro (rfl | ⟨q, hq⟩)
        · exact ⟨p, .inl ⟨rfl, rfl⟩⟩
        · exact ⟨q, .inr hq⟩
      · rintro ⟨q, ⟨rfl, _⟩ | hq⟩
        · exact .inl rfl
        · exact .inr ⟨q, hq⟩
    | lem fs => simp [stepsOf, stepNames_append, stepNames_map, ih]

/-- Forms are well-formed relative to the names declared so far. -/
def StepsOK (G : List Str) : List IStep → Prop
  | [] => True
  | .gram n _ :: r => StepsOK (G ++ [n]) r
  | .form w tags :: r => (w ≠ [] ∧ ∀ x ∈ tags, x ∈ G) ∧ StepsOK G r

theorem StepsOK_append (G : List Str) (a b : List IStep) : StepsOK G (a ++ b) ↔ StepsOK G a ∧ StepsOK (G ++ stepNames a) b := by
  induction a generalizing G with
  | nil => simp [StepsOK, stepNames]
  | cons x a ih =>
    cases x with
    | gram n p => simp [StepsOK, stepNames, ih]
    | form w t => simp [StepsOK, stepNames, ih, and_assoc]

theorem Declared.steps {es : List Entry} (hd : Declared es) : StepsOK [] (stepsOf es) := by
  suffices ∀ es1 es2, es = es1 ++ es2 → StepsOK (stepNames (stepsOf es1)) (stepsOf es2) from this [] es rfl
  intro es1 es2 he
  induction es2 generalizing es1 with
  | nil => trivial
  | cons e es2 ih =>
    have ih := ih (es1 ++ [e]) (by simp [he])
    have hs : stepsOf (es1 ++ [e]) = stepsOf es1 ++ stepsOf [e] := by
      clear ih he
      induction es1 with
      | nil => rfl
      | cons a es1 ih => cases a <;> simp [stepsOf, ih]
    rw [hs, stepNames_append] at ih
    cases e with
    | grammeme n p => exact ih
    | lem fs =>
      simp only [stepsOf, List.append_nil, stepNames_map] at ih
      simp only [stepsOf]
      rw [StepsOK_append, stepNames_map, List.append_nil]
      refine ⟨?_, ih⟩
      have key : ∀ f ∈ fs, f.1 ≠ [] ∧ ∀ x ∈ f.2, x ∈ stepNames (stepsOf es1) := by
        intro f hf
        obtain ⟨a, b⟩ := hd es1 fs es2 he f hf
        exact ⟨a, fun x hx => (mem_stepNames es1 x).2 (b x hx)⟩
      clear hs ih he
      induction fs with
      | nil => trivial
      | cons f fs ih =>
        exact ⟨key f (List.mem_cons_self ..), ih fun g hg => key g (List.mem_cons_of_mem _ hg)⟩

/-- What the dictionary is after some steps of an import: names `G`, words `W`, tagged forms `F`. -/
structure Imp (d : Dict) (G : List Str) (W : List (List Rune)) (F : List (Str × List Str)) : Prop where
  root : d.nodes[0]? = some []
  nodup : d.nodes.Nodup
  nul : d.nul = false
  nodes : ∀ p, p ∈ d.nodes ↔ p = [] ∨ ∃ w ∈ W, p <+: w
  words : d.words = W
  has : ∀ n, d.hasTag n = true ↔ n ∈ G
  names : (d.tags.map (·.name)).Nodup
  readings : ∀ e ∈ d.readings, e.1 < d.nodes.length ∧ ∃ f ∈ F, f.2 = e.2
  attached : ∀ k w, d.nodes[k]? = some w → d.attached k = (F.filter fun f => decodeRunes f.1 = w).map (·.2)
  forms : ∀ f ∈ F, decodeRunes f.1 ∈ W
  lists : d.readings.map (·.2) = F.map (·.2)

theorem Imp.empty : Imp Dict.empty [] [] [] := by
  constructor <;> simp [Dict.empty, Dict.hasTag, Dict.attached]

theorem Imp.tagID {d : Dict} {G W F} (h : Imp d G W F) (n p : Str) : Imp ((Op.tagID n p).spec d) (G ++ [n]) W F := by
  simp only [Op.spec]
  split
  · rename_i hh
    refine { h with has := ?_ }
    intro m
    rw [h.has, List.mem_append, List.mem_singleton]
    constructor
    · exact .inl
    · rintro (a | rfl)
      · exact a
      · exact (h.has m).1 hh
  · rename_i hh
    refine ⟨h.root, h.nodup, h.nul, h.nodes, h.words, ?_, ?_, h.readings, h.attached, h.forms, h.lists⟩
    · intro m
      have := h.has m
      unfold Dict.hasTag at this ⊢
      rw [List.any_append, Bool.or_eq_true, this, List.mem_append]
      simp only [List.any_cons, List.any_nil, Bool.or_false, newTag, beq_iff_eq, List.mem_singleton]
      constructor
      · rintro (a | rfl)
        · exact .inl a
        · exact .inr rfl
      · rintro (a | rfl)
        · exact .inl a
        · exact .inr rfl
    · rw [List.map_append, List.nodup_append]
      refine ⟨h.names, by simp, ?_⟩
      rintro a ha b hb rfl
      apply hh
      simp only [List.map_cons, List.map_nil, List.mem_singleton, newTag] at hb
      obtain ⟨t, ht, rfl⟩ := List.mem_map.1 ha
      unfold Dict.hasTag
      rw [List.any_eq_true]
      exact ⟨t, ht, by simp [hb]⟩

theorem Imp.addString {d : Dict} {G W F} (h : Imp d G W F) (w : Str) (hw : w ≠ []) :
    Imp ((Op.addString w).spec d) G (W ++ [decodeRunes w]) F := by
  have hd : decodeRunes w ≠ [] := fun e => hw ((C50_empty w).1 e)
  have hins : (Op.addString w).spec d =
      { d with nodes := addAll d.nodes (Verif.prefixes (decodeRunes w)), words := d.words ++ [decodeRunes w] } := by
    simp only [Op.spec, Dict.insert]
    rw [h.root]
    simp only
    rw [if_neg hd]
    have : d.join [] (decodeRunes w) = decodeRunes w := by
      unfold Dict.join; rw [h.nul]; simp
    rw [this]
  rw [hins]
  have hpre := addAll_prefix d.nodes (Verif.prefixes (decodeRunes w))
  refine ⟨prefix_getElem? hpre h.root, nodup_addAll h.nodup _, h.nul, ?_, by rw [h.words], h.has, h.names, ?_, ?_, ?_, h.lists⟩
  · intro p
    simp only [mem_addAll, h.nodes, mem_prefixes, List.mem_append, List.mem_singleton]
    constructor
    · rintro ((h0 | ⟨v, hv, hp⟩) | ⟨_, hp⟩)
      · exact .inl h0
      · exact .inr ⟨v, .inl hv, hp⟩
      · exact .inr ⟨_, .inr rfl, hp⟩
    · rintro (h0 | ⟨v, hv | rfl, hp⟩)
      · exact .inl (.inl h0)
      · exact .inl (.inr ⟨v, hv, hp⟩)
      · by_cases h0 : p = []
        · exact .inl (.inl h0)
        · exact .inr ⟨h0, hp⟩
  · intro e he
    obtain ⟨a, b⟩ := h.readings e he
    exact ⟨Nat.lt_of_lt_of_le a hpre.length_le, b⟩
  · intro k v hk
    simp only at hk
    show d.attached k = _
    by_cases hkl : k < d.nodes.length
    · have hkv : d.nodes[k]? = some v := by
        have := prefix_getElem? hpre (List.getElem?_eq_getElem hkl)
        rw [hk] at this
        rw [List.getElem?_eq_getElem hkl, ← this]
      exact h.attached k v hkv
    · have hz : d.attached k = [] := by
        unfold Dict.attached
        rw [List.map_eq_nil_iff, List.filter_eq_nil_iff]
        rintro ⟨k', names⟩ hm he
        simp only [decide_eq_true_eq] at he
        subst he
        exact hkl (h.readings _ hm).1
      rw [hz]
      symm
      rw [List.map_eq_nil_iff, List.filter_eq_nil_iff]
      intro f hf he
      simp only [decide_eq_true_eq] at he
      have hm : v ∈ d.nodes := (h.nodes v).2 (.inr ⟨_, h.forms f hf, by rw [he]; exact List.prefix_refl _⟩)
      obtain ⟨j, hj, hjv⟩ := List.mem_iff_getElem.1 hm
      have hj' := prefix_getElem? hpre (List.getElem?_eq_getElem hj)
      rw [hjv] at hj'
      have := (List.getElem?_inj (List.getElem?_eq_some_iff.1 hj').1 (nodup_addAll h.nodup _)).1 (hj'.trans hk.symm)
      omega
  · intro f hf
    exact List.mem_append_left _ (h.forms f hf)

/-- The node of a word that is there. -/
theorem Imp.node {d : Dict} {G W F} (h : Imp d G W F) (hl : d.nodes.length < 4294967296) {w : List Rune} (hw : w ∈ W)
    (h0 : w ≠ []) : 0 < d.nodes.idxOf w ∧ d.nodes.idxOf w < d.nodes.length ∧
      (UInt32.ofNat (d.nodes.idxOf w)).toNat = d.nodes.idxOf w ∧ d.nodes[d.nodes.idxOf w]? = some w := by
  have hm : w ∈ d.nodes := (h.nodes w).2 (.inr ⟨w, hw, List.prefix_refl _⟩)
  have hlt := List.idxOf_lt_length_iff.2 hm
  have hg : d.nodes[d.nodes.idxOf w]? = some w := by
    rw [List.getElem?_eq_getElem hlt, List.getElem_idxOf hlt]
  refine ⟨?_, hlt, ?_, hg⟩
  · rcases Nat.eq_zero_or_pos (d.nodes.idxOf w) with hz | hz
    · rw [hz, h.root] at hg
      exact absurd (Option.some.inj hg).symm h0
    · exact hz
  · rw [UInt32.toNat_ofNat']; exact Nat.mod_eq_of_lt (by omega)

theorem Imp.addTagSet {d : Dict} {G W F} (h : Imp d G W F) (hl : d.nodes.length < 4294967296) (w : Str) (hw : w ≠ [])
    (hm : decodeRunes w ∈ W) (tags : List Str) (ht : ∀ x ∈ tags, x ∈ G) :
    Imp ((Op.addTagSet (UInt32.ofNat (d.nodes.idxOf (decodeRunes w))) tags).spec d) G W (F ++ [(w, tags)]) := by
  have hd : decodeRunes w ≠ [] := fun e => hw ((C50_empty w).1 e)
  obtain ⟨h0, hlt, hid, hg⟩ := h.node hl hm hd
  have hall : tags.all d.hasTag = true := by
    rw [List.all_eq_true]; exact fun x hx => (h.has x).2 (ht x hx)
  simp only [Op.spec]
  rw [hid, if_pos ⟨hall, h0, hlt⟩]
  refine ⟨h.root, h.nodup, h.nul, h.nodes, h.words, h.has, h.names, ?_, ?_, ?_, by simp [h.lists]⟩
  · intro e he
    rcases List.mem_append.1 he with he | he
    · obtain ⟨a, f, hf, b⟩ := h.readings e he
      exact ⟨a, f, List.mem_append_left _ hf, b⟩
    · rw [List.mem_singleton.1 he]
      exact ⟨hlt, _, List.mem_append_right _ (List.mem_singleton_self _), rfl⟩
  · intro k v hk
    simp only at hk
    have ea : Dict.attached { d with readings := d.readings ++ [(d.nodes.idxOf (decodeRunes w), tags)] } k =
        d.attached k ++ if d.nodes.idxOf (decodeRunes w) = k then [tags] else [] := by
      unfold Dict.attached
      simp only [List.filter_append, List.map_append]
      by_cases hik : d.nodes.idxOf (decodeRunes w) = k <;> simp [hik]
    rw [ea, h.attached k v hk, List.filter_append, List.map_append]
    congr 1
    by_cases hik : d.nodes.idxOf (decodeRunes w) = k
    · rw [if_pos hik]
      rw [hik, hk] at hg
      rw [Option.some.inj hg]
      simp
    · rw [if_neg hik]
      have : decodeRunes w ≠ v := by
        rintro rfl
        exact hik ((List.getElem?_inj hlt h.nodup).1 (hg.trans hk.symm))
      simp [this]
  · intro f hf
    rcases List.mem_append.1 hf with hf | hf
    · exact h.forms f hf
    · rw [List.mem_singleton.1 hf]; exact hm

/-- A list that covers all nodes. -/
theorem Imp.length_le {d : Dict} {G W F} (h : Imp d G W F) {L : List (List Rune)} (h0 : [] ∈ L)
    (hL : ∀ w ∈ W, ∀ p, p <+: w → p ∈ L) : d.nodes.length ≤ L.length := by
  refine (List.subperm_of_subset h.nodup ?_).length_le
  intro p hp
  rcases (h.nodes p).1 hp with rfl | ⟨w, hw, hp⟩
  · exact h0
  · exact hL w hw p hp

/-- After any part of the calls of an import. -/
theorem imp_prefix (L : List (List Rune)) (hl : L.length < 4294967296) (h0 : [] ∈ L) (ss : List IStep)
    (d : Dict) (G : List Str) (W : List (List Rune)) (F : List (Str × List Str)) (h : Imp d G W F) (ok : StepsOK G ss)
    (hW : ∀ w ∈ W, ∀ p, p <+: w → p ∈ L) (hS : ∀ f ∈ stepForms ss, ∀ p, p <+: decodeRunes f.1 → p ∈ L)
    (q : List Op) (hq : q <+: stepCalls d ss) : ∃ G' W' F', Imp (q.foldl Op.spec d) G' W' F' ∧
      F' <+: F ++ stepForms ss ∧ (∀ w ∈ W', w ∈ W ∨ ∃ f ∈ stepForms ss, w = decodeRunes f.1) ∧
      (∀ n ∈ G', n ∈ G ∨ n ∈ stepNames ss) := by
  induction ss generalizing d G W F q with
  | nil =>
    simp only [stepCalls, List.prefix_nil] at hq
    subst hq
    exact ⟨G, W, F, h, by simp [stepForms], fun w hw => .inl hw, fun n hn => .inl hn⟩
  | cons s ss ih =>
    cases s with
    | gram n p =>
      simp only [stepCalls] at hq
      cases q with
      | nil => exact ⟨G, W, F, h, by simp, fun w hw => .inl hw, fun n hn => .inl hn⟩
      | cons o q =>
        rw [List.cons_prefix_cons] at hq
        obtain ⟨rfl, hq⟩ := hq
        obtain ⟨G', W', F', a, b, c, e⟩ := ih _ _ _ _ (h.tagID n p) ok hW hS q hq
        refine ⟨G', W', F', a, b, c, ?_⟩
        intro m hm
        rcases e m hm with e | e
        · rcases List.mem_append.1 e with e | e
          · exact .inl e
          · right; rw [List.mem_singleton.1 e]; exact List.mem_cons_self ..
        · right; exact List.mem_cons_of_mem _ e
    | form w tags =>
      simp only [stepCalls] at hq
      cases q with
      | nil => exact ⟨G, W, F, h, by simp, fun w hw => .inl hw, fun n hn => .inl hn⟩
      | cons o q =>
        rw [List.cons_prefix_cons] at hq
        obtain ⟨rfl, hq⟩ := hq
        obtain ⟨⟨hw, ht⟩, ok⟩ := ok
        have h1 := h.addString w hw
        have hW1 : ∀ v ∈ W ++ [decodeRunes w], ∀ p, p <+: v → p ∈ L := by
          intro v hv p hp
          rcases List.mem_append.1 hv with hv | hv
          · exact hW v hv p hp
          · rw [List.mem_singleton.1 hv] at hp
            exact hS (w, tags) (List.mem_cons_self ..) p hp
        have hlen := h1.length_le h0 hW1
        have hold : ∀ v ∈ W ++ [decodeRunes w], v ∈ W ∨ ∃ f ∈ stepForms (.form w tags :: ss), v = decodeRunes f.1 := by
          intro v hv
          rcases List.mem_append.1 hv with hv | hv
          · exact .inl hv
          · exact .inr ⟨(w, tags), List.mem_cons_self .., List.mem_singleton.1 hv⟩
        cases q with
        | nil =>
          exact ⟨G, _, F, h1, by simp, hold, fun n hn => .inl hn⟩
        | cons o q =>
          rw [List.cons_prefix_cons] at hq
          obtain ⟨rfl, hq⟩ := hq
          have h2 := h1.addTagSet (by omega) w hw (by simp) tags ht
          obtain ⟨G', W', F', a, b, c, e⟩ := ih _ _ _ _ h2 ok hW1
            (fun f hf => hS f (List.mem_cons_of_mem _ hf)) q hq
          refine ⟨G', W', F', a, ?_, ?_, e⟩
          · simpa [stepForms] using b
          · intro v hv
            rcases c v hv with c | ⟨f, hf, c⟩
            · exact hold v c
            · exact .inr ⟨f, List.mem_cons_of_mem _ hf, c⟩

/-- After all of them. -/
theorem imp_all (L : List (List Rune)) (hl : L.length < 4294967296) (h0 : [] ∈ L) (ss : List IStep)
    (d : Dict) (G : List Str) (W : List (List Rune)) (F : List (Str × List Str)) (h : Imp d G W F) (ok : StepsOK G ss)
    (hW : ∀ w ∈ W, ∀ p, p <+: w → p ∈ L) (hS : ∀ f ∈ stepForms ss, ∀ p, p <+: decodeRunes f.1 → p ∈ L) :
    Imp ((stepCalls d ss).foldl Op.spec d) (G ++ stepNames ss) (W ++ (stepForms ss).map fun f => decodeRunes f.1)
      (F ++ stepForms ss) := by
  induction ss generalizing d G W F with
  | nil => simpa [stepCalls, stepNames, stepForms] using h
  | cons s ss ih =>
    cases s with
    | gram n p => simpa [stepCalls, stepNames, stepForms] using ih _ _ _ _ (h.tagID n p) ok hW hS
    | form w tags =>
      obtain ⟨⟨hw, ht⟩, ok⟩ := ok
      have h1 := h.addString w hw
      have hW1 : ∀ v ∈ W ++ [decodeRunes w], ∀ p, p <+: v → p ∈ L := by
        intro v hv p hp
        rcases List.mem_append.1 hv with hv | hv
        · exact hW v hv p hp
        · rw [List.mem_singleton.1 hv] at hp
          exact hS (w, tags) (List.mem_cons_self ..) p hp
      have hlen := h1.length_le h0 hW1
      have h2 := h1.addTagSet (by omega) w hw (by simp) tags ht
      simpa [stepCalls, stepNames, stepForms, formID] using ih _ _ _ _ h2 ok hW1 (fun f hf => hS f (List.mem_cons_of_mem _ hf))

/-! ## Room -/

theorem Room.snoc_same {h : List Op} (r : Room h) (op : Op) (hp : op.Plain)
    (hn : (op.spec (dictOf h)).nodes = (dictOf h).nodes)
    (ht : (op.spec (dictOf h)).tags.length = (dictOf h).tags.length)
    (hr : (op.spec (dictOf h)).readings = (dictOf h).readings) : Room (h ++ [op]) := by
  have ha : ∀ k, (dictOf (h ++ [op])).attached k = (dictOf h).attached k := by
    intro k; unfold Dict.attached; rw [dictOf_append, hr]
  constructor
  · rw [dictOf_append, hn]; exact r.nodes
  · rw [dictOf_append, ht]; exact r.tags
  · intro o ho
    rcases List.mem_append.1 ho with ho | ho
    · exact r.plain o ho
    · rw [List.mem_singleton.1 ho]; exact hp
  · rw [dictOf_append, hr]; exact r.readings
  · intro k; rw [ha]; exact r.perWord k
  · obtain ⟨L, h1, h2⟩ := r.sets
    refine ⟨L, h1, fun q hq k hk => ?_⟩
    rcases List.prefix_concat_iff.1 hq with rfl | hq
    · rw [ha] at hk ⊢
      exact h2 h (List.prefix_refl _) k hk
    · exact h2 q hq k hk

theorem Room.optimize {h : List Op} (r : Room h) : Room (h ++ [.optimize]) := r.snoc_same _ trivial rfl rfl rfl
theorem Room.reload {h : List Op} (r : Room h) : Room (h ++ [.reload]) :=
  r.snoc_same _ trivial rfl (by simp [Op.spec]) rfl

theorem stepCalls_plain (ss : List IStep) (d : Dict)
    (hg : ∀ n p, IStep.gram n p ∈ ss → n.length = 4 ∧ n ≠ [0x20, 0x20, 0x20, 0x20] ∧ (p = [] ∨ p.length = 4))
    (hf : ∀ f ∈ stepForms ss, f.2.length ≤ 255) : ∀ op ∈ stepCalls d ss, op.Plain := by
  induction ss generalizing d with
  | nil => intro op h; cases h
  | cons s ss ih =>
    cases s with
    | gram n p =>
      intro op hop
      rcases List.mem_cons.1 hop with rfl | hop
      · exact hg n p (List.mem_cons_self ..)
      · exact ih _ (fun n p h => hg n p (List.mem_cons_of_mem _ h)) hf op hop
    | form w tags =>
      intro op hop
      simp only [stepCalls, List.mem_cons] at hop
      rcases hop with rfl | rfl | hop
      · trivial
      · exact hf (w, tags) (List.mem_cons_self ..)
      · exact ih _ (fun n p h => hg n p (List.mem_cons_of_mem _ h)) (fun f h => hf f (List.mem_cons_of_mem _ h)) op hop

theorem mem_gram (es : List Entry) (n p : Str) : IStep.gram n p ∈ stepsOf es ↔ Entry.grammeme n p ∈ es := by
  induction es with
  | nil => simp [stepsOf]
  | cons e es ih => cases e <;> simp [stepsOf, ih]

theorem attached_cases {d : Dict} {G W F} (h : Imp d G W F) (k : Nat) :
    d.attached k = [] ∨ ∃ w, d.attached k = tagListsOf w F := by
  by_cases hk : k < d.nodes.length
  · have := h.attached k _ (List.getElem?_eq_getElem hk)
    cases hf : F.filter (fun f => decide (decodeRunes f.1 = d.nodes[k])) with
    | nil => rw [hf] at this; exact .inl this
    | cons f l =>
      right
      have hm : f ∈ F.filter (fun f => decide (decodeRunes f.1 = d.nodes[k])) := by rw [hf]; exact List.mem_cons_self ..
      have he := of_decide_eq_true (List.mem_filter.1 hm).2
      refine ⟨f.1, ?_⟩
      rw [this]
      unfold tagListsOf
      rw [he]
  · left
    unfold Dict.attached
    rw [List.map_eq_nil_iff, List.filter_eq_nil_iff]
    rintro ⟨k', names⟩ hm he
    simp only [decide_eq_true_eq] at he
    subst he
    exact hk (h.readings _ hm).1

/-- The calls an import makes. -/
def callsOf (es : List Entry) : List Op := importCalls Dict.empty es

theorem callsOf_imp {es : List Entry} (hd : Declared es) (m : DocRoom es) :
    Imp (dictOf (callsOf es)) (stepNames (stepsOf es)) ((allForms es).map fun f => decodeRunes f.1) (allForms es) := by
  obtain ⟨L, l1, l2, l3⟩ := m.prefixes
  have := imp_all L l1 l2 (stepsOf es) _ _ _ _ Imp.empty hd.steps (by simp) (by rw [stepForms_stepsOf]; exact l3)
  rw [← importCalls_steps, stepForms_stepsOf] at this
  unfold dictOf callsOf
  simpa using this

theorem room_of_doc {es : List Entry} (hd : Declared es) (m : DocRoom es) : Room (callsOf es) := by
  obtain ⟨L, l1, l2, l3⟩ := m.prefixes
  have hall := callsOf_imp hd m
  have hpre : ∀ q, q <+: callsOf es → ∃ G' W' F', Imp (dictOf q) G' W' F' ∧ F' <+: allForms es := by
    intro q hq
    unfold callsOf at hq
    rw [importCalls_steps] at hq
    obtain ⟨G', W', F', a, b, _⟩ := imp_prefix L l1 l2 (stepsOf es) _ _ _ _ Imp.empty hd.steps (by simp)
      (by rw [stepForms_stepsOf]; exact l3) q hq
    rw [stepForms_stepsOf] at b
    exact ⟨G', W', F', a, by simpa using b⟩
  constructor
  · refine Nat.lt_of_le_of_lt (hall.length_le l2 ?_) l1
    intro w hw p hp
    obtain ⟨f, hf, rfl⟩ := List.mem_map.1 hw
    exact l3 f hf p hp
  · obtain ⟨K, k1, k2⟩ := m.grammemes
    rw [← List.length_map (f := fun t : Tag => t.name)]
    refine ((List.subperm_of_subset hall.names (l₂ := K) ?_).length_le).trans k1
    intro n hn
    obtain ⟨t, ht, rfl⟩ := List.mem_map.1 hn
    have : (dictOf (callsOf es)).hasTag t.name = true := by
      unfold Dict.hasTag; rw [List.any_eq_true]; exact ⟨t, ht, by simp⟩
    obtain ⟨p, hp⟩ := (mem_stepNames es _).1 ((hall.has _).1 this)
    exact k2 _ _ hp
  · unfold callsOf
    rw [importCalls_steps]
    refine stepCalls_plain _ _ ?_ ?_
    · intro n p h
      obtain ⟨a, b, c⟩ := m.names n p ((mem_gram es n p).1 h)
      exact ⟨a, b, c.imp_right And.left⟩
    · rw [stepForms_stepsOf]; exact m.tags
  · obtain ⟨K, k1, k2⟩ := m.tagLists
    refine ⟨K, k1, fun e he => ?_⟩
    obtain ⟨_, f, hf, he⟩ := hall.readings e he
    rw [← he]
    exact k2 f hf
  · intro k
    rcases attached_cases hall k with h0 | ⟨w, hw⟩
    · rw [h0]; exact ⟨[], by simp, by simp⟩
    · rw [hw]; exact m.perWord w
  · obtain ⟨K, k1, k2⟩ := m.sets
    refine ⟨K, k1, fun q hq k hk => ?_⟩
    obtain ⟨G', W', F', a, b⟩ := hpre q hq
    rcases attached_cases a k with h0 | ⟨w, hw⟩
    · exact absurd h0 hk
    · rw [hw] at hk ⊢
      exact k2 F' b w hk

/-! ## The import succeeds -/

theorem form_ok {h : List Op} {ix : Index} (r : Run h ix) (hr : NoReload h) {w : Str} {tags : List Str} (hw : w ≠ [])
    (ht : ∀ x ∈ tags, (dictOf h).hasTag x = true) {l : List Op} {ixl : Index}
    (rl : Run (h ++ formCalls (dictOf h) [(w, tags)] ++ l) ixl) :
    ∃ ix1 id ix2, ix.addString w = (ix1, .ok id) ∧ ix1.addTagSet id tags = (ix2, .ok ()) := by
  have hd : decodeRunes w ≠ [] := fun e => hw ((C50_empty w).1 e)
  have e1 : h ++ formCalls (dictOf h) [(w, tags)] ++ l = (h ++ [Op.addString w]) ++
      ((formCalls (dictOf h) [(w, tags)]).tail ++ l) := by simp [formCalls]
  obtain ⟨jx1, s1⟩ := (e1 ▸ rl).before
  obtain ⟨jx0, s0, _, _, rfl⟩ := s1.snoc_inv
  obtain rfl := r.unique s0
  obtain ⟨id, a, b⟩ := C01_string (h' := []) w hw r s1
  have hr1 : NoReload (h ++ [Op.addString w]) := by
    unfold NoReload at *; simp [hr]
  unfold Index.fetchString at b
  rw [s1.trie.fetchRoot_iff, Run.root_join (.inl hr1)] at b
  have hlt : id.toNat < (dictOf (h ++ [Op.addString w])).nodes.length := (List.getElem?_eq_some_iff.1 b.2).1
  have h0 : 0 < id.toNat := by
    rcases Nat.eq_zero_or_pos id.toNat with h0 | h0
    · have := b.2
      rw [h0, s1.trie.root] at this
      exact absurd (Option.some.inj this).symm hd
    · exact h0
  have htags : (dictOf (h ++ [Op.addString w])).tags = (dictOf h).tags := by
    rw [dictOf_append]
    simp only [Op.spec, Dict.insert]
    split
    · rfl
    · split <;> rfl
  have hall : tags.all (dictOf (h ++ [Op.addString w])).hasTag = true := by
    rw [List.all_eq_true]
    intro x hx
    have := ht x hx
    unfold Dict.hasTag at this ⊢
    rwa [htags]
  obtain ⟨ids, hids⟩ := all_hasTag_iff.1 hall
  have := (s1.tag.addTagSet_ok s1.trie s1.caps s1.refines.2.tags id tags h0 hlt hids).1
  refine ⟨(ix.addString w).1, id, _, Prod.ext rfl a, Prod.ext rfl this⟩

theorem formCalls_tags (fs : List (Str × List Str)) (d : Dict) : ((formCalls d fs).foldl Op.spec d).tags = d.tags := by
  induction fs generalizing d with
  | nil => rfl
  | cons f fs ih =>
    obtain ⟨w, tags⟩ := f
    rw [formCalls_cons, List.foldl_append, ih]
    simp only [formCalls, List.foldl_cons, List.foldl_nil]
    have h1 : ((Op.addString w).spec d).tags = d.tags := by
      simp only [Op.spec, Dict.insert]
      split
      · rfl
      · split <;> rfl
    rw [← h1]
    generalize (Op.addString w).spec d = e
    simp only [Op.spec]
    split <;> rfl

theorem forms_ok (fs : List (Str × List Str)) {h : List Op} {ix : Index} {F : List (Str × List Str)} (r : Run h ix)
    (hr : NoReload h) (hF : Holds (dictOf h) F)
    (hf : ∀ f ∈ fs, f.1 ≠ [] ∧ ∀ x ∈ f.2, (dictOf h).hasTag x = true) {l : List Op} {ixl : Index}
    (rl : Run (h ++ formCalls (dictOf h) fs ++ l) ixl) : ∃ ix2, addFormsSpec ix fs = (ix2, none) := by
  induction fs generalizing h ix F with
  | nil => exact ⟨ix, rfl⟩
  | cons f rest ih =>
    obtain ⟨w, tags⟩ := f
    rw [formCalls_cons] at rl
    have rl' := rl
    rw [show h ++ (formCalls (dictOf h) [(w, tags)] ++
      formCalls ((formCalls (dictOf h) [(w, tags)]).foldl Op.spec (dictOf h)) rest) ++ l =
      h ++ formCalls (dictOf h) [(w, tags)] ++
        (formCalls ((formCalls (dictOf h) [(w, tags)]).foldl Op.spec (dictOf h)) rest ++ l) by
      simp only [List.append_assoc]] at rl'
    obtain ⟨hw, ht⟩ := hf (w, tags) (List.mem_cons_self ..)
    obtain ⟨ix1, id, ix2, h1, h2⟩ := form_ok r hr hw ht rl'
    obtain ⟨a, b, c⟩ := form_step r hr hF h1 h2 rl'
    rw [← foldl_dictOf] at rl
    rw [← List.append_assoc] at rl
    obtain ⟨ix3, e3⟩ := ih a b c (fun f hm => by
      obtain ⟨x, y⟩ := hf f (List.mem_cons_of_mem _ hm)
      refine ⟨x, fun n hn => ?_⟩
      have := y n hn
      unfold Dict.hasTag at this ⊢
      rw [foldl_dictOf, formCalls_tags]
      exact this) rl
    refine ⟨ix3, ?_⟩
    rw [addFormsSpec, h1]
    simp only
    rw [h2]
    exact e3

theorem hasTag_mono (d : Dict) (n p : Str) {x : Str} (hx : d.hasTag x = true ∨ x = n) :
    ((Op.tagID n p).spec d).hasTag x = true := by
  simp only [Op.spec]
  split
  · rename_i hh
    rcases hx with hx | rfl
    · exact hx
    · exact hh
  · unfold Dict.hasTag at hx ⊢
    rw [List.any_append, Bool.or_eq_true]
    rcases hx with hx | rfl
    · exact .inl hx
    · right; simp [newTag]

theorem entries_ok (es : List Entry) {h : List Op} {ix : Index} {F : List (Str × List Str)} (r : Run h ix)
    (hr : NoReload h) (hF : Holds (dictOf h) F) (G : List Str) (hG : ∀ x ∈ G, (dictOf h).hasTag x = true)
    (ok : StepsOK G (stepsOf es)) {ixl : Index} (rl : Run (h ++ importCalls (dictOf h) es) ixl) :
    execEntries ix es = (ixl, none) := by
  induction es generalizing h ix F G with
  | nil =>
    simp only [importCalls, List.append_nil] at rl
    obtain rfl := r.unique rl
    rfl
  | cons e es ih =>
    rw [execEntries]
    cases e with
    | grammeme n p =>
      simp only [Entry.exec]
      have e1 : h ++ importCalls (dictOf h) (.grammeme n p :: es) =
          (h ++ [Op.tagID n p]) ++ importCalls (dictOf (h ++ [Op.tagID n p])) es := by
        rw [dictOf_append, importCalls]; simp
      rw [e1] at rl
      obtain ⟨jx, s⟩ := rl.before
      obtain ⟨jx0, s0, _, _, rfl⟩ := s.snoc_inv
      obtain rfl := r.unique s0
      refine ih (F := F) s (by unfold NoReload at *; simp [hr]) ?_ (G ++ [n]) ?_ ok rl
      · rw [dictOf_append]
        simp only [Op.spec]
        split
        · exact hF
        · exact ⟨hF.words, hF.nodes, hF.attached⟩
      · intro x hx
        rw [dictOf_append]
        apply hasTag_mono
        rcases List.mem_append.1 hx with hx | hx
        · exact .inl (hG x hx)
        · exact .inr (List.mem_singleton.1 hx)
    | lem fs =>
      simp only [Entry.exec]
      simp only [stepsOf] at ok
      rw [StepsOK_append, stepNames_map, List.append_nil] at ok
      have e1 : h ++ importCalls (dictOf h) (.lem fs :: es) =
          (h ++ formCalls (dictOf h) fs) ++ importCalls (dictOf (h ++ formCalls (dictOf h) fs)) es := by
        rw [foldl_dictOf, importCalls]; simp
      rw [e1] at rl
      have hok : ∀ f ∈ fs, f.1 ≠ [] ∧ ∀ x ∈ f.2, (dictOf h).hasTag x = true := by
        replace ok := ok.1
        clear e1 rl ih
        induction fs with
        | nil => intro f hf; cases hf
        | cons f fs ih =>
          obtain ⟨⟨a, b⟩, c⟩ := ok
          intro g hg
          rcases List.mem_cons.1 hg with rfl | hg
          · exact ⟨a, fun x hx => hG x (b x hx)⟩
          · exact ih c g hg
      obtain ⟨ix1, h1⟩ := forms_ok fs r hr hF hok rl
      rw [h1]
      simp only
      obtain ⟨a, b, c⟩ := forms_run fs r hr hF h1 rl
      refine ih a b c G ?_ ok.2 rl
      intro x hx
      have := hG x hx
      unfold Dict.hasTag at this ⊢
      rw [foldl_dictOf, formCalls_tags]
      exact this

/-- The registered tags are the declared ones. -/
theorem callsOf_tags (es : List Entry) : (dictOf (callsOf es)).tags = declaredTags es := by
  have key : ∀ (es : List Entry) (d : Dict) (T : List Tag), d.tags = T →
      ((importCalls d es).foldl Op.spec d).tags = es.foldl (fun T e =>
        match e with
        | .grammeme n p =>
          if T.any (·.name == n) then T else T ++ [{ name := n, parent := if p = [] then str "----" else p }]
        | .lem _ => T) T := by
    intro es
    induction es with
    | nil => intro d T h; exact h
    | cons e es ih =>
      intro d T h
      subst h
      cases e with
      | grammeme n p =>
        simp only [importCalls, List.foldl_cons]
        refine ih _ _ ?_
        simp only [Op.spec]
        by_cases hh : d.hasTag n = true
        · rw [if_pos hh, if_pos (show (d.tags.any fun t => t.name == n) = true from hh)]
        · rw [if_neg hh, if_neg (show ¬ (d.tags.any fun t => t.name == n) = true from hh)]; rfl
      | lem fs =>
        simp only [importCalls, List.foldl_append, List.foldl_cons]
        exact ih _ _ (formCalls_tags fs d)
  exact key es Dict.empty [] rfl

end Verif
