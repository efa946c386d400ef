import Verif.Lemmas.Import
import Verif.Spec.ImportCalls
import Verif.Props.Words

/-! # The import as a history of calls -/

namespace Verif

/-- The dictionary holds exactly the forms `F`. -/
structure Holds (d : Dict) (F : List (Str × List Str)) : Prop where
  words : d.words = F.map fun f => decodeRunes f.1
  nodes : ∀ f ∈ F, decodeRunes f.1 ∈ d.nodes
  attached : ∀ k w, d.nodes[k]? = some w → d.attached k = (F.filter fun f => decodeRunes f.1 = w).map (·.2)

theorem Holds.empty : Holds Dict.empty [] := ⟨rfl, by simp, by intros; rfl⟩

theorem foldl_dictOf (h l : List Op) : dictOf (h ++ l) = l.foldl Op.spec (dictOf h) := by
  unfold dictOf; rw [List.foldl_append]

/-- One form. -/
theorem form_step {h : List Op} {ix ix1 ix2 : Index} {F : List (Str × List Str)} {w : Str} {tags : List Str} {id : ID}
    (r : Run h ix) (hr : NoReload h) (hF : Holds (dictOf h) F)
    (h1 : ix.addString w = (ix1, .ok id)) (h2 : ix1.addTagSet id tags = (ix2, .ok ())) {l : List Op} {ixl : Index}
    (rl : Run (h ++ formCalls (dictOf h) ((w, tags) :: []) ++ l) ixl) :
    Run (h ++ formCalls (dictOf h) [(w, tags)]) ix2 ∧ NoReload (h ++ formCalls (dictOf h) [(w, tags)]) ∧
      Holds (dictOf (h ++ formCalls (dictOf h) [(w, tags)])) (F ++ [(w, tags)]) := by
  have hw : w ≠ [] := by
    rintro rfl
    simp [Index.addString] at h1
  have hd : decodeRunes w ≠ [] := fun e => hw ((C50_empty w).1 e)
  have ec : formCalls (dictOf h) [(w, tags)] = [.addString w,
      .addTagSet (UInt32.ofNat (((Op.addString w).spec (dictOf h)).nodes.idxOf (decodeRunes w))) tags] := rfl
  obtain ⟨tg, htg⟩ : ∃ tg, tg =
    Op.addTagSet (UInt32.ofNat (((Op.addString w).spec (dictOf h)).nodes.idxOf (decodeRunes w))) tags := ⟨_, rfl⟩
  rw [← htg] at ec
  rw [ec] at rl ⊢
  have e1 : h ++ [Op.addString w, tg] ++ l = (h ++ [Op.addString w]) ++ (tg :: l) := by simp
  have e2 : h ++ [Op.addString w, tg] = (h ++ [Op.addString w]) ++ [tg] := by simp
  obtain ⟨jx1, s1⟩ := (e1 ▸ rl).before
  obtain ⟨jx2, s2⟩ := rl.before
  rw [e2] at s2 ⊢
  obtain ⟨jx0, s0, _, _, rfl⟩ := s1.snoc_inv
  obtain rfl := r.unique s0
  have ex1 : Op.exec ix (.addString w) = ix1 := by show (ix.addString w).1 = ix1; rw [h1]
  rw [ex1] at s1
  obtain ⟨jx1', s1', _, _, rfl⟩ := s2.snoc_inv
  obtain rfl := s1.unique s1'
  -- the node
  have hr1 : NoReload (h ++ [Op.addString w]) := by
    unfold NoReload at *; simp [hr]
  have hnode : (dictOf (h ++ [Op.addString w])).nodes[id.toNat]? = some (decodeRunes w) := by
    obtain ⟨id', a, b⟩ := C01_string (h' := []) w hw r s1
    rw [h1] at a
    cases a
    unfold Index.fetchString at b
    rw [s1.trie.fetchRoot_iff, Run.root_join (.inl hr1)] at b
    exact b.2
  have hlt : id.toNat < (dictOf (h ++ [Op.addString w])).nodes.length := (List.getElem?_eq_some_iff.1 hnode).1
  have hidx : (dictOf (h ++ [Op.addString w])).nodes.idxOf (decodeRunes w) = id.toNat := by
    have hm : decodeRunes w ∈ (dictOf (h ++ [Op.addString w])).nodes := List.mem_of_getElem? hnode
    have hl := List.idxOf_lt_length_iff.2 hm
    exact (s1.trie.nodup.getElem_inj_iff (hi := hl) (hj := hlt)).1 (by
      rw [List.getElem_idxOf hl, (List.getElem?_eq_some_iff.1 hnode).2])
  have hid : UInt32.ofNat (((Op.addString w).spec (dictOf h)).nodes.idxOf (decodeRunes w)) = id := by
    rw [← dictOf_append, hidx]; simp
  rw [hid] at htg
  subst htg
  have ex2 : Op.exec ix1 (.addTagSet id tags) = ix2 := by show (ix1.addTagSet id tags).1 = ix2; rw [h2]
  rw [ex2] at s2
  have h0 : 0 < id.toNat := by
    rcases Nat.eq_zero_or_pos id.toNat with h0 | h0
    · rw [h0, s1.trie.root] at hnode
      exact absurd (Option.some.inj hnode).symm hd
    · exact h0
  have hall : tags.all (dictOf (h ++ [Op.addString w])).hasTag = true := by
    cases hf : Index.findAll (dictOf (h ++ [Op.addString w])).tags tags with
    | ok ids => exact all_hasTag_iff.2 ⟨ids, hf⟩
    | error x =>
      unfold Index.addTagSet at h2
      rw [s1.tag.tags, hf] at h2
      cases h2
  have ed : dictOf (h ++ [Op.addString w] ++ [Op.addTagSet id tags]) =
      { dictOf (h ++ [Op.addString w]) with
        readings := (dictOf (h ++ [Op.addString w])).readings ++ [(id.toNat, tags)] } := by
    rw [dictOf_append]
    simp only [Op.spec]
    rw [if_pos ⟨hall, h0, hlt⟩]
  have hins : dictOf (h ++ [Op.addString w]) =
      { dictOf h with nodes := addAll (dictOf h).nodes (prefixes (decodeRunes w)),
                      words := (dictOf h).words ++ [decodeRunes w] } := by
    rw [dictOf_append]
    simp only [Op.spec, Dict.insert]
    rw [r.trie.root]
    simp only
    rw [if_neg hd, Run.root_join (.inl hr)]
  refine ⟨s2, ?_, ?_⟩
  · unfold NoReload at *; simp [hr]
  rw [ed]
  have hpre := dictOf_nodes_prefix h [Op.addString w]
  constructor
  · simp only [hins, hF.words]; simp
  · intro f hf
    rcases List.mem_append.1 hf with hf | hf
    · exact hpre.subset (hF.nodes f hf)
    · rw [List.mem_singleton.1 hf]; exact List.mem_of_getElem? hnode
  · intro k v hk
    simp only at hk
    have hold : (dictOf (h ++ [Op.addString w])).attached k =
        (F.filter fun f => decodeRunes f.1 = v).map (·.2) := by
      have ea : (dictOf (h ++ [Op.addString w])).attached k = (dictOf h).attached k := by
        unfold Dict.attached; rw [hins]
      rw [ea]
      by_cases hkl : k < (dictOf h).nodes.length
      · have hkv : (dictOf h).nodes[k]? = some v := by
          have := prefix_getElem? hpre (List.getElem?_eq_getElem hkl)
          rw [hk] at this
          rw [List.getElem?_eq_getElem hkl, ← this]
        exact hF.attached k v hkv
      · have hz : (dictOf h).attached k = [] := by
          unfold Dict.attached
          rw [List.map_eq_nil_iff, List.filter_eq_nil_iff]
          rintro ⟨k', names⟩ hm he
          simp only [decide_eq_true_eq] at he
          subst he
          exact hkl (r.tag.readings _ _ hm).2.1
        rw [hz]
        symm
        rw [List.map_eq_nil_iff, List.filter_eq_nil_iff]
        intro f hf he
        simp only [decide_eq_true_eq] at he
        have hm := hF.nodes f hf
        rw [he] at hm
        obtain ⟨j, hj, hjv⟩ := List.mem_iff_getElem.1 hm
        have hj' := prefix_getElem? hpre (List.getElem?_eq_getElem hj)
        rw [hjv] at hj'
        have := (List.getElem?_inj (List.getElem?_eq_some_iff.1 hj').1 s1.trie.nodup).1 (hj'.trans hk.symm)
        omega
    have ea : Dict.attached { dictOf (h ++ [Op.addString w]) with
        readings := (dictOf (h ++ [Op.addString w])).readings ++ [(id.toNat, tags)] } k =
        (dictOf (h ++ [Op.addString w])).attached k ++ if id.toNat = k then [tags] else [] := by
      unfold Dict.attached
      simp only [List.filter_append, List.map_append]
      by_cases hik : id.toNat = k <;> simp [hik]
    rw [ea, hold, List.filter_append, List.map_append]
    congr 1
    by_cases hik : id.toNat = k
    · rw [if_pos hik]
      rw [hik, hk] at hnode
      rw [Option.some.inj hnode]
      simp
    · rw [if_neg hik]
      have : decodeRunes w ≠ v := by
        rintro rfl
        exact hik ((List.getElem?_inj hlt s1.trie.nodup).1 (hnode.trans hk.symm))
      simp [this]

theorem formCalls_cons (d : Dict) (w : Str) (tags : List Str) (rest : List (Str × List Str)) :
    formCalls d ((w, tags) :: rest) =
      formCalls d [(w, tags)] ++ formCalls ((formCalls d [(w, tags)]).foldl Op.spec d) rest := rfl

theorem forms_run (fs : List (Str × List Str)) {h : List Op} {ix ix2 : Index} {F : List (Str × List Str)}
    (r : Run h ix) (hr : NoReload h) (hF : Holds (dictOf h) F) (ok : addFormsSpec ix fs = (ix2, none))
    {l : List Op} {ixl : Index} (rl : Run (h ++ formCalls (dictOf h) fs ++ l) ixl) :
    Run (h ++ formCalls (dictOf h) fs) ix2 ∧ NoReload (h ++ formCalls (dictOf h) fs) ∧
      Holds (dictOf (h ++ formCalls (dictOf h) fs)) (F ++ fs) := by
  induction fs generalizing h ix F with
  | nil =>
    obtain rfl := (Prod.mk.inj ok).1
    simp only [formCalls, List.append_nil]
    exact ⟨r, hr, hF⟩
  | cons f rest ih =>
    obtain ⟨w, tags⟩ := f
    rw [addFormsSpec] at ok
    cases h1 : ix.addString w with
    | mk ix1 o1 =>
      rw [h1] at ok
      cases o1 with
      | ok id =>
        simp only at ok
        cases h2 : ix1.addTagSet id tags with
        | mk ix3 o2 =>
          rw [h2] at ok
          cases o2 with
          | ok u =>
            simp only at ok
            rw [formCalls_cons] at rl ⊢
            have rl' := rl
            rw [show h ++ (formCalls (dictOf h) [(w, tags)] ++
              formCalls ((formCalls (dictOf h) [(w, tags)]).foldl Op.spec (dictOf h)) rest) ++ l =
              h ++ formCalls (dictOf h) [(w, tags)] ++
                (formCalls ((formCalls (dictOf h) [(w, tags)]).foldl Op.spec (dictOf h)) rest ++ l) by
              simp only [List.append_assoc]] at rl'
            obtain ⟨a, b, c⟩ := form_step r hr hF h1 h2 rl'
            rw [← foldl_dictOf] at rl ⊢
            rw [← List.append_assoc] at rl ⊢
            obtain ⟨a', b', c'⟩ := ih a b c ok rl
            exact ⟨a', b', by simpa using c'⟩
          | err e => simp at ok
          | panic => simp at ok
          | diverge => simp at ok
      | err e => simp at ok
      | panic => simp at ok
      | diverge => simp at ok

theorem import_run (es : List Entry) {h : List Op} {ix ix2 : Index} {F : List (Str × List Str)}
    (r : Run h ix) (hr : NoReload h) (hF : Holds (dictOf h) F) (ok : execEntries ix es = (ix2, none))
    {l : List Op} {ixl : Index} (rl : Run (h ++ importCalls (dictOf h) es ++ l) ixl) :
    Run (h ++ importCalls (dictOf h) es) ix2 ∧ NoReload (h ++ importCalls (dictOf h) es) ∧
      Holds (dictOf (h ++ importCalls (dictOf h) es)) (F ++ allForms es) := by
  induction es generalizing h ix F with
  | nil =>
    obtain rfl := (Prod.mk.inj ok).1
    simp only [importCalls, allForms, List.append_nil]
    exact ⟨r, hr, hF⟩
  | cons e es ih =>
    rw [execEntries] at ok
    cases e with
    | grammeme n p =>
      simp only [Entry.exec] at ok
      have e1 : h ++ importCalls (dictOf h) (.grammeme n p :: es) =
          (h ++ [Op.tagID n p]) ++ importCalls (dictOf (h ++ [Op.tagID n p])) es := by
        rw [dictOf_append, importCalls]; simp
      rw [e1] at rl ⊢
      have rl' := rl
      rw [List.append_assoc] at rl'
      obtain ⟨jx, s⟩ := rl'.before
      obtain ⟨jx0, s0, _, _, rfl⟩ := s.snoc_inv
      obtain rfl := r.unique s0
      refine ih s (by unfold NoReload at *; simp [hr]) ?_ ok rl
      rw [dictOf_append]
      simp only [Op.spec]
      split
      · exact hF
      · exact ⟨hF.words, hF.nodes, hF.attached⟩
    | lem fs =>
      simp only [Entry.exec] at ok
      cases hfs : addFormsSpec ix fs with
      | mk ix1 o =>
        rw [hfs] at ok
        cases o with
        | some e => simp at ok
        | none =>
          simp only at ok
          have e1 : h ++ importCalls (dictOf h) (.lem fs :: es) =
              (h ++ formCalls (dictOf h) fs) ++ importCalls (dictOf (h ++ formCalls (dictOf h) fs)) es := by
            rw [foldl_dictOf, importCalls]; simp
          rw [e1] at rl ⊢
          have rl' := rl
          rw [List.append_assoc] at rl'
          obtain ⟨a, b, c⟩ := forms_run fs r hr hF hfs rl'
          obtain ⟨a', b', c'⟩ := ih a b c ok rl
          exact ⟨a', b', by simpa [allForms] using c'⟩

end Verif
