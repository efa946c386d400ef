import Verif.Lemmas.ImportCost
import Verif.Props.Cost
import Verif.Props.Copy

/-! # The steps of an import, call by call -/

namespace Verif

open PState

/-- The steps of a call. -/
def opSteps (ix : Index) : Op → Nat
  | .addString w => (ix.addStringT w).2
  | .addTagSet id names => (ix.addTagSetT id names).2
  | .tagID n _ => (tagsFindT n 0 ix.tags).2
  | _ => 0

/-- The steps of calls. -/
def callsWork : Index → List Op → Nat
  | _, [] => 0
  | ix, op :: ops => opSteps ix op + callsWork (op.exec ix) ops

theorem callsWork_append (a b : List Op) (ix : Index) :
    callsWork ix (a ++ b) = callsWork ix a + callsWork (a.foldl Op.exec ix) b := by
  induction a generalizing ix with
  | nil => simp [callsWork]
  | cons op a ih => simp only [List.cons_append, callsWork, List.foldl_cons]; rw [ih]; omega

/-- The steps for forms without those of the calls. -/
def formsOwn (fs : List (Str × List Str)) : Nat := (fs.map fun f => 1 + f.2.length).sum

theorem formsOwn_append (a b : List (Str × List Str)) : formsOwn (a ++ b) = formsOwn a + formsOwn b := by
  unfold formsOwn
  rw [List.map_append, List.sum_append]

theorem Run.foldl_exec {h l : List Op} {ix ix2 : Index} (r : Run h ix) (r2 : Run (h ++ l) ix2) :
    l.foldl Op.exec ix = ix2 := by
  rw [r2.eq, r.eq]
  unfold execAll
  rw [List.foldl_append]

/-- The number `AddString` returns. -/
theorem form_id {h : List Op} {ix ix1 : Index} {w : Str} {id : ID} (r : Run h ix) (hr : NoReload h)
    (h1 : ix.addString w = (ix1, .ok id)) {l : List Op} {jx : Index} (rl : Run (h ++ .addString w :: l) jx) :
    formID (dictOf h) w = id := by
  have hw : w ≠ [] := by
    rintro rfl
    simp [Index.addString] at h1
  have e1 : h ++ Op.addString w :: l = (h ++ [Op.addString w]) ++ l := by simp
  obtain ⟨jx1, s1⟩ := (e1 ▸ rl).before
  obtain ⟨jx0, s0, _, _, rfl⟩ := s1.snoc_inv
  obtain rfl := r.unique s0
  have hr1 : NoReload (h ++ [Op.addString w]) := by
    unfold NoReload at *; simp [hr]
  have hnode : (dictOf (h ++ [Op.addString w])).nodes[id.toNat]? = some (decodeRunes w) := by
    obtain ⟨id', a, b⟩ := C01_string (h' := []) w hw r s1
    rw [h1] at a
    cases a
    unfold Index.fetchString at b
    rw [s1.trie.fetchRoot_iff, Run.root_join (.inl hr1)] at b
    exact b.2
  have hlt : id.toNat < (dictOf (h ++ [Op.addString w])).nodes.length := (List.getElem?_eq_some_iff.1 hnode).1
  have hidx : (dictOf (h ++ [Op.addString w])).nodes.idxOf (decodeRunes w) = id.toNat := by
    have hm : decodeRunes w ∈ (dictOf (h ++ [Op.addString w])).nodes := List.mem_of_getElem? hnode
    have hl := List.idxOf_lt_length_iff.2 hm
    exact (s1.trie.nodup.getElem_inj_iff (hi := hl) (hj := hlt)).1 (by
      rw [List.getElem_idxOf hl, (List.getElem?_eq_some_iff.1 hnode).2])
  unfold formID
  rw [← dictOf_append, hidx]
  simp

theorem forms_work (fs : List (Str × List Str)) {h : List Op} {ix ix2 : Index} {F : List (Str × List Str)}
    (r : Run h ix) (hr : NoReload h) (hF : Holds (dictOf h) F) (ok : addFormsSpec ix fs = (ix2, none))
    {l : List Op} {ixl : Index} (rl : Run (h ++ formCalls (dictOf h) fs ++ l) ixl) :
    formsWork ix fs = formsOwn fs + callsWork ix (formCalls (dictOf h) fs) := by
  induction fs generalizing h ix F with
  | nil => rfl
  | cons f rest ih =>
    obtain ⟨w, tags⟩ := f
    rw [addFormsSpec] at ok
    rw [formsWork]
    cases h1 : ix.addString w with
    | mk ix1 o1 =>
      rw [h1] at ok
      cases o1 with
      | ok id =>
        simp only at ok ⊢
        cases h2 : ix1.addTagSet id tags with
        | mk ix3 o2 =>
          rw [h2] at ok
          cases o2 with
          | ok u =>
            simp only at ok ⊢
            rw [formCalls_cons] at rl ⊢
            have rl' := rl
            rw [show h ++ (formCalls (dictOf h) [(w, tags)] ++
              formCalls ((formCalls (dictOf h) [(w, tags)]).foldl Op.spec (dictOf h)) rest) ++ l =
              h ++ formCalls (dictOf h) [(w, tags)] ++
                (formCalls ((formCalls (dictOf h) [(w, tags)]).foldl Op.spec (dictOf h)) rest ++ l) by
              simp only [List.append_assoc]] at rl'
            obtain ⟨a, b, c⟩ := form_step r hr hF h1 h2 rl'
            rw [← foldl_dictOf] at rl ⊢
            rw [← List.append_assoc] at rl
            have e := ih a b c ok rl
            rw [callsWork_append, r.foldl_exec a, e]
            have hid := form_id r hr h1 a
            have e2 : callsWork ix (formCalls (dictOf h) [(w, tags)]) = (ix.addStringT w).2 + (ix1.addTagSetT id tags).2 := by
              have ef : formCalls (dictOf h) [(w, tags)] = [.addString w, .addTagSet (formID (dictOf h) w) tags] := rfl
              rw [ef, hid]
              simp only [callsWork, opSteps]
              rw [show (Op.addString w).exec ix = ix1 by show (ix.addString w).1 = ix1; rw [h1]]
              rfl
            have e3 : formsOwn ((w, tags) :: rest) = 1 + tags.length + formsOwn rest := by
              unfold formsOwn
              rw [List.map_cons, List.sum_cons]
            rw [e2, e3]
            omega
          | err e => simp at ok
          | panic => simp at ok
          | diverge => simp at ok
      | err e => simp at ok
      | panic => simp at ok
      | diverge => simp at ok

theorem entries_work (es : List Entry) {h : List Op} {ix : Index} {F : List (Str × List Str)} (r : Run h ix)
    (hr : NoReload h) (hF : Holds (dictOf h) F) {ixl : Index} (ok : execEntries ix es = (ixl, none))
    (rl : Run (h ++ importCalls (dictOf h) es) ixl) :
    entriesWork ix es = formsOwn (allForms es) + callsWork ix (importCalls (dictOf h) es) := by
  induction es generalizing h ix F with
  | nil => rfl
  | cons e es ih =>
    rw [execEntries] at ok
    cases e with
    | grammeme n p =>
      simp only [Entry.exec] at ok
      have e1 : h ++ importCalls (dictOf h) (.grammeme n p :: es) =
          (h ++ [Op.tagID n p]) ++ importCalls (dictOf (h ++ [Op.tagID n p])) es := by
        rw [dictOf_append, importCalls]; simp
      rw [e1] at rl
      obtain ⟨jx, s⟩ := rl.before
      obtain ⟨jx0, s0, _, _, rfl⟩ := s.snoc_inv
      obtain rfl := r.unique s0
      have := ih (F := F) s (by unfold NoReload at *; simp [hr]) (by
        rw [dictOf_append]
        simp only [Op.spec]
        split
        · exact hF
        · exact ⟨hF.words, hF.nodes, hF.attached⟩) ok rl
      simp only [entriesWork, allForms, importCalls, callsWork, opSteps]
      rw [dictOf_append] at this
      have e2 : Op.exec ix (.tagID n p) = (ix.tagID n p).1 := rfl
      rw [e2] at this ⊢
      omega
    | lem fs =>
      simp only [Entry.exec] at ok
      have e1 : h ++ importCalls (dictOf h) (.lem fs :: es) =
          (h ++ formCalls (dictOf h) fs) ++ importCalls (dictOf (h ++ formCalls (dictOf h) fs)) es := by
        rw [foldl_dictOf, importCalls]; simp
      rw [e1] at rl
      generalize h1 : addFormsSpec ix fs = x at ok
      obtain ⟨ix1, o⟩ := x
      cases o with
      | some e => simp at ok
      | none =>
        simp only at ok
        obtain ⟨a, b, c⟩ := forms_run fs r hr hF h1 rl
        have w1 := forms_work fs r hr hF h1 rl
        have w2 := ih a b c ok rl
        simp only [entriesWork, allForms, importCalls]
        rw [h1, callsWork_append, r.foldl_exec a, formsOwn_append, w1]
        simp only
        rw [w2, foldl_dictOf]
        omega

/-! ## Bounds -/

theorem callsWork_le (B : Op → Nat) (H : List Op) (hb : ∀ q op, q ++ [op] <+: H → opSteps (execAll q) op ≤ B op) :
    callsWork Index.new H ≤ (H.map B).sum := by
  induction H using list_reverse_induction with
  | nil => exact Nat.le_refl _
  | snoc l op ih =>
    rw [callsWork_append, List.map_append, List.sum_append]
    have h1 := ih fun q o hq => hb q o (hq.trans (List.prefix_append _ _))
    have h2 := hb l op (List.prefix_refl _)
    simp only [callsWork, List.map_cons, List.map_nil, List.sum_cons, List.sum_nil]
    unfold execAll at h2
    omega

/-- A bound for each call: `T` for a grammeme, the characters of a string, `g` of the number of tags. -/
def callBound (T : Nat) (g : Nat → Nat) : Op → Nat
  | .addString w => (decodeRunes w).length
  | .addTagSet _ names => g names.length
  | .tagID _ _ => T
  | _ => 0

theorem callBound_forms (T : Nat) (g : Nat → Nat) (fs : List (Str × List Str)) (d : Dict) :
    ((formCalls d fs).map (callBound T g)).sum = (fs.map fun f => (decodeRunes f.1).length + g f.2.length).sum := by
  induction fs generalizing d with
  | nil => rfl
  | cons f rest ih =>
    obtain ⟨w, tags⟩ := f
    simp only [formCalls, List.map_cons, List.sum_cons, callBound]
    rw [ih]
    omega

theorem callBound_entries (T : Nat) (g : Nat → Nat) (es : List Entry) (d : Dict) :
    ((importCalls d es).map (callBound T g)).sum =
      grammemeCount es * T + ((allForms es).map fun f => (decodeRunes f.1).length + g f.2.length).sum := by
  induction es generalizing d with
  | nil => simp [importCalls, grammemeCount, allForms]
  | cons e es ih =>
    cases e with
    | grammeme n p =>
      simp only [importCalls, List.map_cons, List.sum_cons, callBound, allForms]
      rw [ih]
      have : grammemeCount (.grammeme n p :: es) = grammemeCount es + 1 := by simp [grammemeCount]
      rw [this, Nat.succ_mul]
      omega
    | lem fs =>
      simp only [importCalls, List.map_append, List.sum_append, allForms]
      rw [ih, callBound_forms]
      have : grammemeCount (.lem fs :: es) = grammemeCount es := by simp [grammemeCount]
      rw [this]
      omega

theorem Different.before {h l : List Op} {k R c K : Nat} (d : Different (h ++ l) k R c K) : Different h k R c K := by
  obtain ⟨⟨L, l1, l2⟩, ⟨A, a1, a2⟩, S, s1, s2⟩ := d
  have hr := dictOf_readings_prefix h l
  exact ⟨⟨L, l1, fun e he => l2 e (hr.subset he)⟩, ⟨A, a1, fun n hn => a2 n ((attached_mono hr k).subset hn)⟩,
    S, s1, fun q hq => s2 q (hq.trans (List.prefix_append _ _))⟩

/-- What is different in the document is different in the calls. -/
theorem DocDifferent.calls {es : List Entry} (hd : Declared es) (m : DocRoom es) {R c K : Nat} (dd : DocDifferent es R c K)
    (k : Nat) : Different (callsOf es) k R c K := by
  obtain ⟨L, l1, l2, l3⟩ := m.prefixes
  have hall := callsOf_imp hd m
  constructor
  · obtain ⟨A, a1, a2⟩ := dd.readings
    refine ⟨A, a1, fun e he => ?_⟩
    obtain ⟨_, f, hf, he⟩ := hall.readings e he
    rw [← he]
    exact a2 f hf
  · rcases attached_cases hall k with h0 | ⟨w, hw⟩
    · rw [h0]; exact ⟨[], Nat.zero_le _, by simp⟩
    · rw [hw]; exact dd.word w
  · obtain ⟨A, a1, a2⟩ := dd.sets
    refine ⟨A, a1, fun q hq k hk => ?_⟩
    unfold callsOf at hq
    rw [importCalls_steps] at hq
    obtain ⟨G', W', F', a, b, _⟩ := imp_prefix L l1 l2 (stepsOf es) _ _ _ _ Imp.empty hd.steps (by simp)
      (by rw [stepForms_stepsOf]; exact l3) q hq
    rw [stepForms_stepsOf] at b
    rcases attached_cases a k with h0 | ⟨w, hw⟩
    · exact absurd h0 hk
    · have e : dictOf q = q.foldl Op.spec Dict.empty := rfl
      rw [e, hw] at hk ⊢
      exact a2 F' (by simpa using b) w hk

theorem importCalls_noReload (es : List Entry) (d : Dict) : NoReload (importCalls d es) := by
  have hf : ∀ (fs : List (Str × List Str)) (d : Dict), NoReload (formCalls d fs) := by
    intro fs
    induction fs with
    | nil => intro d; simp [NoReload, formCalls]
    | cons f fs ih =>
      intro d
      obtain ⟨w, tags⟩ := f
      have := ih ((Op.addTagSet (formID d w) tags).spec ((Op.addString w).spec d))
      unfold NoReload at this ⊢
      simp only [formCalls, List.mem_cons, reduceCtorEq, false_or]
      exact this
  induction es generalizing d with
  | nil => simp [NoReload, importCalls]
  | cons e es ih =>
    cases e with
    | grammeme n p =>
      have := ih ((Op.tagID n p).spec d)
      unfold NoReload at this ⊢
      simpa [importCalls] using this
    | lem fs =>
      have h1 := hf fs d
      have h2 := ih ((formCalls d fs).foldl Op.spec d)
      unfold NoReload at h1 h2 ⊢
      simp [importCalls, h1, h2]

theorem import_steps {es : List Entry} (hd : Declared es) (m : DocRoom es) {R c K : Nat} (dd : DocDifferent es R c K) :
    callsWork Index.new (callsOf es) ≤ grammemeCount es * (declaredTags es).length +
      ((allForms es).map fun f => (decodeRunes f.1).length + (f.2.length * ((declaredTags es).length + 2) +
        R * (f.2.length + 1) + (3 * c + 2) + K * (c + 2))).sum := by
  have room := room_of_doc hd m
  refine (callsWork_le (callBound (declaredTags es).length fun n => n * ((declaredTags es).length + 2) +
        R * (n + 1) + (3 * c + 2) + K * (c + 2)) _ ?_).trans (Nat.le_of_eq (callBound_entries _ _ es Dict.empty))
  intro q op ⟨l, hl⟩
  have room' : Room q := by
    have : Room (q ++ ([op] ++ l)) := by rw [← List.append_assoc, hl]; exact room
    exact this.before
  have ht : (dictOf q).tags.length ≤ (declaredTags es).length := by
    rw [← callsOf_tags, ← hl, List.append_assoc]
    refine (dictOf_tags_prefix q _ ?_).length_le
    have := importCalls_noReload es Dict.empty
    unfold callsOf at hl
    rw [← hl] at this
    unfold NoReload at this ⊢
    intro h
    exact this (by rw [List.append_assoc]; exact List.mem_append_right _ h)
  have r := room_runs _ room'
  cases op with
  | addString w =>
    simp only [opSteps, callBound, Index.addStringT]
    split
    · exact Nat.zero_le _
    · exact (addLoopT_le 0 (execAll q) 0 _).1
  | tagID n p =>
    simp only [opSteps, callBound]
    refine (tagsFindT_le n 0 _).trans ?_
    rw [r.tag.tags]
    exact ht
  | addTagSet id names =>
    simp only [opSteps, callBound]
    have d1 := dd.calls hd m id.toNat
    rw [← hl, List.append_assoc] at d1
    refine (C96_tag_partial room' id names d1.before).trans ?_
    have := Nat.mul_le_mul_left names.length (Nat.add_le_add_right ht 2)
    omega
  | _ => exact Nat.zero_le _

end Verif
