import Verif.Model.Session
import Verif.Lemmas.HeapIndex

/-!
# Sessions in which the caller only touches readings
-/

namespace Verif

/-- The calls of a session. -/
def callsIn (acts : List Act) : List Op := acts.filterMap fun a => match a with | .call op => some op | _ => none

/-- The caller only asks for readings (`TagSets`) and assigns or appends to those. -/
def Act.OnReadings : Act → Prop
  | .call _ | .readings _ | .store _ _ _ | .push _ _ => True
  | _ => False

instance : DecidablePred Act.OnReadings := fun a => by
  cases a <;> first | exact isTrue trivial | exact isFalse id

theorem Heap.valid_write_any {α : Type} {h : Heap α} {s t : Slice} (v : h.Valid s) (w : h.Valid t) {ys : List α}
    (hy : ys.length = s.len) : (h.write s ys).Valid t := by
  unfold Heap.write Heap.Valid
  refine ⟨by rw [List.length_set]; exact w.1, ?_⟩
  by_cases e : s.arr = t.arr
  · have h1 := v.2
    have h2 := w.2
    rw [← e] at h2 ⊢
    rw [Heap.getD_set_self v.1, List.length_append, List.length_drop]
    omega
  · rw [Heap.getD_set_ne e]
    exact w.2

theorem Heap.read_write_other {α : Type} {h : Heap α} {s t : Slice} (ne : t.arr ≠ s.arr) (ys : List α) :
    (h.write s ys).read t = h.read t := by
  unfold Heap.write Heap.read
  rw [Heap.getD_set_ne (Ne.symm ne)]

theorem allocTable_arr {α : Type} (t : List (List α)) (h : Heap α) :
    ∀ s ∈ (HIndex.allocTable h t).2, h.length ≤ s.arr := by
  induction t generalizing h with
  | nil => intro s hs; cases hs
  | cons xs rest ih =>
    intro s hs
    rcases List.mem_cons.1 hs with rfl | hs
    · exact Nat.le_refl _
    · have := ih (h.makeWith xs).1 s hs
      simp only [Heap.makeWith, List.length_append, List.length_singleton] at this
      omega

namespace Session

/-- The caller's slices lie within their arrays and none is the array of the index's tags. -/
structure Apart (s : Session) : Prop where
  ok : s.plain.OK
  tags : s.arrays.Valid s.tags
  held : ∀ t ∈ s.held, s.arrays.Valid t ∧ t.arr ≠ s.tags.arr

theorem value_congr {s s' : Session} (e : s'.hx = s.hx) (r : s'.arrays.read s'.tags = s.arrays.read s.tags) :
    s'.value = s.value := by
  unfold value plain; rw [e, r]

theorem ok_of {x : HIndex} (h : x.OK) (ix : Index) : ({ x with ix := ix } : HIndex).OK := ⟨h.sets, h.colls⟩

theorem ok_congr {s s' : Session} (e : s'.hx = s.hx) (h : s.plain.OK) : s'.plain.OK := by
  have : s'.plain = { s.plain with ix := s'.plain.ix } := by unfold plain; rw [e]
  rw [this]; exact ok_of h _

/-- Everything but registering a tag and loading leaves the registered tags alone. -/
theorem tags_kept {h : List Op} {ix : Index} (r : Run h ix) (op : Op) (ha : op.Allowed ix (dictOf h))
    (hf : Fits (op.exec ix) (dictOf (h ++ [op]))) (h1 : ∀ n p, op ≠ .tagID n p) (h2 : op ≠ .reload) :
    (op.exec ix).tags = ix.tags := by
  have t1 := r.tag.tags
  have t2 := (Run.step op r ha hf).tag.tags
  rw [t1, t2]
  unfold dictOf
  rw [List.foldl_append]
  have ins : ∀ (d : Dict) (p : Nat) (rs : List Rune), (d.insert p rs).tags = d.tags := by
    intro d p rs
    unfold Dict.insert
    split
    · rfl
    · split <;> rfl
  cases op with
  | tagID n p => exact absurd rfl (h1 n p)
  | reload => exact absurd rfl h2
  | addRunes rs => exact ins _ _ _
  | addString w => exact ins _ _ _
  | addToNode id rs => exact ins _ _ _
  | addTagSet id names =>
    show (Op.spec _ (.addTagSet id names)).tags = _
    unfold Op.spec
    simp only
    split <;> rfl
  | _ => rfl

theorem call_ok (grow : Growth Tag) {s : Session} (a : s.Apart) {h : List Op} (op : Op) (r : Run h s.value)
    (ha : op.Allowed s.value (dictOf h)) (hf : Fits (op.exec s.value) (dictOf (h ++ [op]))) :
    (s.call grow op).Apart ∧ (s.call grow op).value = op.exec s.value := by
  have sim := HIndex.exec_sim s.plain a.ok r.tag.colls op
  by_cases h1 : ∃ n p, op = .tagID n p
  · obtain ⟨n, p, rfl⟩ := h1
    unfold call
    simp only
    have ht : s.value.tags = s.arrays.read s.tags := rfl
    have e : (Op.exec s.value (.tagID n p)) =
        { s.value with tags := (tagsIndex (s.arrays.read s.tags) n p).1 } := rfl
    rw [e]
    cases hc : tagsFind (s.arrays.read s.tags) n with
    | some i =>
      refine ⟨a, ?_⟩
      unfold tagsIndex
      rw [hc]
      rfl
    | none =>
      simp only
      refine ⟨⟨ok_congr (s := s) (by rfl) a.ok, Heap.valid_append_new _ _ a.tags _, ?_⟩, ?_⟩
      · intro t ht
        obtain ⟨v, ne⟩ := a.held t ht
        refine ⟨Heap.valid_append _ _ a.tags v _, ?_⟩
        rcases Heap.append_arr grow { parent := [], name := [] } s.arrays s.tags [newTag p n] with e | e
        · rw [e]; exact ne
        · rw [e]; have := v.1; omega
      · unfold tagsIndex
        rw [hc]
        unfold value plain
        simp only
        rw [Heap.read_append _ _ a.tags]
        by_cases hp : p = []
        · subst hp; rfl
        · simp only [HIndex.value, if_neg hp]
  · by_cases h2 : op = .reload
    · subst h2
      unfold call Op.exec
      simp only
      by_cases h0 : s.value.save.err = none
      · rw [if_pos h0, if_pos h0]
        generalize Index.new.load s.value.save.bytes = y
        cases y with
        | ok y =>
          simp only
          obtain ⟨o1, o2⟩ := HIndex.ofValue_spec y.1
          refine ⟨⟨ok_of o1 _, Heap.valid_make_new _ _, ?_⟩, ?_⟩
          · intro t ht
            obtain ⟨v, _⟩ := a.held t ht
            refine ⟨Heap.valid_make v _, ?_⟩
            show t.arr ≠ s.arrays.length
            have := v.1
            omega
          · unfold value plain
            simp only
            rw [Heap.read_make_new]
            exact o2
        | err e => exact ⟨a, rfl⟩
        | panic => exact ⟨a, rfl⟩
        | diverge => exact ⟨a, rfl⟩
      · rw [if_neg h0, if_neg h0]
        exact ⟨a, rfl⟩
    · have e : s.call grow op = { s with hx := s.plain.exec op } := by
        cases op <;> first | rfl | exact absurd ⟨_, _, rfl⟩ h1 | exact absurd rfl h2
      have ht : (s.plain.exec op).ix.tags = s.arrays.read s.tags := by
        have := tags_kept r op ha hf (fun n p e => h1 ⟨n, p, e⟩) h2
        have e2 := congrArg Index.tags sim.2
        exact e2.trans this
      have ep : ({ s with hx := s.plain.exec op } : Session).plain = s.plain.exec op := by
        show { s.plain.exec op with ix := { (s.plain.exec op).ix with tags := s.arrays.read s.tags } } = _
        rw [← ht]
      rw [e]
      refine ⟨⟨by rw [ep]; exact sim.1, a.tags, a.held⟩, ?_⟩
      unfold value
      rw [ep]
      exact sim.2

theorem own_ok (grow : Growth Tag) {s : Session} (a : s.Apart) (x : Act) (hx : x.OnReadings)
    (hc : ∀ op, x ≠ .call op) : (s.act grow x).Apart ∧ (s.act grow x).value = s.value := by
  cases x with
  | call op => exact absurd rfl (hc op)
  | readings id =>
    unfold act
    simp only
    split
    · rename_i L _
      obtain ⟨e1, e2, _⟩ := HIndex.allocTable_spec L s.arrays
      refine ⟨⟨ok_congr (s := s) (by rfl) a.ok, (e1 _ a.tags).1, ?_⟩, value_congr rfl (e1 _ a.tags).2⟩
      intro t ht
      rcases List.mem_append.1 ht with ht | ht
      · exact ⟨(e1 _ (a.held t ht).1).1, (a.held t ht).2⟩
      · refine ⟨e2 t ht, ?_⟩
        have h1 := allocTable_arr L s.arrays t ht
        have h2 := a.tags.1
        show t.arr ≠ s.tags.arr
        omega
    · exact ⟨a, rfl⟩
  | store k i t =>
    unfold act
    simp only
    split
    · rename_i sl hk
      obtain ⟨v, ne⟩ := a.held sl (List.mem_of_getElem? hk)
      have hl : ((s.arrays.read sl).set i t).length = sl.len := by rw [List.length_set, Heap.length_read v]
      refine ⟨⟨ok_congr (s := s) (by rfl) a.ok, Heap.valid_write_any v a.tags hl, ?_⟩,
        value_congr rfl (Heap.read_write_other (Ne.symm ne) _)⟩
      intro u hu
      exact ⟨Heap.valid_write_any v (a.held u hu).1 hl, (a.held u hu).2⟩
    · exact ⟨a, rfl⟩
  | push k t =>
    unfold act
    simp only
    split
    · rename_i sl hk
      obtain ⟨v, ne⟩ := a.held sl (List.mem_of_getElem? hk)
      refine ⟨⟨ok_congr (s := s) (by rfl) a.ok, Heap.valid_append _ _ v a.tags _, ?_⟩,
        value_congr rfl (Heap.read_append_ne _ _ a.tags (Ne.symm ne) _)⟩
      intro u hu
      rcases List.mem_or_eq_of_mem_set hu with hu | rfl
      · exact ⟨Heap.valid_append _ _ v (a.held u hu).1 _, (a.held u hu).2⟩
      · refine ⟨Heap.valid_append_new _ _ v _, ?_⟩
        rcases Heap.append_arr grow { parent := [], name := [] } s.arrays sl [t] with e | e
        · rw [e]; exact ne
        · rw [e]; have := a.tags.1; simp only; omega
    · exact ⟨a, rfl⟩
  | tags => exact absurd hx id
  | setChild _ _ _ => exact absurd hx id
  | setTagID _ _ _ => exact absurd hx id
  | setReading _ _ _ => exact absurd hx id

theorem new_apart : new.Apart :=
  ⟨⟨(by intro t ht; cases ht), (by intro t ht; cases ht)⟩, ⟨by decide, by decide⟩, by intro t ht; cases ht⟩

theorem callsOf_snoc_call (acts : List Act) (op : Op) : callsIn (acts ++ [.call op]) = callsIn acts ++ [op] := by
  unfold callsIn; rw [List.filterMap_append]; rfl

theorem callsOf_snoc (acts : List Act) {x : Act} (hc : ∀ op, x ≠ .call op) :
    callsIn (acts ++ [x]) = callsIn acts := by
  unfold callsIn
  rw [List.filterMap_append]
  cases x with
  | call op => exact absurd rfl (hc op)
  | _ => exact List.append_nil _

theorem run_snoc (grow : Growth Tag) (acts : List Act) (x : Act) :
    run grow (acts ++ [x]) = (run grow acts).act grow x := by
  unfold run; rw [List.foldl_append]; rfl

theorem run_ok (grow : Growth Tag) (acts : List Act) (own : ∀ x ∈ acts, x.OnReadings) {ix : Index}
    (r : Run (callsIn acts) ix) : (run grow acts).Apart ∧ (run grow acts).value = ix := by
  induction acts using list_reverse_induction generalizing ix with
  | nil => cases r.eq; exact ⟨new_apart, rfl⟩
  | snoc acts x ih =>
    have own' : ∀ y ∈ acts, y.OnReadings := fun y hy => own y (List.mem_append_left _ hy)
    rw [run_snoc]
    by_cases hc : ∃ op, x = .call op
    · obtain ⟨op, rfl⟩ := hc
      rw [callsOf_snoc_call] at r
      obtain ⟨ix0, r0, ha, hf, rfl⟩ := r.snoc_inv
      obtain ⟨i1, i2⟩ := ih own' r0
      rw [← i2] at r0 ha hf ⊢
      exact call_ok grow i1 op r0 ha hf
    · have hc' : ∀ op, x ≠ .call op := fun op e => hc ⟨op, e⟩
      rw [callsOf_snoc acts hc'] at r
      obtain ⟨i1, i2⟩ := ih own' r
      have := own_ok grow i1 x (own x (by simp)) hc'
      exact ⟨this.1, this.2.trans i2⟩

end Session

end Verif
