import Verif.Spec.Processes
import Mathlib.Data.List.Infix

/-! # Helper lemmas: several processes with one index file -/

namespace Verif

@[simp] theorem goto_disk (s : Shared) (i : Nat) (p : FileProc) : (s.goto i p).disk = s.disk := rfl
theorem goto_proc (s : Shared) (i : Nat) (p : FileProc) (j : Nat) :
    (s.goto i p).proc j = if j = i then p else s.proc j := rfl
@[simp] theorem goto_self (s : Shared) (i : Nat) (p : FileProc) : (s.goto i p).proc i = p := if_pos rfl
theorem goto_ne (s : Shared) {i j : Nat} (p : FileProc) (h : j ≠ i) : (s.goto i p).proc j = s.proc j := if_neg h

theorem shared_run_append (jobs : Nat → FileJob) (s : Shared) (a b : List FileEv) :
    s.run jobs (a ++ b) = (s.run jobs a).run jobs b := List.foldl_append

theorem run_cons (jobs : Nat → FileJob) (s : Shared) (e : FileEv) (b : List FileEv) :
    s.run jobs (e :: b) = (s.next jobs e).run jobs b := rfl

theorem prefix_byte {a l : Str} {b : UInt8} (h : a <+: l) (hb : l[a.length]? = some b) : a ++ [b] <+: l := by
  obtain ⟨t, rfl⟩ := h
  rw [List.getElem?_append_right (Nat.le_refl _), Nat.sub_self] at hb
  cases t with
  | nil => cases hb
  | cons c t =>
    simp at hb
    subst hb
    exact ⟨t, by simp⟩

/-! ## One process saves -/

/-- The bytes a process has read so far or to the end. -/
def FileProc.got : FileProc → Option Str
  | .reading _ g => some g
  | .read g => some g
  | _ => none

/-- The state while process `w` is the only one that saves; `begun`: it has emptied the file. -/
structure OneSaver (old new : Str) (w : Nat) (begun : Bool) (s : Shared) : Prop where
  others : ∀ i, i ≠ w → (∀ k p, s.proc i ≠ .saving k p) ∧ s.proc i ≠ .removing
  self : (s.proc w).got = none
  opened : ∀ i k g, s.proc i = .reading k g → k = 0
  before : begun = false → (s.disk.link = some 0 ∨ (s.disk.link = none ∧ s.disk.next = 0)) ∧ s.disk.data 0 = old ∧
    (s.proc w = .idle ∨ s.proc w = .notSaved ∨ s.proc w = .dead)
  after : begun = true → (s.disk.link = some 0 ∨ s.disk.link = none) ∧ s.proc w ≠ .idle ∧
    ∃ m, s.disk.data 0 = new.take m ∧ ∀ k p, s.proc w = .saving k p → k = 0 ∧ p = m

/-- A change of a process that is not the saving one. -/
theorem OneSaver.other {old new : Str} {w : Nat} {begun : Bool} {s : Shared} (h : OneSaver old new w begun s) {i : Nat}
    (hi : i ≠ w) {p : FileProc} (h1 : ∀ k o, p ≠ .saving k o) (h2 : p ≠ .removing) (h3 : ∀ k g, p = .reading k g → k = 0) :
    OneSaver old new w begun (s.goto i p) := by
  have hw : (s.goto i p).proc w = s.proc w := goto_ne s p (Ne.symm hi)
  refine ⟨?_, by rw [hw]; exact h.self, ?_, ?_, ?_⟩
  · intro j hj
    rw [goto_proc]
    split
    · exact ⟨h1, h2⟩
    · exact h.others j hj
  · intro j k g hj
    rw [goto_proc] at hj
    split at hj
    · exact h3 k g hj
    · exact h.opened j k g hj
  · rw [hw]; exact h.before
  · rw [hw]; exact h.after

theorem poke_next {new : Str} {m : Nat} {b : UInt8} (hb : new[m]? = some b) : pokeByte (new.take m) m b = new.take (m + 1) := by
  have hm : m < new.length := (List.getElem?_eq_some_iff.1 hb).1
  unfold pokeByte
  rw [List.take_take, Nat.min_self, List.length_take, Nat.min_eq_left (Nat.le_of_lt hm), Nat.sub_self,
    List.replicate_zero, List.append_nil, List.drop_eq_nil_of_le (by rw [List.length_take]; omega),
    List.take_add_one, hb]
  rfl

/-- Whether the file has been emptied after the event. -/
theorem OneSaver.next {old new : Str} {w : Nat} {begun : Bool} {s : Shared} {jobs : Nat → FileJob}
    (h : OneSaver old new w begun s) (hj : OneSaves jobs w new) (e : FileEv) :
    ∃ begun', (begun = true → begun' = true) ∧ OneSaver old new w begun' (s.next jobs e) ∧
      (begun = false → (s.proc w = .idle ∧ e = .step w) ∨ begun' = false) := by
  have stay : ∀ {p : FileProc}, p.got = none → (∀ k o, p ≠ .saving k o) → p ≠ .idle →
      (begun = false → p = .notSaved ∨ p = .dead) → OneSaver old new w begun (s.goto w p) := by
    intro p h1 h2 h3 h4
    refine ⟨?_, by rw [goto_self]; exact h1, ?_, ?_, ?_⟩
    · intro i hi
      rw [goto_ne s p hi]
      exact h.others i hi
    · intro i k g hi
      rw [goto_proc] at hi
      split at hi
      · subst hi; cases h1
      · exact h.opened i k g hi
    · intro hb
      obtain ⟨a, b, _⟩ := h.before hb
      exact ⟨a, b, by rw [goto_self]; exact .inr (h4 hb)⟩
    · intro hb
      obtain ⟨a, _, m, c, _⟩ := h.after hb
      exact ⟨a, by rw [goto_self]; exact h3, m, c, fun k p' hp => absurd (by rw [goto_self] at hp; exact hp) (h2 k p')⟩
  cases e with
  | die i =>
    refine ⟨begun, id, ?_, fun hb => .inr hb⟩
    by_cases hi : i = w
    · subst hi
      exact stay rfl (by simp) (by simp) (by simp)
    · exact h.other hi (by simp) (by simp) (by simp)
  | fail i =>
    refine ⟨begun, id, ?_, fun hb => .inr hb⟩
    show OneSaver old new w begun (s.fail (jobs i) i)
    by_cases hi : i = w
    · subst hi
      rw [hj.1]
      unfold Shared.fail
      have hs := h.self
      have hb := h.before
      split <;> try exact h
      · exact stay rfl (by simp) (by simp) (by simp)
      · rename_i e
        cases e
      · rename_i heq
        refine stay rfl (by simp) (by simp) (fun hf => ?_)
        have := (hb hf).2.2
        rw [heq] at this
        simp at this
      · exact stay rfl (by simp) (by simp) (by simp)
      · rename_i heq
        rw [heq] at hs; cases hs
    · rw [hj.2 i hi]
      unfold Shared.fail
      have ho := h.others i hi
      split <;> try exact h
      · exact h.other hi (by simp) (by simp) (by simp)
      · exact h.other hi (by simp) (by simp) (by simp)
      · rename_i heq
        exact absurd heq (ho.1 _ _)
      · rename_i heq
        exact absurd heq ho.2
      · exact h.other hi (by simp) (by simp) (by simp)
  | step i =>
    show ∃ begun', _ ∧ OneSaver old new w begun' (s.step (jobs i) i) ∧ _
    by_cases hi : i = w
    · subst hi
      rw [hj.1]
      have hs := h.self
      cases hp : s.proc i with
      | idle =>
        refine ⟨true, fun _ => rfl, ?_, fun _ => .inl ⟨rfl, rfl⟩⟩
        have hbf : begun = false := by
          cases begun with
          | false => rfl
          | true => exact absurd hp (h.after rfl).2.1
        obtain ⟨hl, hd, _⟩ := h.before hbf
        have he : ∃ d : SharedDisk, s.step (.save new) i = ({ disk := d, proc := s.proc } : Shared).goto i (.saving 0 0) ∧
            d.link = some 0 ∧ d.data 0 = [] := by
          unfold Shared.step
          simp only [hp]
          unfold Shared.create
          rcases hl with hl | ⟨hl, hn⟩
          · rw [hl]
            exact ⟨_, rfl, hl, by simp⟩
          · rw [hl]
            simp only [hn]
            exact ⟨_, rfl, rfl, by simp⟩
        obtain ⟨d, he, hl', hd'⟩ := he
        rw [he]
        refine ⟨?_, by rw [goto_self]; rfl, ?_, fun hb => Bool.noConfusion hb, ?_⟩
        · intro j hj'
          rw [goto_ne _ _ hj']
          exact h.others j hj'
        · intro j k g hj'
          rw [goto_proc] at hj'
          split at hj'
          · cases hj'
          · exact h.opened j k g hj'
        · intro _
          refine ⟨.inl hl', by rw [goto_self]; simp, 0, by simpa using hd', ?_⟩
          intro k p hkp
          rw [goto_self] at hkp
          cases hkp
          exact ⟨rfl, rfl⟩
      | saving k p =>
        have hb : begun = true := by
          cases hb : begun with
          | true => rfl
          | false =>
            have := (h.before hb).2.2
            rw [hp] at this
            simp at this
        refine ⟨begun, id, ?_, fun hf => .inr hf⟩
        obtain ⟨hl, hni, m, hd, hm⟩ := h.after hb
        obtain ⟨rfl, rfl⟩ := hm _ _ hp
        unfold Shared.step
        simp only [hp]
        cases hc : new[p]? with
        | none =>
          simp only
          exact stay rfl (by simp) (by simp) (fun hf => by rw [hb] at hf; cases hf)
        | some b =>
          simp only
          refine ⟨?_, by rw [goto_self]; rfl, ?_, fun hf => (by rw [hb] at hf; cases hf), ?_⟩
          · intro j hj'
            rw [goto_ne _ _ hj']
            exact h.others j hj'
          · intro j k g hj'
            rw [goto_proc] at hj'
            split at hj'
            · cases hj'
            · exact h.opened j k g hj'
          · intro _
            refine ⟨hl, by rw [goto_self]; simp, p + 1, ?_, ?_⟩
            · rw [goto_disk, hd, poke_next hc]
              simp [Shared.write]
            · intro k q hkq
              rw [goto_self] at hkq
              cases hkq
              exact ⟨rfl, rfl⟩
      | removing =>
        have hb : begun = true := by
          cases hb : begun with
          | true => rfl
          | false =>
            have := (h.before hb).2.2
            rw [hp] at this
            simp at this
        refine ⟨begun, id, ?_, fun hf => .inr hf⟩
        have := stay (p := .notSaved) rfl (by simp) (by simp) (by simp)
        unfold Shared.step
        simp only [hp]
        refine ⟨this.others, this.self, this.opened, fun hf => (by rw [hb] at hf; cases hf), fun _ => ?_⟩
        exact ⟨.inr rfl, (this.after hb).2⟩
      | reading k g => rw [hp] at hs; cases hs
      | read g => rw [hp] at hs; cases hs
      | saved => exact ⟨begun, id, by unfold Shared.step; simp only [hp]; exact h, fun hf => .inr hf⟩
      | notSaved => exact ⟨begun, id, by unfold Shared.step; simp only [hp]; exact h, fun hf => .inr hf⟩
      | noFile => exact ⟨begun, id, by unfold Shared.step; simp only [hp]; exact h, fun hf => .inr hf⟩
      | dead => exact ⟨begun, id, by unfold Shared.step; simp only [hp]; exact h, fun hf => .inr hf⟩
    · rw [hj.2 i hi]
      refine ⟨begun, id, ?_, fun hf => .inr hf⟩
      have ho := h.others i hi
      have hl : s.disk.link = some 0 ∨ s.disk.link = none := by
        cases hb : begun with
        | true => exact (h.after hb).1
        | false => rcases (h.before hb).1 with h | h; exacts [.inl h, .inr h.1]
      cases hp : s.proc i with
      | idle =>
        unfold Shared.step
        simp only [hp]
        rcases hl with hl | hl
        · simp only [hl]
          exact h.other hi (by simp) (by simp) (by simp)
        · simp only [hl]
          exact h.other hi (by simp) (by simp) (by simp)
      | saving k p => exact absurd hp (ho.1 k p)
      | removing => exact absurd hp ho.2
      | reading k g =>
        have hk := h.opened i k g hp
        unfold Shared.step
        simp only [hp]
        split
        · exact h.other hi (by simp) (by simp) (by intro k' g' e; cases e; exact hk)
        · exact h.other hi (by simp) (by simp) (by simp)
      | read g => unfold Shared.step; simp only [hp]; exact h
      | saved => unfold Shared.step; simp only [hp]; exact h
      | notSaved => unfold Shared.step; simp only [hp]; exact h
      | noFile => unfold Shared.step; simp only [hp]; exact h
      | dead => unfold Shared.step; simp only [hp]; exact h

/-- What a process has read changes only when it opens the file or reads a byte of it. -/
theorem got_next {jobs : Nat → FileJob} {s : Shared} {e : FileEv} {i : Nat} {g : Str}
    (h : ((s.next jobs e).proc i).got = some g) : (s.proc i).got = some g ∨ (g = [] ∧ s.proc i = .idle) ∨
      ∃ k g' b, s.proc i = .reading k g' ∧ g = g' ++ [b] ∧ (s.disk.data k)[g'.length]? = some b := by
  have go : ∀ {s' : Shared} {j : Nat} {p : FileProc}, s'.proc = s.proc → ((s'.goto j p).proc i).got = some g →
      (p.got = none ∨ (j = i → p.got = some g → (s.proc i).got = some g ∨ (g = [] ∧ s.proc i = .idle) ∨
      ∃ k g' b, s.proc i = .reading k g' ∧ g = g' ++ [b] ∧ (s.disk.data k)[g'.length]? = some b)) →
      (s.proc i).got = some g ∨ (g = [] ∧ s.proc i = .idle) ∨
      ∃ k g' b, s.proc i = .reading k g' ∧ g = g' ++ [b] ∧ (s.disk.data k)[g'.length]? = some b := by
    intro s' j p hs h1 h2
    rw [goto_proc, hs] at h1
    split at h1
    · rename_i hij
      rcases h2 with h2 | h2
      · rw [h2] at h1; cases h1
      · exact h2 hij.symm h1
    · exact .inl h1
  cases e with
  | die j => exact go rfl h (.inl rfl)
  | fail j =>
    change ((s.fail (jobs j) j).proc i).got = some g at h
    unfold Shared.fail at h
    split at h
    · exact go rfl h (.inl rfl)
    · exact go rfl h (.inl rfl)
    · exact go rfl h (.inl rfl)
    · exact go rfl h (.inl rfl)
    · rename_i heq
      refine go rfl h (.inr fun hij hg => .inl ?_)
      subst hij
      rw [heq]; exact hg
    · exact .inl h
  | step j =>
    change ((s.step (jobs j) j).proc i).got = some g at h
    unfold Shared.step at h
    split at h
    · unfold Shared.create at h
      split at h
      · exact go rfl h (.inl rfl)
      · exact go rfl h (.inl rfl)
    · rename_i heq _
      split at h
      · refine go rfl h (.inr fun hij hg => .inr (.inl ?_))
        subst hij
        cases hg
        exact ⟨rfl, heq⟩
      · exact go rfl h (.inl rfl)
    · split at h
      · exact go rfl h (.inl rfl)
      · exact go rfl h (.inl rfl)
    · rename_i heq
      split at h
      · rename_i hb
        refine go rfl h (.inr fun hij hg => .inr (.inr ?_))
        subst hij
        cases hg
        exact ⟨_, _, _, heq, rfl, hb⟩
      · refine go rfl h (.inr fun hij hg => .inl ?_)
        subst hij
        rw [heq]; exact hg
    · exact go rfl h (.inl rfl)
    · exact .inl h

/-- What has been read: a beginning of the old file, or a splice. -/
def ReadsOK (old new : Str) (begun : Bool) (s : Shared) : Prop :=
  ∀ i g, (s.proc i).got = some g →
    (begun = false → g <+: old) ∧ ∃ j, j ≤ old.length ∧ j ≤ g.length ∧ g <+: old.take j ++ new.drop j

theorem splice_of_prefix {old new g : Str} (h : g <+: old) :
    ∃ j, j ≤ old.length ∧ j ≤ g.length ∧ g <+: old.take j ++ new.drop j := by
  refine ⟨g.length, h.length_le, Nat.le_refl _, ?_⟩
  rw [← List.prefix_iff_eq_take.1 h]
  exact List.prefix_append _ _

theorem take_get {new : Str} {m i : Nat} {b : UInt8} (h : (new.take m)[i]? = some b) : new[i]? = some b := by
  rw [List.getElem?_take] at h
  split at h
  · exact h
  · cases h

theorem reads_next {old new : Str} {w : Nat} {begun : Bool} {s : Shared} {jobs : Nat → FileJob}
    (h : OneSaver old new w begun s) (hr : ReadsOK old new begun s) (hj : OneSaves jobs w new) (e : FileEv) :
    ∃ begun', (begun = true → begun' = true) ∧ OneSaver old new w begun' (s.next jobs e) ∧
      ReadsOK old new begun' (s.next jobs e) ∧
      (begun = false → (s.proc w = .idle ∧ e = .step w) ∨ begun' = false) := by
  obtain ⟨begun', h1, h2, h3⟩ := h.next hj e
  refine ⟨begun', h1, h2, ?_, h3⟩
  intro i g hg
  have key : (begun = false → g <+: old) ∧ ∃ j, j ≤ old.length ∧ j ≤ g.length ∧ g <+: old.take j ++ new.drop j := by
    rcases got_next hg with hg | ⟨rfl, _⟩ | ⟨k, g', b, hp, rfl, hb⟩
    · exact hr i g hg
    · exact ⟨fun _ => List.nil_prefix, 0, by omega, by omega, List.nil_prefix⟩
    · have hk := h.opened i k g' hp
      subst hk
      obtain ⟨hf, j, hj1, hj2, hj3⟩ := hr i g' (by rw [hp]; rfl)
      cases hbg : begun with
      | false =>
        have hp' : g' ++ [b] <+: old := prefix_byte (hf hbg) (by rw [← (h.before hbg).2.1]; exact hb)
        exact ⟨fun _ => hp', splice_of_prefix hp'⟩
      | true =>
        obtain ⟨_, _, m, hd, _⟩ := h.after hbg
        rw [hd] at hb
        refine ⟨fun hx => (by cases hx), j, hj1, by simp; omega, prefix_byte hj3 ?_⟩
        rw [List.getElem?_append_right (by rw [List.length_take]; omega), List.length_take, Nat.min_eq_left hj1,
          List.getElem?_drop, show j + (g'.length - j) = g'.length by omega]
        exact take_get hb
  refine ⟨fun hb => key.1 ?_, key.2⟩
  cases hbg : begun with
  | false => rfl
  | true => rw [h1 hbg] at hb; cases hb

theorem reads_run {old new : Str} {w : Nat} {jobs : Nat → FileJob} (hj : OneSaves jobs w new) (sched : List FileEv) :
    ∀ {begun : Bool} {s : Shared}, OneSaver old new w begun s → ReadsOK old new begun s →
    ∃ begun', (begun = true → begun' = true) ∧ OneSaver old new w begun' (s.run jobs sched) ∧
      ReadsOK old new begun' (s.run jobs sched) := by
  induction sched with
  | nil => intro begun s h hr; exact ⟨begun, id, h, hr⟩
  | cons e sched ih =>
    intro begun s h hr
    obtain ⟨b1, h1, h2, h3, _⟩ := reads_next h hr hj e
    obtain ⟨b2, h4, h5, h6⟩ := ih h2 h3
    exact ⟨b2, fun hb => h4 (h1 hb), h5, h6⟩

/-- Once the file has been emptied, who opens it reads the new one. -/
theorem fresh_run {old new : Str} {w : Nat} {jobs : Nat → FileJob} (hj : OneSaves jobs w new) (i : Nat) (sched : List FileEv) :
    ∀ {s : Shared}, OneSaver old new w true s → (∀ g, (s.proc i).got = some g → g <+: new) →
    ∀ g, ((s.run jobs sched).proc i).got = some g → g <+: new := by
  induction sched with
  | nil => intro s _ hr; exact hr
  | cons e sched ih =>
    intro s h hr
    obtain ⟨b1, h1, h2, _⟩ := h.next hj e
    have hb := h1 rfl
    subst hb
    refine ih h2 ?_
    intro g hg
    rcases got_next hg with hg | ⟨rfl, _⟩ | ⟨k, g', b, hp, rfl, hb⟩
    · exact hr g hg
    · exact List.nil_prefix
    · have hk := h.opened i k g' hp
      subst hk
      obtain ⟨_, _, m, hd, _⟩ := h.after rfl
      rw [hd] at hb
      exact prefix_byte (hr g' (by rw [hp]; rfl)) (take_get hb)

/-- At the start. -/
theorem start_ok (f : Option Str) (new : Str) (w : Nat) :
    OneSaver (f.getD []) new w false (Shared.start f) ∧ ReadsOK (f.getD []) new false (Shared.start f) := by
  cases f with
  | none => exact ⟨⟨by simp [Shared.start], rfl, by simp [Shared.start], fun _ => ⟨.inr ⟨rfl, rfl⟩, rfl, .inl rfl⟩, by simp⟩,
      by simp [ReadsOK, Shared.start, FileProc.got]⟩
  | some d => exact ⟨⟨by simp [Shared.start], rfl, by simp [Shared.start], fun _ => ⟨.inl rfl, rfl, .inl rfl⟩, by simp⟩,
      by simp [ReadsOK, Shared.start, FileProc.got]⟩

/-! ## Every splice can be read -/

theorem goto_same {s : Shared} {i : Nat} {p : FileProc} (h : s.proc i = p) : s.goto i p = s := by
  have : (s.goto i p).proc = s.proc := by
    funext j
    rw [goto_proc]
    split
    · rename_i hji; rw [hji, h]
    · rfl
  unfold Shared.goto at this ⊢
  simp only at this
  rw [this]

theorem shared_goto_goto (s : Shared) (i : Nat) (p q : FileProc) : (s.goto i p).goto i q = s.goto i q := by
  have : ((s.goto i p).goto i q).proc = (s.goto i q).proc := by
    funext j
    rw [goto_proc, goto_proc, goto_proc]
    split <;> rfl
  unfold Shared.goto at this ⊢
  simp only at this ⊢
  rw [this]

theorem read_many {jobs : Nat → FileJob} {i k : Nat} (t : Str) : ∀ {s : Shared} {g : Str}, s.proc i = .reading k g →
    t <+: (s.disk.data k).drop g.length →
    s.run jobs (List.replicate t.length (.step i)) = s.goto i (.reading k (g ++ t)) := by
  induction t with
  | nil =>
    intro s g hp _
    rw [List.append_nil]
    show s = _
    exact (goto_same hp).symm
  | cons b t ih =>
    intro s g hp ht
    rw [List.length_cons, List.replicate_succ, run_cons]
    have hb : (s.disk.data k)[g.length]? = some b := by
      obtain ⟨u, hu⟩ := ht
      have := congrArg (fun l => l[0]?) hu
      simp only [List.getElem?_drop] at this
      simpa using this.symm
    have hs : s.next jobs (.step i) = s.goto i (.reading k (g ++ [b])) := by
      show s.step (jobs i) i = _
      unfold Shared.step
      simp only [hp, hb]
    rw [hs, ih (goto_self _ _ _) ?_]
    · rw [shared_goto_goto, List.append_assoc]; rfl
    · rw [goto_disk, List.length_append, List.length_singleton, ← List.drop_drop]
      obtain ⟨u, hu⟩ := ht
      exact ⟨u, by rw [← hu]; rfl⟩

theorem write_many {jobs : Nat → FileJob} {w k : Nat} {new : Str} (hj : jobs w = .save new) (m : Nat) (hm : m ≤ new.length) :
    ∀ {s : Shared}, s.proc w = .saving k 0 → s.disk.data k = [] →
    (s.run jobs (List.replicate m (.step w))).proc w = .saving k m ∧
    (s.run jobs (List.replicate m (.step w))).disk.data k = new.take m ∧
    (s.run jobs (List.replicate m (.step w))).disk.link = s.disk.link ∧
    ∀ i, i ≠ w → (s.run jobs (List.replicate m (.step w))).proc i = s.proc i := by
  induction m with
  | zero => intro s h1 h2; exact ⟨h1, by simpa [Shared.run] using h2, rfl, fun _ _ => rfl⟩
  | succ m ih =>
    intro s h1 h2
    obtain ⟨a, b, c, d⟩ := ih (by omega) h1 h2
    rw [List.replicate_succ', shared_run_append]
    have hs : ∀ s' : Shared, s'.run jobs [.step w] = s'.step (.save new) w := fun s' => by
      show s'.step (jobs w) w = _
      rw [hj]
    have hb : new[m]? = some (new[m]'(by omega)) := List.getElem?_eq_getElem (by omega)
    rw [hs]
    unfold Shared.step
    simp only [a, hb]
    refine ⟨goto_self _ _ _, ?_, c, fun i hi => ?_⟩
    · rw [goto_disk, b, poke_next hb]
      simp [Shared.write]
    · rw [goto_ne _ _ hi]
      exact d i hi

/-- A schedule in which process `i` reads this splice while process `w` saves. -/
theorem splice_read {old new got : Str} {w i : Nat} {jobs : Nat → FileJob} (hj : OneSaves jobs w new) (hi : i ≠ w)
    (h : Splice old new got) : ∃ sched, ((Shared.start (some old)).run jobs sched).proc i = .read got := by
  obtain ⟨j, hj1, hg⟩ := h
  have hload := hj.2 i hi
  obtain ⟨a, ha, h1, h2⟩ : ∃ a, a ≤ got.length ∧ got.take a <+: old ∧ got.drop a <+: new.drop a := by
    by_cases hlt : got.length ≤ j
    · refine ⟨got.length, Nat.le_refl _, ?_, by simp⟩
      rw [List.take_length]
      have : got <+: old.take j := by
        rw [List.prefix_iff_eq_take] at hg ⊢
        rw [List.take_append_of_le_length (by rw [List.length_take]; omega)] at hg
        exact hg
      exact this.trans (List.take_prefix _ _)
    · obtain ⟨u, hu⟩ := hg
      refine ⟨j, by omega, ?_, ?_⟩
      · have : got.take j = old.take j := by
          have := congrArg (List.take j) hu
          rw [List.take_append_of_le_length (by omega), List.take_append_of_le_length (by rw [List.length_take]; omega),
            List.take_take, Nat.min_self] at this
          exact this
        rw [this]
        exact List.take_prefix _ _
      · have := congrArg (List.drop j) hu
        rw [List.drop_append_of_le_length (by omega), List.drop_append_of_le_length (by rw [List.length_take]; omega),
          List.drop_eq_nil_of_le (as := old.take j) (by rw [List.length_take]; omega), List.nil_append] at this
        exact ⟨u, this⟩
  refine ⟨.step i :: (List.replicate (got.take a).length (.step i) ++ (.step w :: (List.replicate new.length (.step w) ++
    (List.replicate (got.drop a).length (.step i) ++ [.fail i])))), ?_⟩
  rw [run_cons]
  have e1 : (Shared.start (some old)).next jobs (.step i) = (Shared.start (some old)).goto i (.reading 0 []) := by
    show (Shared.start (some old)).step (jobs i) i = _
    rw [hload]
    rfl
  rw [e1, shared_run_append, read_many (k := 0) (g := []) _ (goto_self _ _ _) (by exact h1), run_cons, shared_run_append, shared_run_append]
  generalize hs : ((Shared.start (some old)).goto i (.reading 0 [])).goto i (.reading 0 ([] ++ got.take a)) = s
  have p1 : s.proc i = .reading 0 (got.take a) := by rw [← hs, goto_self]; rfl
  have p2 : s.proc w = .idle := by rw [← hs, goto_ne _ _ (Ne.symm hi), goto_ne _ _ (Ne.symm hi)]; rfl
  have p3 : s.disk.link = some 0 := by rw [← hs]; rfl
  have e2 : s.next jobs (.step w) = (s.write 0 []).goto w (.saving 0 0) := by
    show s.step (jobs w) w = _
    rw [hj.1]
    unfold Shared.step
    simp only [p2]
    unfold Shared.create
    rw [p3]
  rw [e2]
  obtain ⟨q1, q2, q3, q4⟩ := write_many (w := w) (k := 0) hj.1 new.length (Nat.le_refl _)
    (s := (s.write 0 []).goto w (.saving 0 0)) (goto_self _ _ _) (by simp [Shared.write])
  generalize ((s.write 0 []).goto w (.saving 0 0)).run jobs (List.replicate new.length (.step w)) = s' at q1 q2 q3 q4 ⊢
  rw [List.take_length] at q2
  have p4 : s'.proc i = .reading 0 (got.take a) := by
    rw [q4 i hi, goto_ne _ _ hi]
    exact p1
  rw [read_many (k := 0) _ p4 (by rw [q2, List.length_take, Nat.min_eq_left ha]; exact h2)]
  rw [List.take_append_drop]
  show ((s'.goto i (.reading 0 got)).fail (jobs i) i).proc i = _
  rw [hload]
  unfold Shared.fail
  simp

/-! ## Several processes save the same -/

/-- Process `a` was the last to empty the file: what it has written is there, and there is no more than it will
write. -/
structure Led (c : Str) (a : Nat) (jobs : Nat → FileJob) (s : Shared) : Prop where
  link : ∃ k, s.disk.link = some k ∧ (∀ i f p, s.proc i = .saving f p → f = k) ∧
    (s.disk.data k).length ≤ c.length ∧
    (s.proc a = .dead ∨ ∃ o, (s.proc a = .saving k o ∨ (s.proc a = .saved ∧ o = c.length)) ∧ o ≤ c.length ∧
      (s.disk.data k).take o = c.take o)
  quiet : ∀ i, s.proc i ≠ .removing
  savers : ∀ i f p, s.proc i = .saving f p → jobs i = .save c

theorem poke_length {c d : Str} {p : Nat} (hd : d.length ≤ c.length) (hp : p < c.length) (b : UInt8) :
    (pokeByte d p b).length ≤ c.length := by
  unfold pokeByte
  simp only [List.length_append, List.length_take, List.length_replicate, List.length_cons, List.length_drop]
  omega

theorem poke_get {d : Str} {p i : Nat} {b : UInt8} : (pokeByte d p b)[i]? =
    if i = p then some b else if i < p then (if i < d.length then d[i]? else some 0) else d[i]? := by
  unfold pokeByte
  rw [List.append_assoc]
  by_cases h1 : i < (d.take p).length
  · rw [List.getElem?_append_left h1]
    rw [List.length_take] at h1
    rw [if_neg (by omega), if_pos (by omega), if_pos (by omega), List.getElem?_take, if_pos (by omega)]
  · rw [List.getElem?_append_right (by omega)]
    rw [List.length_take] at h1 ⊢
    by_cases h2 : i - min p d.length < p - d.length
    · rw [List.getElem?_append_left (by rw [List.length_replicate]; exact h2), List.getElem?_replicate, if_pos h2,
        if_neg (by omega), if_pos (by omega), if_neg (by omega)]
    · rw [List.getElem?_append_right (by rw [List.length_replicate]; omega), List.length_replicate]
      by_cases h3 : i = p
      · rw [if_pos h3, show i - min p d.length - (p - d.length) = 0 by omega]
        rfl
      · rw [if_neg h3, if_neg (by omega)]
        obtain ⟨n, hn⟩ : ∃ n, i - min p d.length - (p - d.length) = n + 1 := ⟨i - p - 1, by omega⟩
        rw [hn, List.getElem?_cons_succ, List.getElem?_drop]
        by_cases h4 : p ≤ d.length
        · rw [show p + 1 + n = i by omega]
        · rw [List.getElem?_eq_none (by omega), List.getElem?_eq_none (by omega)]

theorem take_eq_iff {c d : Str} {o : Nat} :
    d.take o = c.take o ↔ ∀ i, i < o → d[i]? = c[i]? := by
  constructor
  · intro he i hi
    have := congrArg (fun l => l[i]?) he
    simp only [List.getElem?_take, if_pos hi] at this
    exact this
  · intro he
    apply List.ext_getElem?
    intro i
    rw [List.getElem?_take, List.getElem?_take]
    split
    · exact he i (by assumption)
    · rfl

/-- A byte of `c` written at its place. -/
theorem poke_take {c d : Str} {p o : Nat} {b : UInt8} (hb : c[p]? = some b) (ho : o ≤ c.length) (h : d.take o = c.take o) :
    (pokeByte d p b).take o = c.take o := by
  rw [take_eq_iff] at h ⊢
  intro i hi
  rw [poke_get]
  have hlt : i < d.length := by
    have := h i hi
    rw [List.getElem?_eq_getElem (show i < c.length by omega)] at this
    exact (List.getElem?_eq_some_iff.1 this).1
  split
  · rename_i e; rw [e, hb]
  · split <;> exact h i hi

theorem poke_take_succ {c d : Str} {p : Nat} {b : UInt8} (hb : c[p]? = some b) (h : d.take p = c.take p) :
    (pokeByte d p b).take (p + 1) = c.take (p + 1) := by
  have hp : p < c.length := (List.getElem?_eq_some_iff.1 hb).1
  have h1 := poke_take hb (Nat.le_of_lt hp) h
  rw [take_eq_iff] at h1 ⊢
  intro i hi
  by_cases hip : i = p
  · subst hip
    rw [poke_get, if_pos rfl, hb]
  · exact h1 i (by omega)

/-- Another process gets on without beginning to save or removing the file. -/
theorem Led.goto {c : Str} {a : Nat} {jobs : Nat → FileJob} {s : Shared} (h : Led c a jobs s) {i : Nat} {p : FileProc}
    (hi : i = a → p = .dead ∨ (p = .saved ∧ ∃ k, s.proc i = .saving k c.length)) (h1 : ∀ f q, p ≠ .saving f q)
    (h2 : p ≠ .removing) : Led c a jobs (s.goto i p) := by
  obtain ⟨⟨k, hk, hs, hl, ha⟩, hq, hv⟩ := h
  refine ⟨⟨k, hk, ?_, hl, ?_⟩, ?_, ?_⟩
  · intro j f q hj
    rw [goto_proc] at hj
    split at hj
    · exact absurd hj (h1 f q)
    · exact hs j f q hj
  · by_cases hia : i = a
    · subst hia
      rw [goto_self]
      rcases hi rfl with hd | ⟨hd, k', hk'⟩
      · exact .inl hd
      · right
        rcases ha with ha | ⟨o, ho, hoc, ht⟩
        · rw [ha] at hk'; cases hk'
        · rcases ho with ho | ⟨ho, _⟩
          · rw [ho] at hk'
            cases hk'
            exact ⟨_, .inr ⟨hd, rfl⟩, Nat.le_refl _, ht⟩
          · rw [ho] at hk'; cases hk'
    · rw [goto_ne _ _ (Ne.symm hia)]
      exact ha
  · intro j
    rw [goto_proc]
    split
    · exact h2
    · exact hq j
  · intro j f q hj
    rw [goto_proc] at hj
    split at hj
    · exact absurd hj (h1 f q)
    · exact hv j f q hj

theorem Led.next {c : Str} {a : Nat} {jobs : Nat → FileJob} {s : Shared} (h : Led c a jobs s) (hj : AllSave jobs c)
    (ha : jobs a = .save c) {e : FileEv} (he : ∀ i, e = .fail i → jobs i = .load)
    (hb : ∀ i, e = .step i → jobs i = .save c → s.proc i ≠ .idle) : Led c a jobs (s.next jobs e) := by
  have hna : s.proc a = .dead ∨ s.proc a = .saved ∨ ∃ k o, s.proc a = .saving k o := by
    obtain ⟨⟨k, _, _, _, h⟩, _⟩ := h
    rcases h with h | ⟨o, h | h, _⟩
    · exact .inl h
    · exact .inr (.inr ⟨k, o, h⟩)
    · exact .inr (.inl h.1)
  cases e with
  | die i => exact h.goto (fun _ => .inl rfl) (by simp) (by simp)
  | fail i =>
    have hl := he i rfl
    show Led c a jobs (s.fail (jobs i) i)
    have hia : i ≠ a := by rintro rfl; rw [ha] at hl; cases hl
    rw [hl]
    unfold Shared.fail
    split
    · rename_i e; cases e
    · exact h.goto (fun e => absurd e hia) (by simp) (by simp)
    · rename_i heq
      have := h.savers i _ _ heq
      rw [hl] at this; cases this
    · rename_i heq; exact absurd heq (h.quiet i)
    · exact h.goto (fun e => absurd e hia) (by simp) (by simp)
    · exact h
  | step i =>
    show Led c a jobs (s.step (jobs i) i)
    have load_ne : jobs i = .load → i ≠ a := by rintro hl rfl; rw [ha] at hl; cases hl
    cases hp : s.proc i with
    | idle =>
      have hl : jobs i = .load := (hj i).resolve_right fun hs => hb i rfl hs hp
      have hia := load_ne hl
      rw [hl]
      unfold Shared.step
      simp only [hp]
      split
      · exact h.goto (fun e => absurd e hia) (by simp) (by simp)
      · exact h.goto (fun e => absurd e hia) (by simp) (by simp)
    | saving f p =>
      have hs := h.savers i f p hp
      rw [hs]
      unfold Shared.step
      simp only [hp]
      cases hc : c[p]? with
      | none =>
        simp only
        refine h.goto (fun hia => .inr ⟨rfl, ?_⟩) (by simp) (by simp)
        subst hia
        obtain ⟨⟨k, _, _, _, hd⟩, _, _⟩ := h
        rcases hd with hd | ⟨o, hd | hd, ho, _⟩
        · rw [hd] at hp; cases hp
        · rw [hd] at hp
          cases hp
          have := List.getElem?_eq_none_iff.1 hc
          have e : p = c.length := by omega
          exact ⟨_, e ▸ hd⟩
        · rw [hd.1] at hp; cases hp
      | some b =>
        simp only
        have hpc : p < c.length := (List.getElem?_eq_some_iff.1 hc).1
        obtain ⟨⟨k, hk, hss, hl, hd⟩, hq, hv⟩ := h
        have hf := hss i f p hp
        subst hf
        have hdata : ((s.write f (pokeByte (s.disk.data f) p b)).goto i (.saving f (p + 1))).disk.data f =
            pokeByte (s.disk.data f) p b := by simp [Shared.write]
        refine ⟨⟨f, hk, ?_, by rw [hdata]; exact poke_length hl hpc b, ?_⟩, ?_, ?_⟩
        · intro j f' q hj'
          rw [goto_proc] at hj'
          split at hj'
          · cases hj'; rfl
          · exact hss j f' q hj'
        · rw [hdata]
          by_cases hia : i = a
          · subst hia
            rw [goto_self]
            right
            refine ⟨p + 1, .inl rfl, hpc, poke_take_succ hc ?_⟩
            rcases hd with hd | ⟨o, hd | hd, ho, ht⟩
            · rw [hd] at hp; cases hp
            · rw [hd] at hp; cases hp; exact ht
            · rw [hd.1] at hp; cases hp
          · rw [goto_ne _ _ (Ne.symm hia)]
            rcases hd with hd | ⟨o, hd, ho, ht⟩
            · exact .inl hd
            · exact .inr ⟨o, hd, ho, poke_take hc ho ht⟩
        · intro j
          rw [goto_proc]
          split
          · simp
          · exact hq j
        · intro j f' q hj'
          rw [goto_proc] at hj'
          split at hj'
          · rename_i e; rw [e]; exact hs
          · exact hv j f' q hj'
    | removing => exact absurd hp (h.quiet i)
    | reading k g =>
      have hia : i ≠ a := by
        rintro rfl
        rcases hna with h | h | ⟨_, _, h⟩ <;> rw [h] at hp <;> cases hp
      unfold Shared.step
      simp only [hp]
      split
      · exact h.goto (fun e => absurd e hia) (by simp) (by simp)
      · exact h.goto (fun e => absurd e hia) (by simp) (by simp)
    | read g => unfold Shared.step; simp only [hp]; exact h
    | saved => unfold Shared.step; simp only [hp]; exact h
    | notSaved => unfold Shared.step; simp only [hp]; exact h
    | noFile => unfold Shared.step; simp only [hp]; exact h
    | dead => unfold Shared.step; simp only [hp]; exact h

/-- What holds before and after the first process has begun to save. -/
structure SharedOK (c : Str) (jobs : Nat → FileJob) (s : Shared) : Prop where
  link : ∀ i f p, s.proc i = .saving f p → s.disk.link = some f
  quiet : ∀ i, s.proc i ≠ .removing
  savers : ∀ i f p, s.proc i = .saving f p → jobs i = .save c

theorem Led.ok {c : Str} {a : Nat} {jobs : Nat → FileJob} {s : Shared} (h : Led c a jobs s) : SharedOK c jobs s := by
  obtain ⟨⟨k, hk, hs, _⟩, hq, hv⟩ := h
  exact ⟨fun i f p hp => by rw [hs i f p hp, hk], hq, hv⟩

/-- A process that begins to save is the last to have emptied the file. -/
theorem SharedOK.begin {c : Str} {jobs : Nat → FileJob} {s : Shared} (h : SharedOK c jobs s) {a : Nat}
    (ha : jobs a = .save c) (hi : s.proc a = .idle) : Led c a jobs (s.next jobs (.step a)) := by
  have he : ∃ (d : SharedDisk) (k : Nat), s.next jobs (.step a) = ({ disk := d, proc := s.proc } : Shared).goto a (.saving k 0) ∧
      d.link = some k ∧ d.data k = [] ∧ ∀ i f p, s.proc i = .saving f p → f = k := by
    show ∃ (d : SharedDisk) (k : Nat), s.step (jobs a) a = _ ∧ _
    rw [ha]
    unfold Shared.step
    simp only [hi]
    unfold Shared.create
    cases hl : s.disk.link with
    | some k =>
      simp only
      refine ⟨_, k, rfl, hl, by simp, fun i f p hp => ?_⟩
      have := h.link i f p hp
      rw [hl] at this
      cases this
      rfl
    | none =>
      simp only
      refine ⟨_, s.disk.next, rfl, rfl, by simp, fun i f p hp => ?_⟩
      have := h.link i f p hp
      rw [hl] at this
      cases this
  obtain ⟨d, k, he, hl, hd, hs⟩ := he
  rw [he]
  refine ⟨⟨k, hl, ?_, by rw [goto_disk, hd]; simp, .inr ⟨0, .inl (goto_self _ _ _), by omega, by simp⟩⟩, ?_, ?_⟩
  · intro j f q hj
    rw [goto_proc] at hj
    split at hj
    · cases hj; rfl
    · exact hs j f q hj
  · intro j
    rw [goto_proc]
    split
    · simp
    · exact h.quiet j
  · intro j f q hj
    rw [goto_proc] at hj
    split at hj
    · rename_i e; rw [e]; exact ha
    · exact h.savers j f q hj

/-- No process has begun to save. -/
def NoneBegun (c : Str) (jobs : Nat → FileJob) (s : Shared) : Prop :=
  ∀ i, (jobs i = .save c → s.proc i = .idle ∨ s.proc i = .dead) ∧ (∀ f p, s.proc i ≠ .saving f p) ∧ s.proc i ≠ .removing

theorem NoneBegun.ok {c : Str} {jobs : Nat → FileJob} {s : Shared} (h : NoneBegun c jobs s) : SharedOK c jobs s :=
  ⟨fun i f p hp => absurd hp ((h i).2.1 f p), fun i => (h i).2.2, fun i f p hp => absurd hp ((h i).2.1 f p)⟩

theorem NoneBegun.next {c : Str} {jobs : Nat → FileJob} {s : Shared} (h : NoneBegun c jobs s) (hj : AllSave jobs c)
    {e : FileEv} (he : ∀ i, e = .fail i → jobs i = .load) (hb : ∀ i, e = .step i → jobs i = .save c → s.proc i ≠ .idle) :
    NoneBegun c jobs (s.next jobs e) := by
  have go : ∀ {i : Nat} {p : FileProc}, (jobs i = .save c → p = .dead) → (∀ f q, p ≠ .saving f q) → p ≠ .removing →
      NoneBegun c jobs (s.goto i p) := by
    intro i p h1 h2 h3 j
    rw [goto_proc]
    split
    · rename_i hji
      exact ⟨fun hs => .inr (h1 (hji ▸ hs)), h2, h3⟩
    · exact h j
  have no : ∀ {i : Nat}, jobs i = .load → ∀ {p : FileProc}, jobs i = .save c → p = .dead := by
    intro i hl p hs
    rw [hl] at hs; cases hs
  cases e with
  | die i => exact go (fun _ => rfl) (by simp) (by simp)
  | fail i =>
    have hl := he i rfl
    show NoneBegun c jobs (s.fail (jobs i) i)
    unfold Shared.fail
    split
    · rename_i e; rw [hl] at e; cases e
    · exact go (no hl) (by simp) (by simp)
    · rename_i heq; exact absurd heq ((h i).2.1 _ _)
    · rename_i heq; exact absurd heq (h i).2.2
    · exact go (no hl) (by simp) (by simp)
    · exact h
  | step i =>
    show NoneBegun c jobs (s.step (jobs i) i)
    rcases hj i with hl | hs
    · unfold Shared.step
      split
      · rename_i e; rw [hl] at e; cases e
      · split
        · exact go (no hl) (by simp) (by simp)
        · exact go (no hl) (by simp) (by simp)
      · rename_i heq _; exact absurd heq ((h i).2.1 _ _)
      · split
        · exact go (no hl) (by simp) (by simp)
        · exact go (no hl) (by simp) (by simp)
      · rename_i heq; exact absurd heq (h i).2.2
      · exact h
    · have hi := ((h i).1 hs).resolve_left (hb i rfl hs)
      unfold Shared.step
      simp only [hi]
      exact h

/-- At every moment no process has begun to save, or one was the last to begin. -/
def SomeLed (c : Str) (jobs : Nat → FileJob) (s : Shared) : Prop :=
  NoneBegun c jobs s ∨ ∃ a, jobs a = .save c ∧ Led c a jobs s

theorem SomeLed.ok {c : Str} {jobs : Nat → FileJob} {s : Shared} (h : SomeLed c jobs s) : SharedOK c jobs s := by
  rcases h with h | ⟨_, _, h⟩
  · exact h.ok
  · exact h.ok

theorem SomeLed.next {c : Str} {jobs : Nat → FileJob} {s : Shared} (h : SomeLed c jobs s) (hj : AllSave jobs c)
    {e : FileEv} (he : ∀ i, e = .fail i → jobs i = .load) : SomeLed c jobs (s.next jobs e) := by
  by_cases hb : ∃ i, e = .step i ∧ jobs i = .save c ∧ s.proc i = .idle
  · obtain ⟨i, rfl, hs, hi⟩ := hb
    exact .inr ⟨i, hs, h.ok.begin hs hi⟩
  · have hb' : ∀ i, e = .step i → jobs i = .save c → s.proc i ≠ .idle := fun i h1 h2 h3 => hb ⟨i, h1, h2, h3⟩
    rcases h with h | ⟨a, ha, h⟩
    · exact .inl (h.next hj he hb')
    · exact .inr ⟨a, ha, h.next hj ha he hb'⟩

theorem someLed_run {c : Str} {jobs : Nat → FileJob} (hj : AllSave jobs c) (sched : List FileEv) (hw : SavesWork jobs sched) :
    ∀ {s : Shared}, SomeLed c jobs s → SomeLed c jobs (s.run jobs sched) := by
  induction sched with
  | nil => intro s h; exact h
  | cons e sched ih =>
    intro s h
    exact ih (fun i hi => hw i (by simp [hi])) (h.next hj fun i hi => hw i (by simp [hi]))

theorem someLed_start (c : Str) (jobs : Nat → FileJob) (f : Option Str) : SomeLed c jobs (Shared.start f) := by
  refine .inl fun i => ?_
  cases f <;> simp [Shared.start]

/-- A process that has begun does not become idle. -/
theorem idle_next {jobs : Nat → FileJob} {s : Shared} {e : FileEv} {i : Nat} (h : (s.next jobs e).proc i = .idle) :
    s.proc i = .idle := by
  have go : ∀ {s' : Shared} {j : Nat} {p : FileProc}, s'.proc = s.proc → p ≠ .idle → (s'.goto j p).proc i = .idle →
      s.proc i = .idle := by
    intro s' j p hs hp h1
    rw [goto_proc, hs] at h1
    split at h1
    · exact absurd h1 hp
    · exact h1
  cases e with
  | die j => exact go rfl (by simp) h
  | fail j =>
    change (s.fail (jobs j) j).proc i = .idle at h
    unfold Shared.fail at h
    split at h
    all_goals first | exact go rfl (by simp) h | exact h
  | step j =>
    change (s.step (jobs j) j).proc i = .idle at h
    unfold Shared.step at h
    split at h
    · unfold Shared.create at h
      split at h <;> exact go rfl (by simp) h
    · split at h <;> exact go rfl (by simp) h
    · split at h <;> exact go rfl (by simp) h
    · split at h <;> exact go rfl (by simp) h
    · exact go rfl (by simp) h
    · exact h

theorem idle_run {jobs : Nat → FileJob} {i : Nat} (sched : List FileEv) : ∀ {s : Shared},
    (s.run jobs sched).proc i = .idle → s.proc i = .idle := by
  induction sched with
  | nil => intro s h; exact h
  | cons e sched ih => intro s h; exact idle_next (ih h)

/-- A process stays the last to have begun as long as no other begins. -/
theorem led_run {c : Str} {a : Nat} {jobs : Nat → FileJob} (hj : AllSave jobs c) (ha : jobs a = .save c) (sched : List FileEv)
    (hw : SavesWork jobs sched) : ∀ {s : Shared}, Led c a jobs s →
    (∀ i, jobs i = .save c → s.proc i = .idle → (s.run jobs sched).proc i = .idle) → Led c a jobs (s.run jobs sched) := by
  induction sched with
  | nil => intro s h _; exact h
  | cons e sched ih =>
    intro s h hi
    rw [run_cons] at hi ⊢
    refine ih (fun i hm => hw i (by simp [hm])) (h.next hj ha (fun i he => hw i (by simp [he])) ?_) ?_
    · intro i he hs hidle
      have := idle_run sched (hi i hs hidle)
      subst he
      change (s.step (jobs i) i).proc i = .idle at this
      rw [hs] at this
      unfold Shared.step at this
      simp only [hidle] at this
      unfold Shared.create at this
      split at this <;> · rw [goto_self] at this; cases this
    · intro i hs hidle
      exact hi i hs (idle_next hidle)

/-- When the last to have begun is done, the file is complete. -/
theorem Led.done {c : Str} {a : Nat} {jobs : Nat → FileJob} {s : Shared} (h : Led c a jobs s) (hd : s.proc a = .saved) :
    s.file = some c := by
  obtain ⟨⟨k, hk, _, hl, ha⟩, _, _⟩ := h
  unfold Shared.file
  rw [hk, Option.map_some]
  rcases ha with ha | ⟨o, ha | ⟨_, rfl⟩, _, ht⟩
  · rw [hd] at ha; cases ha
  · rw [hd] at ha; cases ha
  · rw [List.take_length, List.take_of_length_le hl] at ht
    rw [ht]

/-! ## A new file beside one that was removed -/

/-- Every file that has the name or is being written was made before the next one. -/
structure Numbered (jobs : Nat → FileJob) (s : Shared) : Prop where
  link : ∀ k, s.disk.link = some k → k < s.disk.next
  saving : ∀ i k p, s.proc i = .saving k p → k < s.disk.next ∧ jobs i ≠ .load

theorem Numbered.goto {jobs : Nat → FileJob} {s : Shared} (h : Numbered jobs s) {i : Nat} {q : FileProc}
    (hq : ∀ k p, q = .saving k p → k < s.disk.next ∧ jobs i ≠ .load) : Numbered jobs (s.goto i q) := by
  refine ⟨h.link, fun j k p hj => ?_⟩
  rw [goto_proc] at hj
  split at hj
  · rename_i e; subst e; exact hq k p hj
  · exact h.saving j k p hj

theorem Numbered.next {jobs : Nat → FileJob} {s : Shared} (h : Numbered jobs s) (e : FileEv) : Numbered jobs (s.next jobs e) := by
  have stay : ∀ {i : Nat} {q : FileProc}, (∀ k p, q ≠ .saving k p) → Numbered jobs (s.goto i q) := fun hq =>
    h.goto fun k p e => absurd e (hq k p)
  cases e with
  | die j => exact stay (by simp)
  | fail j =>
    change Numbered jobs (s.fail (jobs j) j)
    unfold Shared.fail
    split
    all_goals first | exact stay (by simp) | exact h
  | step j =>
    change Numbered jobs (s.step (jobs j) j)
    unfold Shared.step
    split
    · rename_i c hp hc
      have hl : jobs j ≠ .load := by rw [hc]; simp
      unfold Shared.create
      split
      · rename_i k hk
        exact Numbered.goto (s := s.write k []) ⟨h.link, h.saving⟩ fun k' p e => by cases e; exact ⟨h.link k hk, hl⟩
      · refine Numbered.goto (s := Shared.write
          { s with disk := { s.disk with link := some s.disk.next, next := s.disk.next + 1 } } s.disk.next []) ⟨fun k hk => ?_, fun i k p hp =>
          ⟨Nat.lt_succ_of_lt (h.saving i k p hp).1, (h.saving i k p hp).2⟩⟩ fun k' p e => ?_
        · cases hk; exact Nat.lt_succ_self _
        · cases e; exact ⟨Nat.lt_succ_self _, hl⟩
    · split <;> exact stay (by simp)
    · rename_i k pos c hp _
      split
      · exact Numbered.goto (s := s.write k _) ⟨h.link, h.saving⟩ fun k' p e => by cases e; exact h.saving _ _ _ hp
      · exact stay (by simp)
    · split <;> exact stay (by simp)
    · exact Numbered.goto (s := { s with disk := { s.disk with link := none } }) ⟨fun k hk => by simp at hk, h.saving⟩
        fun k' p e => by cases e
    · exact h

theorem numbered_run {jobs : Nat → FileJob} (sched : List FileEv) : ∀ {s : Shared}, Numbered jobs s →
    Numbered jobs (s.run jobs sched) := by
  induction sched with
  | nil => intro s h; exact h
  | cons e sched ih => intro s h; exact ih (h.next e)

theorem numbered_start (jobs : Nat → FileJob) (f : Option Str) : Numbered jobs (Shared.start f) := by
  cases f with
  | none => exact ⟨fun k h => (by cases h), fun i k p h => (by cases h)⟩
  | some d => exact ⟨fun k h => (by cases h; exact Nat.lt_succ_self _), fun i k p h => (by cases h)⟩

/-- Process `a` writes the file with the name, and nobody else does. -/
structure SoleWriter (jobs : Nat → FileJob) (c : Str) (a : Nat) (s : Shared) : Prop where
  own : ∃ n, s.disk.link = some n ∧
    ((∃ p, s.proc a = .saving n p ∧ s.disk.data n = c.take p) ∨ (s.proc a = .saved ∧ s.disk.data n = c) ∨ s.proc a = .dead) ∧
    ∀ j, j ≠ a → ∀ k p, s.proc j = .saving k p → k ≠ n ∧ jobs j ≠ .load
  quiet : ∀ j, j ≠ a → s.proc j ≠ .removing

theorem SoleWriter.other {jobs : Nat → FileJob} {c : Str} {a : Nat} {s : Shared} (h : SoleWriter jobs c a s) {i : Nat} (hi : i ≠ a) {q : FileProc}
    (hq : ∀ k p, q ≠ .saving k p) (hr : q ≠ .removing) : SoleWriter jobs c a (s.goto i q) := by
  obtain ⟨⟨n, h1, h2, h3⟩, h4⟩ := h
  refine ⟨⟨n, h1, ?_, ?_⟩, ?_⟩
  · rw [goto_ne _ _ (Ne.symm hi)]; exact h2
  · intro j hj k p hp
    rw [goto_proc] at hp
    split at hp
    · exact absurd hp (hq k p)
    · exact h3 j hj k p hp
  · intro j hj hp
    rw [goto_proc] at hp
    split at hp
    · exact hr hp
    · exact h4 j hj hp

theorem SoleWriter.next {c : Str} {a : Nat} {jobs : Nat → FileJob} {s : Shared} (h : SoleWriter jobs c a s) (ha : jobs a = .save c) {e : FileEv}
    (hf : ∀ i, e = .fail i → jobs i = .load) (hn : ∀ i c', e = .step i → i ≠ a → jobs i = .save c' → s.proc i ≠ .idle) :
    SoleWriter jobs c a (s.next jobs e) := by
  obtain ⟨⟨n, h1, h2, h3⟩, h4⟩ := id h
  cases e with
  | die j =>
    by_cases hj : j = a
    · subst hj
      refine ⟨⟨n, h1, .inr (.inr (goto_self _ _ _)), fun i hi k p hp => ?_⟩, fun i hi hp => ?_⟩
      · rw [Shared.next, goto_ne _ _ hi] at hp; exact h3 i hi k p hp
      · rw [Shared.next, goto_ne _ _ hi] at hp; exact h4 i hi hp
    · exact h.other hj (by simp) (by simp)
  | fail j =>
    have hl := hf j rfl
    have hj : j ≠ a := by rintro rfl; rw [ha] at hl; cases hl
    change SoleWriter jobs c a (s.fail (jobs j) j)
    unfold Shared.fail
    split
    · exact h.other hj (by simp) (by simp)
    · exact h.other hj (by simp) (by simp)
    · rename_i k p hp
      exact absurd hl (h3 j hj k p hp).2
    · exact h.other hj (by simp) (by simp)
    · exact h.other hj (by simp) (by simp)
    · exact h
  | step j =>
    change SoleWriter jobs c a (s.step (jobs j) j)
    by_cases hj : j = a
    · subst hj
      rw [ha]
      rcases h2 with ⟨p, hp, hd⟩ | ⟨hp, hd⟩ | hp
      · unfold Shared.step
        rw [hp]
        simp only
        cases hb : c[p]? with
        | some b =>
          simp only
          refine ⟨⟨n, h1, .inl ⟨p + 1, goto_self _ _ _, ?_⟩, fun i hi k q hq => ?_⟩, fun i hi hq => ?_⟩
          · change (if n = n then _ else _) = _
            rw [if_pos rfl, hd, poke_next hb]
          · rw [goto_ne _ _ hi] at hq; exact h3 i hi k q hq
          · rw [goto_ne _ _ hi] at hq; exact h4 i hi hq
        | none =>
          simp only
          refine ⟨⟨n, h1, .inr (.inl ⟨goto_self _ _ _, ?_⟩), fun i hi k q hq => ?_⟩, fun i hi hq => ?_⟩
          · rw [goto_disk, hd, List.take_of_length_le (List.getElem?_eq_none_iff.1 hb)]
          · rw [goto_ne _ _ hi] at hq; exact h3 i hi k q hq
          · rw [goto_ne _ _ hi] at hq; exact h4 i hi hq
      · unfold Shared.step; rw [hp]; exact h
      · unfold Shared.step; rw [hp]; exact h
    · unfold Shared.step
      split
      · rename_i c' hp hjob
        exact absurd hp (hn j c' rfl hj hjob)
      · split <;> exact h.other hj (by simp) (by simp)
      · rename_i k pos c' hp hjob
        split
        · have hk := h3 j hj k pos hp
          refine ⟨⟨n, h1, ?_, ?_⟩, ?_⟩
          · rw [goto_ne _ _ (Ne.symm hj)]
            have : ∀ d, (s.write k d).disk.data n = s.disk.data n := fun d => if_neg (Ne.symm hk.1)
            simp only [goto_disk, this]
            exact h2
          · intro i hi k' p hq
            rw [goto_proc] at hq
            split at hq
            · rename_i e; subst e; cases hq; exact hk
            · exact h3 i hi k' p hq
          · intro i hi hq
            rw [goto_proc] at hq
            split at hq
            · cases hq
            · exact h4 i hi hq
        · exact h.other hj (by simp) (by simp)
      · split <;> exact h.other hj (by simp) (by simp)
      · rename_i hp; exact absurd hp (h4 j hj)
      · exact h

theorem SoleWriter.begin {c : Str} {a : Nat} {jobs : Nat → FileJob} {s : Shared} (h : Numbered jobs s) (ha : jobs a = .save c)
    (hf : s.file = none) (hi : s.proc a = .idle) (hr : ∀ j, s.proc j ≠ .removing) : SoleWriter jobs c a (s.next jobs (.step a)) := by
  have hl : s.disk.link = none := by
    unfold Shared.file at hf
    exact Option.map_eq_none_iff.1 hf
  change SoleWriter jobs c a (s.step (jobs a) a)
  rw [ha]
  unfold Shared.step
  rw [hi]
  simp only
  unfold Shared.create
  rw [hl]
  simp only
  refine ⟨⟨s.disk.next, rfl, .inl ⟨0, goto_self _ _ _, if_pos rfl⟩, fun j hj k p hp => ?_⟩, fun j hj hp => ?_⟩
  · rw [goto_ne _ _ hj] at hp
    obtain ⟨h1, h2⟩ := h.saving j k p hp
    exact ⟨Nat.ne_of_lt h1, h2⟩
  · rw [goto_ne _ _ hj] at hp
    exact hr j hp

theorem alone_run {c : Str} {a : Nat} {jobs : Nat → FileJob} (ha : jobs a = .save c) (sched : List FileEv)
    (hw : SavesWork jobs sched) : ∀ {s : Shared}, SoleWriter jobs c a s →
    (∀ i, i ≠ a → jobs i ≠ .load → s.proc i = .idle → (s.run jobs sched).proc i = .idle) → SoleWriter jobs c a (s.run jobs sched) := by
  induction sched with
  | nil => intro s h _; exact h
  | cons e sched ih =>
    intro s h hi
    rw [run_cons] at hi ⊢
    refine ih (fun i hm => hw i (by simp [hm])) (h.next ha (fun i he => hw i (by simp [he])) ?_) ?_
    · intro i c' he hia hs hidle
      have := idle_run sched (hi i hia (by rw [hs]; simp) hidle)
      subst he
      change (s.step (jobs i) i).proc i = .idle at this
      rw [hs] at this
      unfold Shared.step at this
      simp only [hidle] at this
      unfold Shared.create at this
      split at this <;> · rw [goto_self] at this; cases this
    · intro i hia hs hidle
      exact hi i hia hs (idle_next hidle)

/-- Only its own calls change where a process is. -/
theorem untouched {jobs : Nat → FileJob} {j : Nat} (sched : List FileEv)
    (h : ∀ e ∈ sched, e ≠ .step j ∧ e ≠ .fail j ∧ e ≠ .die j) : ∀ {s : Shared}, (s.run jobs sched).proc j = s.proc j := by
  induction sched with
  | nil => intro s; rfl
  | cons e sched ih =>
    intro s
    rw [run_cons, ih fun e' h' => h e' (List.mem_cons_of_mem _ h')]
    obtain ⟨h1, h2, h3⟩ := h e (by simp)
    cases e with
    | die i =>
      have : j ≠ i := by rintro rfl; exact h3 rfl
      exact goto_ne _ _ this
    | fail i =>
      have : j ≠ i := by rintro rfl; exact h2 rfl
      change (s.fail (jobs i) i).proc j = _
      unfold Shared.fail
      split
      all_goals first | exact goto_ne _ _ this | rfl
    | step i =>
      have : j ≠ i := by rintro rfl; exact h1 rfl
      change (s.step (jobs i) i).proc j = _
      unfold Shared.step
      split
      · unfold Shared.create
        split <;> exact goto_ne _ _ this
      · split <;> exact goto_ne _ _ this
      · split <;> exact goto_ne _ _ this
      · split <;> exact goto_ne _ _ this
      · exact goto_ne _ _ this
      · rfl

end Verif
