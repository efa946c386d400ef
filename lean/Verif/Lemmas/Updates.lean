import Verif.Lemmas.Processes
import Verif.Spec.Updates

/-! # Helper lemmas: updates that keep out of each other's way (C104) -/

namespace Verif

theorem ugoto_self (s : UpdState) (i : Nat) (p : UpdProc) : (s.goto i p).proc i = p := if_pos rfl
theorem ugoto_ne (s : UpdState) {i j : Nat} (p : UpdProc) (h : j ≠ i) : (s.goto i p).proc j = s.proc j := if_neg h
theorem ugoto_disk (s : UpdState) (i : Nat) (p : UpdProc) : (s.goto i p).disk = s.disk := rfl

theorem urun_append (cfg : UpdCfg) (s : UpdState) (a b : List UpdEv) : s.run cfg (a ++ b) = (s.run cfg a).run cfg b := by
  unfold UpdState.run; rw [List.foldl_append]

/-- The process has created the archive, or gone on from there. -/
def UpdProc.Begun : UpdProc → Prop
  | .downloading _ _ => True
  | .toOpen => True
  | .opened _ => True
  | .unpacking _ _ _ _ _ => True
  | .toParse => True
  | .parsing _ _ => True
  | .toSave _ _ => True
  | .saving _ _ _ _ => True
  | .done => True
  | _ => False

/-- The process has unpacked the archive, or gone on from there. -/
def UpdProc.Past : UpdProc → Prop
  | .toParse => True
  | .parsing _ _ => True
  | .toSave _ _ => True
  | .saving _ _ _ _ => True
  | .done => True
  | _ => False

/-- What a process knows to be on the disk. -/
def UpdProc.OK (cfg : UpdCfg) (text index : Str) (d : UpdDisk) : UpdProc → Prop
  | .downloading k pos => d.fresh = true ∧ d.link .archive = some k ∧ d.data k = cfg.body.take pos ∧ pos ≤ cfg.body.length
  | .toOpen => d.fresh = true
  | .opened src => d.fresh = true ∧ d.link .archive = some src
  | .unpacking src got eof dst pos => d.fresh = true ∧ d.link .archive = some src ∧ got <+: cfg.body ∧
      (eof = true → got = cfg.body) ∧ d.link .xml = some dst ∧ d.data dst = text.take pos ∧
      pos ≤ (cfg.env.bunzip got).1.length
  | .parsing k got => d.link .xml = some k ∧ got <+: text
  | .toSave b ok => b = index ∧ ok = true
  | .saving k pos b ok => d.link .compiled = some k ∧ b = index ∧ ok = true ∧ d.data k = index.take pos ∧ pos ≤ index.length
  | .removing => False
  | .failed => False
  | .dead => False
  | _ => True

/-- What holds while updates are orderly. -/
structure UInv (cfg : UpdCfg) (text index : Str) (s : UpdState) : Prop where
  ok : ∀ i, (s.proc i).OK cfg text index s.disk
  dist : ∀ f g k, s.disk.link f = some k → s.disk.link g = some k → f = g
  lt : ∀ f k, s.disk.link f = some k → k < s.disk.next
  arch : s.disk.fresh = true → (∀ i, ¬ (s.proc i).Downloads) →
    ∃ k, s.disk.link .archive = some k ∧ s.disk.data k = cfg.body
  begun : s.disk.fresh = true → ∃ i, (s.proc i).Begun
  xml : (∃ i, (s.proc i).Past) → (∀ i, ¬ (s.proc i).Unpacks) →
    ∃ k, s.disk.link .xml = some k ∧ s.disk.data k = text
  idx : (∃ i, s.proc i = .done) → (∀ i, ¬ (s.proc i).Saves) →
    ∃ k, s.disk.link .compiled = some k ∧ s.disk.data k = index

theorem UInv.start (cfg : UpdCfg) (text index : Str) (files : FName → Option Str) :
    UInv cfg text index (UpdState.start files) where
  ok _ := trivial
  dist f g k hf hg := by
    simp only [UpdState.start, Option.map_eq_some_iff] at hf hg
    obtain ⟨_, _, hf⟩ := hf
    obtain ⟨_, _, hg⟩ := hg
    cases f <;> cases g <;> simp [FName.number] at hf hg <;> first | rfl | omega
  lt f k hf := by
    simp only [UpdState.start, Option.map_eq_some_iff] at hf ⊢
    obtain ⟨_, _, hf⟩ := hf
    cases f <;> simp [FName.number] at hf <;> omega
  arch h := absurd h (by simp [UpdState.start])
  begun h := absurd h (by simp [UpdState.start])
  xml := by rintro ⟨i, hi⟩; exact hi.elim
  idx := by rintro ⟨i, hi⟩; cases hi

/-- Process `i` goes on and the disk stays. -/
theorem UInv.move {cfg : UpdCfg} {text index : Str} {s : UpdState} (v : UInv cfg text index s) (i : Nat) (p : UpdProc)
    (ok : p.OK cfg text index s.disk)
    (hb : (s.proc i).Begun → p.Begun)
    (hd : (s.proc i).Downloads → ¬ p.Downloads → s.disk.fresh = true → (∀ j, j ≠ i → ¬ (s.proc j).Downloads) →
      ∃ k, s.disk.link .archive = some k ∧ s.disk.data k = cfg.body)
    (hp : p.Past → ((s.proc i).Past ∧ ¬ (s.proc i).Unpacks) ∨
      ((∀ j, j ≠ i → ¬ (s.proc j).Unpacks) → ∃ k, s.disk.link .xml = some k ∧ s.disk.data k = text))
    (hu : ¬ p.Past → (s.proc i).Unpacks → p.Unpacks)
    (hs : (s.proc i = .done → p = .done) ∧ (p = .done → s.proc i = .done ∨
      ((∀ j, j ≠ i → ¬ (s.proc j).Saves) → ∃ k, s.disk.link .compiled = some k ∧ s.disk.data k = index)))
    (hs' : p ≠ .done → (s.proc i).Saves → p.Saves) :
    UInv cfg text index (s.goto i p) where
  ok j := by
    rw [ugoto_disk]
    by_cases h : j = i
    · subst h; rw [ugoto_self]; exact ok
    · rw [ugoto_ne s p h]; exact v.ok j
  dist := v.dist
  lt := v.lt
  arch hf hn := by
    rw [ugoto_disk] at hf ⊢
    have hpi : ¬ p.Downloads := by have := hn i; rwa [ugoto_self] at this
    have ho : ∀ j, j ≠ i → ¬ (s.proc j).Downloads := fun j hj => by have := hn j; rwa [ugoto_ne s p hj] at this
    by_cases h : (s.proc i).Downloads
    · exact hd h hpi hf ho
    · refine v.arch hf fun j => ?_
      by_cases hj : j = i
      · subst hj; exact h
      · exact ho j hj
  begun hf := by
    obtain ⟨j, hj⟩ := v.begun hf
    by_cases h : j = i
    · subst h; exact ⟨j, by rw [ugoto_self]; exact hb hj⟩
    · exact ⟨j, by rw [ugoto_ne s p h]; exact hj⟩
  xml := by
    rintro ⟨j, hj⟩ hn
    rw [ugoto_disk]
    have ho : ∀ j, j ≠ i → ¬ (s.proc j).Unpacks := fun j hj => by have := hn j; rwa [ugoto_ne s p hj] at this
    have hpi : ¬ p.Unpacks := by have := hn i; rwa [ugoto_self] at this
    have old : ∀ j, (s.proc j).Past → ¬ (s.proc i).Unpacks → ∃ k, s.disk.link .xml = some k ∧ s.disk.data k = text := by
      intro j hj hi
      refine v.xml ⟨j, hj⟩ fun m => ?_
      by_cases hm : m = i
      · subst hm; exact hi
      · exact ho m hm
    by_cases h : p.Past
    · rcases hp h with ⟨h1, h2⟩ | h1
      · exact old i h1 h2
      · exact h1 ho
    · have hji : j ≠ i := by rintro rfl; rw [ugoto_self] at hj; exact h hj
      rw [ugoto_ne s p hji] at hj
      exact old j hj fun hi => hpi (hu h hi)
  idx := by
    rintro ⟨j, hj⟩ hn
    rw [ugoto_disk]
    have ho : ∀ j, j ≠ i → ¬ (s.proc j).Saves := fun j hj => by have := hn j; rwa [ugoto_ne s p hj] at this
    have hpi : ¬ p.Saves := by have := hn i; rwa [ugoto_self] at this
    have old : ∀ j, s.proc j = .done → ¬ (s.proc i).Saves → ∃ k, s.disk.link .compiled = some k ∧ s.disk.data k = index := by
      intro j hj hi
      refine v.idx ⟨j, hj⟩ fun m => ?_
      by_cases hm : m = i
      · subst hm; exact hi
      · exact ho m hm
    by_cases h : p = .done
    · rcases hs.2 h with h1 | h1
      · exact old i h1 (by rw [h1]; exact fun x => x)
      · exact h1 ho
    · have hji : j ≠ i := by rintro rfl; rw [ugoto_self] at hj; exact h hj
      rw [ugoto_ne s p hji] at hj
      exact old j hj fun hi => hpi (hs' h hi)

/-- One file, with the name `f`, is created or written. -/
structure UpdDisk.Touch (d d' : UpdDisk) (f : FName) (k : Nat) : Prop where
  link_f : d'.link f = some k
  link_ne : ∀ g, g ≠ f → d'.link g = d.link g
  data_ne : ∀ j, j ≠ k → d'.data j = d.data j
  fresh : d.fresh = true → d'.fresh = true
  fresh' : d'.fresh = true → d.fresh = true ∨ f = .archive
  apart : ∀ g, g ≠ f → d.link g ≠ some k
  lt : k < d'.next
  le : d.next ≤ d'.next

theorem UInv.touch_write {cfg : UpdCfg} {text index : Str} {s : UpdState} (v : UInv cfg text index s) {f : FName} {k : Nat}
    (h : s.disk.link f = some k) (b : Str) : s.disk.Touch (s.disk.write k b) f k where
  link_f := h
  link_ne _ _ := rfl
  data_ne _ hj := if_neg hj
  fresh := id
  fresh' := .inl
  apart g hg hk := hg (v.dist g f k hk h)
  lt := v.lt f k h
  le := Nat.le_refl _

theorem UInv.touch_create {cfg : UpdCfg} {text index : Str} {s : UpdState} (v : UInv cfg text index s) (f : FName) :
    s.disk.Touch (s.disk.create f) f (s.disk.created f) where
  link_f := by simp [UpdDisk.create, UpdDisk.write]
  link_ne g hg := by simp [UpdDisk.create, UpdDisk.write, hg]
  data_ne j hj := by simp [UpdDisk.create, UpdDisk.write, hj]
  fresh h := by simp only [UpdDisk.create]; split <;> first | rfl | exact h
  fresh' h := by
    simp only [UpdDisk.create] at h
    split at h
    · right; assumption
    · exact .inl h
  apart g hg hk := by
    unfold UpdDisk.created at hk
    cases hf : s.disk.link f with
    | none =>
      rw [hf] at hk
      have := v.lt g _ hk
      simp at this
    | some k =>
      rw [hf] at hk
      exact hg (v.dist g f k hk hf)
  lt := by
    simp only [UpdDisk.create, UpdDisk.write, UpdDisk.created]
    cases hf : s.disk.link f with
    | none => simp
    | some k => have := v.lt f k hf; simpa using this
  le := by
    simp only [UpdDisk.create, UpdDisk.write]
    split <;> omega

theorem create_empty (d : UpdDisk) (f : FName) : (d.create f).data (d.created f) = [] := by
  simp [UpdDisk.create, UpdDisk.write]

theorem create_fresh (d : UpdDisk) : (d.create .archive).fresh = true := by simp [UpdDisk.create]

theorem UpdProc.OK.frame {cfg : UpdCfg} {text index : Str} {d d' : UpdDisk} {f : FName} {k : Nat} {p : UpdProc}
    (h : p.OK cfg text index d) (t : d.Touch d' f k)
    (ha : f = .archive → ¬ p.Downloads ∧ ¬ p.ReadsArchive) (hx : f = .xml → ¬ p.Unpacks ∧ ¬ p.Parses)
    (hc : f = .compiled → ¬ p.Saves) : p.OK cfg text index d' := by
  have hdata : ∀ g j, g ≠ f → d.link g = some j → d'.data j = d.data j := by
    intro g j hg hj
    exact t.data_ne j fun e => t.apart g hg (by rw [hj, e])
  cases p with
  | downloading j pos =>
    have hf : FName.archive ≠ f := fun e => (ha e.symm).1 trivial
    obtain ⟨h1, h2, h3, h4⟩ := h
    exact ⟨t.fresh h1, by rw [t.link_ne _ hf]; exact h2, by rw [hdata _ _ hf h2]; exact h3, h4⟩
  | toOpen => exact t.fresh h
  | opened src =>
    have hf : FName.archive ≠ f := fun e => (ha e.symm).2 trivial
    exact ⟨t.fresh h.1, by rw [t.link_ne _ hf]; exact h.2⟩
  | unpacking src got eof dst pos =>
    have hf : FName.archive ≠ f := fun e => (ha e.symm).2 trivial
    have hf' : FName.xml ≠ f := fun e => (hx e.symm).1 trivial
    obtain ⟨h1, h2, h3, h4, h5, h6, h7⟩ := h
    exact ⟨t.fresh h1, by rw [t.link_ne _ hf]; exact h2, h3, h4, by rw [t.link_ne _ hf']; exact h5,
      by rw [hdata _ _ hf' h5]; exact h6, h7⟩
  | parsing j got =>
    have hf' : FName.xml ≠ f := fun e => (hx e.symm).2 trivial
    exact ⟨by rw [t.link_ne _ hf']; exact h.1, h.2⟩
  | saving j pos b ok =>
    have hf' : FName.compiled ≠ f := fun e => hc e.symm trivial
    obtain ⟨h1, h2, h3, h4, h5⟩ := h
    exact ⟨by rw [t.link_ne _ hf']; exact h1, h2, h3, by rw [hdata _ _ hf' h1]; exact h4, h5⟩
  | _ => exact h

/-- Process `i` creates or writes the file `f`. -/
theorem UInv.touch {cfg : UpdCfg} {text index : Str} {s : UpdState} (v : UInv cfg text index s) {d' : UpdDisk} {f : FName}
    {k : Nat} (t : s.disk.Touch d' f k) (i : Nat) (p : UpdProc) (ok : p.OK cfg text index d')
    (hap : ({ s with disk := d' }.goto i p).Apart)
    (hb : p.Begun) (hnd : p ≠ .done)
    (pa : f = .archive → p.Downloads) (px : f = .xml → p.Unpacks) (pc : f = .compiled → p.Saves)
    (oa : (s.proc i).Downloads → f = .archive) (ox : (s.proc i).Unpacks → f = .xml)
    (oc : (s.proc i).Saves → f = .compiled) (op : p.Past → (s.proc i).Past) (od : s.proc i ≠ .done) :
    UInv cfg text index ({ s with disk := d' }.goto i p) := by
  have hdata : ∀ g j, g ≠ f → s.disk.link g = some j → d'.data j = s.disk.data j := by
    intro g j hg hj
    exact t.data_ne j fun e => t.apart g hg (by rw [hj, e])
  have hself : ({ s with disk := d' }.goto i p).proc i = p := ugoto_self _ _ _
  have hne : ∀ {j}, j ≠ i → ({ s with disk := d' }.goto i p).proc j = s.proc j := fun h => ugoto_ne _ _ h
  constructor
  · intro j
    by_cases h : j = i
    · subst h; rw [hself]; exact ok
    · rw [hne h]
      have hh := hap i j (Ne.symm h)
      rw [hself, hne h] at hh
      exact (v.ok j).frame t (fun e => hh.1 (pa e)) (fun e => hh.2.1 (px e)) (fun e => hh.2.2 (pc e))
  · intro g g' j hg hg'
    have hg : d'.link g = some j := hg
    have hg' : d'.link g' = some j := hg'
    by_cases h : g = f
    · subst h
      by_cases h' : g' = g
      · exact h'.symm
      · rw [t.link_f] at hg; obtain rfl := Option.some.inj hg
        rw [t.link_ne _ h'] at hg'
        exact absurd hg' (t.apart _ h')
    · rw [t.link_ne _ h] at hg
      by_cases h' : g' = f
      · subst h'
        rw [t.link_f] at hg'; obtain rfl := Option.some.inj hg'
        exact absurd hg (t.apart _ h)
      · rw [t.link_ne _ h'] at hg'
        exact v.dist g g' j hg hg'
  · intro g j hg
    have hg : d'.link g = some j := hg
    show j < d'.next
    by_cases h : g = f
    · subst h; rw [t.link_f] at hg; obtain rfl := Option.some.inj hg; exact t.lt
    · rw [t.link_ne _ h] at hg; exact Nat.lt_of_lt_of_le (v.lt g j hg) t.le
  · intro hf hn
    have hf : d'.fresh = true := hf
    have hi := hn i
    rw [hself] at hi
    have hfa : FName.archive ≠ f := fun e => hi (pa e.symm)
    rcases t.fresh' hf with hf | e
    · obtain ⟨j, h1, h2⟩ := v.arch hf (fun m => by
        by_cases hm : m = i
        · subst hm; exact fun h => hfa (oa h).symm
        · have := hn m; rwa [hne hm] at this)
      exact ⟨j, (t.link_ne _ hfa).trans h1, (hdata _ _ hfa h1).trans h2⟩
    · exact absurd e.symm hfa
  · intro _
    exact ⟨i, by rw [hself]; exact hb⟩
  · rintro ⟨j, hj⟩ hn
    have hi := hn i
    rw [hself] at hi
    have hfx : FName.xml ≠ f := fun e => hi (px e.symm)
    have hpast : ∃ j, (s.proc j).Past := by
      by_cases hm : j = i
      · subst hm; rw [hself] at hj; exact ⟨j, op hj⟩
      · rw [hne hm] at hj; exact ⟨j, hj⟩
    obtain ⟨j, h1, h2⟩ := v.xml hpast (fun m => by
      by_cases hm : m = i
      · subst hm; exact fun h => hfx (ox h).symm
      · have := hn m; rwa [hne hm] at this)
    exact ⟨j, (t.link_ne _ hfx).trans h1, (hdata _ _ hfx h1).trans h2⟩
  · rintro ⟨j, hj⟩ hn
    have hi := hn i
    rw [hself] at hi
    have hfc : FName.compiled ≠ f := fun e => hi (pc e.symm)
    have hji : j ≠ i := by rintro rfl; rw [hself] at hj; exact hnd hj
    rw [hne hji] at hj
    obtain ⟨j, h1, h2⟩ := v.idx ⟨j, hj⟩ (fun m => by
      by_cases hm : m = i
      · subst hm; exact fun h => hfc (oc h).symm
      · have := hn m; rwa [hne hm] at this)
    exact ⟨j, (t.link_ne _ hfc).trans h1, (hdata _ _ hfc h1).trans h2⟩

theorem take_full {l : Str} {n : Nat} (h : l[n]? = none) : l.take n = l :=
  List.take_of_length_le (List.getElem?_eq_none_iff.1 h)

theorem prefix_grow {a l : Str} {b : UInt8} (h : a <+: l) (hb : l[a.length]? = some b) : a ++ [b] <+: l := by
  obtain ⟨t, rfl⟩ := h
  rw [List.getElem?_append_right (Nat.le_refl _), Nat.sub_self] at hb
  cases t with
  | nil => cases hb
  | cons c t =>
    obtain rfl := Option.some.inj hb
    exact ⟨t, by simp⟩

theorem prefix_all {a l : Str} (h : a <+: l) (hb : l[a.length]? = none) : a = l :=
  h.eq_of_length_le (List.getElem?_eq_none_iff.1 hb)

theorem ne_mine {s : UpdState} (ha : s.Apart) {i : Nat} :
    ((s.proc i).ReadsArchive → ∀ j, j ≠ i → ¬ (s.proc j).Downloads) ∧
    ((s.proc i).Parses → ∀ j, j ≠ i → ¬ (s.proc j).Unpacks) :=
  ⟨fun h j hj hd => ((ha j i hj).1 hd).2 h, fun h j hj hd => ((ha j i hj).2.1 hd).2 h⟩

theorem all_of_ne {P : UpdProc → Prop} {s : UpdState} {i : Nat} (hi : ¬ P (s.proc i)) (h : ∀ j, j ≠ i → ¬ P (s.proc j)) :
    ∀ j, ¬ P (s.proc j) := by
  intro j
  by_cases e : j = i
  · subst e; exact hi
  · exact h j e

/-- Reading the archive ahead keeps the invariant. -/
theorem UInv.ahead {cfg : UpdCfg} {text index : Str} {s : UpdState} (v : UInv cfg text index s)
    (mono : ∀ a b, a <+: b → (cfg.env.bunzip a).1 <+: (cfg.env.bunzip b).1) (ha : s.Apart) (i : Nat) :
    UInv cfg text index (s.ahead i) := by
  unfold UpdState.ahead
  split
  · rename_i src got dst pos hp
    have hok := v.ok i
    rw [hp] at hok
    obtain ⟨h1, h2, h3, h4, h5, h6, h7⟩ := hok
    have hno := all_of_ne (P := UpdProc.Downloads) (s := s) (i := i) (by rw [hp]; exact id)
      ((ne_mine ha (i := i)).1 (by rw [hp]; trivial))
    obtain ⟨k, k1, k2⟩ := v.arch h1 hno
    rw [h2] at k1
    obtain rfl := Option.some.inj k1
    have go : ∀ got' eof', got <+: got' → got' <+: cfg.body → (eof' = true → got' = cfg.body) →
        UInv cfg text index (s.goto i (.unpacking src got' eof' dst pos)) := by
      intro got' eof' g1 g2 g3
      refine v.move i _ ⟨h1, h2, g2, g3, h5, h6, Nat.le_trans h7 (mono _ _ g1).length_le⟩ (fun _ => trivial) ?_ ?_
        (fun _ _ => trivial) ⟨?_, ?_⟩ ?_
      · rw [hp]; exact fun h => h.elim
      · exact fun h => h.elim
      · rw [hp]; exact fun h => (by cases h)
      · exact fun h => (by cases h)
      · rw [hp]; exact fun _ h => h.elim
    rw [k2]
    split
    · rename_i b hb
      exact go _ _ ⟨[b], rfl⟩ (prefix_grow h3 hb) (fun h => by cases h)
    · rename_i hb
      exact go _ _ (List.prefix_refl _) h3 (fun _ => prefix_all h3 hb)
  · exact v

/-- A step keeps the invariant. -/
theorem UInv.step {cfg : UpdCfg} {text index : Str} {s : UpdState} (v : UInv cfg text index s)
    (sv : Serveable cfg text index) (ha : s.Apart) (i : Nat) (ha' : (s.step cfg i).Apart)
    (hf : cfg.force i = true → s.proc i = .start → ∀ j, (s.proc j).Rests) : UInv cfg text index (s.step cfg i) := by
  have hok := v.ok i
  unfold UpdState.step at ha' ⊢
  cases hp : s.proc i <;> rw [hp] at hok <;> simp only [hp] at ha' ⊢
  · -- start
    split
    · exact v.move i _ trivial (by rw [hp]; exact id) (by rw [hp]; exact fun h => h.elim) (fun h => h.elim)
        (by rw [hp]; exact fun _ h => h.elim) ⟨by rw [hp]; exact fun h => (by cases h), fun h => (by cases h)⟩
        (by rw [hp]; exact fun _ h => h.elim)
    · rename_i hn
      split
      · rename_i hfo
        have hr := hf hfo hp
        have hfr : s.disk.fresh = true := by
          unfold UpdDisk.needed at hn
          cases h : s.disk.fresh <;> simp_all
        have hnu : ∀ j, ¬ (s.proc j).Unpacks := by
          intro j h
          have := hr j
          cases e : s.proc j <;> rw [e] at h this <;> first | exact h | exact this
        obtain ⟨j, hj⟩ := v.begun hfr
        have hpa : (s.proc j).Past := by
          have := hr j
          cases e : s.proc j <;> rw [e] at hj this <;> first | exact hj | exact this.elim
        exact v.move i _ trivial (by rw [hp]; exact fun h => h.elim) (by rw [hp]; exact fun h => h.elim)
          (fun _ => .inr fun _ => v.xml ⟨j, hpa⟩ hnu)
          (by rw [hp]; exact fun _ h => h.elim) ⟨by rw [hp]; exact fun h => (by cases h), fun h => (by cases h)⟩
          (by rw [hp]; exact fun _ h => h.elim)
      · exact v.move i _ trivial (by rw [hp]; exact id) (by rw [hp]; exact fun h => h.elim) (fun h => h.elim)
          (by rw [hp]; exact fun _ h => h.elim) ⟨by rw [hp]; exact fun h => (by cases h), fun h => (by cases h)⟩
          (by rw [hp]; exact fun _ h => h.elim)
  · -- toDownload
    split
    all_goals
      exact v.move i _ trivial (by rw [hp]; exact id) (by rw [hp]; exact fun h => h.elim) (fun h => h.elim)
        (by rw [hp]; exact fun _ h => h.elim) ⟨by rw [hp]; exact fun h => (by cases h), fun h => (by cases h)⟩
        (by rw [hp]; exact fun _ h => h.elim)
  · -- toCreate
    refine v.touch (v.touch_create .archive) i _ ⟨create_fresh _, (v.touch_create .archive).link_f, ?_, Nat.zero_le _⟩ ha'
      trivial (fun h => by cases h) (fun _ => trivial) (fun h => by cases h) (fun h => by cases h)
      (by rw [hp]; exact fun h => h.elim) (by rw [hp]; exact fun h => h.elim) (by rw [hp]; exact fun h => h.elim)
      (fun h => h.elim) (by rw [hp]; exact fun h => (by cases h))
    rw [create_empty, List.take_zero]
  · -- downloading
    rename_i k pos
    obtain ⟨h1, h2, h3, h4⟩ := hok
    cases hb : cfg.body[pos]? with
    | some b =>
      simp only [hb] at ha' ⊢
      refine v.touch (v.touch_write h2 _) i _ ⟨h1, h2, ?_, (List.getElem?_eq_some_iff.1 hb).1⟩ ha' trivial
        (fun h => by cases h) (fun _ => trivial) (fun h => by cases h) (fun h => by cases h)
        (fun _ => rfl) (by rw [hp]; exact fun h => h.elim) (by rw [hp]; exact fun h => h.elim)
        (fun h => h.elim) (by rw [hp]; exact fun h => (by cases h))
      rw [h3, ← poke_next hb]
      exact if_pos rfl
    | none =>
      simp only []
      exact v.move i _ h1 (fun _ => trivial) (fun _ _ _ _ => ⟨k, h2, h3.trans (take_full hb)⟩) (fun h => h.elim)
        (by rw [hp]; exact fun _ h => h.elim) ⟨by rw [hp]; exact fun h => (by cases h), fun h => (by cases h)⟩
        (by rw [hp]; exact fun _ h => h.elim)
  · -- toOpen
    have hl : ∃ k, s.disk.link .archive = some k := by
      by_cases hd : ∃ j, (s.proc j).Downloads
      · obtain ⟨j, hj⟩ := hd
        have := v.ok j
        cases e : s.proc j <;> rw [e] at hj this <;> first | exact hj.elim | exact ⟨_, this.2.1⟩
      · obtain ⟨k, h, -⟩ := v.arch hok fun j hj => hd ⟨j, hj⟩
        exact ⟨k, h⟩
    obtain ⟨k, hk⟩ := hl
    simp only [hk]
    exact v.move i _ ⟨hok, hk⟩ (fun _ => trivial) (by rw [hp]; exact fun h => h.elim) (fun h => h.elim)
      (by rw [hp]; exact fun _ h => h.elim) ⟨by rw [hp]; exact fun h => (by cases h), fun h => (by cases h)⟩
      (by rw [hp]; exact fun _ h => h.elim)
  · -- opened
    rename_i src
    have t := v.touch_create .xml
    refine v.touch t i _ ⟨t.fresh hok.1, (t.link_ne _ (by decide)).trans hok.2, List.nil_prefix, fun h => (by cases h),
      t.link_f, ?_, Nat.zero_le _⟩ ha' trivial (fun h => by cases h) (fun h => by cases h) (fun _ => trivial)
      (fun h => by cases h) (by rw [hp]; exact fun h => h.elim) (by rw [hp]; exact fun h => h.elim)
      (by rw [hp]; exact fun h => h.elim) (fun h => h.elim) (by rw [hp]; exact fun h => (by cases h))
    rw [create_empty, List.take_zero]
  · -- unpacking
    rename_i src got eof dst pos
    obtain ⟨h1, h2, h3, h4, h5, h6, h7⟩ := hok
    cases hb : (cfg.env.bunzip got).1[pos]? with
    | some b =>
      simp only [hb] at ha' ⊢
      have hpre := sv.mono _ _ h3
      rw [sv.unpacks] at hpre
      have hbt : text[pos]? = some b := by
        obtain ⟨r, hr⟩ := hpre
        have hr : _ = text := hr
        rw [← hr, List.getElem?_append_left (List.getElem?_eq_some_iff.1 hb).1]
        exact hb
      refine v.touch (v.touch_write h5 _) i _ ⟨h1, h2, h3, h4, h5, ?_, (List.getElem?_eq_some_iff.1 hb).1⟩ ha' trivial
        (fun h => by cases h) (fun h => by cases h) (fun _ => trivial) (fun h => by cases h)
        (by rw [hp]; exact fun h => h.elim) (fun _ => rfl) (by rw [hp]; exact fun h => h.elim)
        (fun h => h.elim) (by rw [hp]; exact fun h => (by cases h))
      rw [h6, ← poke_next hbt]
      exact if_pos rfl
    | none =>
      simp only []
      cases eof with
      | true =>
        have hg := h4 rfl
        subst hg
        rw [sv.unpacks] at hb ⊢
        simp only [if_true]
        exact v.move i _ trivial (fun _ => trivial) (by rw [hp]; exact fun h => h.elim)
          (fun _ => .inr fun _ => ⟨dst, h5, h6.trans (take_full hb)⟩)
          (fun h => absurd trivial h) ⟨by rw [hp]; exact fun h => (by cases h), fun h => (by cases h)⟩
          (by rw [hp]; exact fun _ h => h.elim)
      | false => exact v.ahead sv.mono ha i
  · -- toParse
    have hl : ∃ k, s.disk.link .xml = some k := by
      by_cases hd : ∃ j, (s.proc j).Unpacks
      · obtain ⟨j, hj⟩ := hd
        have := v.ok j
        cases e : s.proc j <;> rw [e] at hj this <;> first | exact hj.elim | exact ⟨_, this.2.2.2.2.1⟩
      · obtain ⟨k, h, -⟩ := v.xml ⟨i, by rw [hp]; trivial⟩ fun j hj => hd ⟨j, hj⟩
        exact ⟨k, h⟩
    obtain ⟨k, hk⟩ := hl
    simp only [hk]
    exact v.move i _ ⟨hk, List.nil_prefix⟩ (fun _ => trivial) (by rw [hp]; exact fun h => h.elim)
      (fun _ => .inl ⟨by rw [hp]; trivial, by rw [hp]; exact id⟩)
      (by rw [hp]; exact fun _ h => h.elim) ⟨by rw [hp]; exact fun h => (by cases h), fun h => (by cases h)⟩
      (by rw [hp]; exact fun _ h => h.elim)
  · -- parsing
    rename_i k got
    have hno := all_of_ne (P := UpdProc.Unpacks) (s := s) (i := i) (by rw [hp]; exact id)
      ((ne_mine ha (i := i)).2 (by rw [hp]; trivial))
    obtain ⟨k', k1, k2⟩ := v.xml ⟨i, by rw [hp]; trivial⟩ hno
    rw [hok.1] at k1
    obtain rfl := Option.some.inj k1
    rw [k2]
    cases hb : text[got.length]? with
    | some b =>
      simp only []
      exact v.move i _ ⟨hok.1, prefix_grow hok.2 hb⟩ (fun _ => trivial) (by rw [hp]; exact fun h => h.elim)
        (fun _ => .inl ⟨by rw [hp]; trivial, by rw [hp]; exact id⟩)
        (by rw [hp]; exact fun _ h => h.elim) ⟨by rw [hp]; exact fun h => (by cases h), fun h => (by cases h)⟩
        (by rw [hp]; exact fun _ h => h.elim)
    | none =>
      have hg := prefix_all hok.2 hb
      subst hg
      simp only [sv.compiles]
      exact v.move i _ ⟨rfl, rfl⟩ (fun _ => trivial) (by rw [hp]; exact fun h => h.elim)
        (fun _ => .inl ⟨by rw [hp]; trivial, by rw [hp]; exact id⟩)
        (by rw [hp]; exact fun _ h => h.elim) ⟨by rw [hp]; exact fun h => (by cases h), fun h => (by cases h)⟩
        (by rw [hp]; exact fun _ h => h.elim)
  · -- toSave
    obtain ⟨rfl, rfl⟩ := hok
    have t := v.touch_create .compiled
    refine v.touch t i _ ⟨t.link_f, rfl, rfl, ?_, Nat.zero_le _⟩ ha' trivial (fun h => by cases h) (fun h => by cases h)
      (fun h => by cases h) (fun _ => trivial) (by rw [hp]; exact fun h => h.elim) (by rw [hp]; exact fun h => h.elim)
      (by rw [hp]; exact fun h => h.elim) (by rw [hp]; exact id) (by rw [hp]; exact fun h => (by cases h))
    rw [create_empty, List.take_zero]
  · -- saving
    rename_i k pos bytes ok
    obtain ⟨h1, rfl, rfl, h4, h5⟩ := hok
    cases hb : bytes[pos]? with
    | some b =>
      simp only [hb] at ha' ⊢
      refine v.touch (v.touch_write h1 _) i _ ⟨h1, rfl, rfl, ?_, (List.getElem?_eq_some_iff.1 hb).1⟩ ha' trivial
        (fun h => by cases h) (fun h => by cases h) (fun h => by cases h) (fun _ => trivial)
        (by rw [hp]; exact fun h => h.elim) (by rw [hp]; exact fun h => h.elim) (fun _ => rfl)
        (by rw [hp]; exact id) (by rw [hp]; exact fun h => (by cases h))
      rw [h4, ← poke_next hb]
      exact if_pos rfl
    | none =>
      simp only [if_true]
      exact v.move i _ trivial (fun _ => trivial) (by rw [hp]; exact fun h => h.elim)
        (fun _ => .inl ⟨by rw [hp]; trivial, by rw [hp]; exact id⟩)
        (by rw [hp]; exact fun _ h => h.elim)
        ⟨by rw [hp]; exact fun h => (by cases h), fun _ => .inr fun _ => ⟨k, h1, h4.trans (take_full hb)⟩⟩
        (fun h => absurd rfl h)
  · exact hok.elim
  all_goals exact v

/-- The invariant holds along an orderly schedule. -/
theorem UInv.run {cfg : UpdCfg} {text index : Str} (sv : Serveable cfg text index) {files : FName → Option Str} :
    ∀ {sched : List UpdEv}, InTurn cfg files sched → UInv cfg text index ((UpdState.start files).run cfg sched) := by
  intro sched
  induction sched using List.reverseRecOn with
  | nil => exact fun _ => UInv.start cfg text index files
  | append_singleton pre e ih =>
    intro o
    have hpre : pre <+: pre ++ [e] := ⟨[e], rfl⟩
    have v := ih ⟨fun x hx => o.works x (by simp [hx]), fun p hp => o.apart p (hp.trans hpre),
      fun p i hp => o.forced p i (hp.trans hpre)⟩
    have ha := o.apart pre hpre
    have ha' := o.apart (pre ++ [e]) (List.prefix_refl _)
    rw [urun_append] at ha' ⊢
    cases e with
    | step i => exact v.step sv ha i ha' (o.forced pre i (List.prefix_refl _))
    | ahead i => exact v.ahead sv.mono ha i
    | fail i => exact (o.works (.fail i) (by simp)).elim
    | die i => exact (o.works (.die i) (by simp)).elim

end Verif
