import Verif.Lemmas.ConcurrentAdd
import Verif.Spec.Forgotten
import Mathlib.Data.List.Induction

/-! # Helper lemmas: nodes forgotten by concurrent calls -/

namespace Verif

/-- Node `c` was made as the child of `p` with letter `r`. -/
def Made (its : Items) (c p : ID) (r : Rune) : Prop := ∃ it, its.get c = some it ∧ it.parent = p ∧ it.letter = r

theorem Items.get_some {its : Items} {c : ID} {it : Item} (h : its.get c = some it) :
    0 < c.toNat ∧ c.toNat < its.nextID.toNat ∧ its.items[c.toNat]? = some it := by
  unfold Items.get at h
  split at h
  · cases h
  · split at h
    · cases h
    · exact ⟨by omega, by omega, h⟩

theorem Items.get_of {its : Items} {c : ID} {it : Item} (h0 : 0 < c.toNat) (h1 : c.toNat < its.nextID.toNat)
    (h : its.items[c.toNat]? = some it) : its.get c = some it := by
  unfold Items.get
  rw [if_neg (by omega), if_neg (by omega), h]

theorem Made.lt {its : Items} {c p : ID} {r : Rune} (h : Made its c p r) : 0 < c.toNat ∧ c.toNat < its.nextID.toNat := by
  obtain ⟨it, h, _⟩ := h
  exact ⟨(Items.get_some h).1, (Items.get_some h).2.1⟩

theorem Made.ne0 {its : Items} {c p : ID} {r : Rune} (h : Made its c p r) : c ≠ 0 := by
  rintro rfl
  exact absurd h.lt.1 (by decide)

theorem Made.inj {its : Items} {c p p' : ID} {r r' : Rune} (h : Made its c p r) (h' : Made its c p' r') : p = p' ∧ r = r' := by
  obtain ⟨it, h1, rfl, rfl⟩ := h
  obtain ⟨it', h2, rfl, rfl⟩ := h'
  rw [h1] at h2
  cases h2
  exact ⟨rfl, rfl⟩

/-- The node is the root, or was forgotten, or is a child. -/
def Settled (s : AState) (D : ID → Prop) (k : ID) : Prop := k = 0 ∨ D k ∨ s.Shows k

/-- The node a call has got to. -/
def APC.node : APC → Option ID
  | .check p _ | .insert p _ | .inserting p _ | .look p _ | .probe p _ _ _ | .make p _ _ | .link p _ _ _
  | .store p _ _ _ _ | .storing p _ _ _ _ => some p
  | .done (.ok id) => some id
  | .done _ => none

/-- The node a call has made and not yet entered as a child. -/
def APC.pend : APC → Option (ID × Rune × ID)
  | .link p r _ c | .store p r _ c _ | .storing p r _ c _ => some (p, r, c)
  | _ => none

/-- The invariant; `D` are the nodes forgotten so far. -/
structure ForgetInv (nul : Bool) (s : AState) (D : ID → Prop) : Prop where
  entry : ∀ m r c, m < s.kids.fresh → s.kids.maps m r = some c →
    (Made s.ix.items c (s.kids.own m) r ∧ Settled s D c) ∨ (nul = true ∧ s.kids.own m = 0 ∧ r = 0 ∧ c = 0)
  shown : ∀ c, s.Shows c → ¬D c
  below : ∀ c p r, Made s.ix.items c p r → Settled s D p
  lost : ∀ c, D c → ∃ p r, Made s.ix.items c p r
  pend : ∀ t p r c, (s.pc t).pend = some (p, r, c) →
    Made s.ix.items c p r ∧ ¬D c ∧ ∀ m b, m < s.kids.fresh → s.kids.maps m b ≠ some c
  uniq : ∀ t u p r p' r' c, (s.pc t).pend = some (p, r, c) → (s.pc u).pend = some (p', r', c) → t = u
  place : ∀ t p, (s.pc t).node = some p → Settled s D p

theorem ForgetInv.congr {nul : Bool} {s : AState} {D D' : ID → Prop} (h : ForgetInv nul s D) (e : ∀ k, D k ↔ D' k) :
    ForgetInv nul s D' := by
  have : D = D' := funext fun k => propext (e k)
  rw [← this]; exact h

/-- Showing a node is a matter of the maps only. -/
theorem AState.Shows.of {s s' : AState} (e : s'.kids = s.kids) {k : ID} (h : s.Shows k) : s'.Shows k := by
  obtain ⟨p, r, hk⟩ := h
  refine ⟨p, r, ?_⟩
  rw [AState.now_get] at hk ⊢
  rw [e]; exact hk

theorem ForgetInv.start {ix : Index} {d : Dict} (h : TrieOK ix d) (adds : Nat → Bool) (q : Nat → List Rune) :
    ForgetInv d.nul (AState.start ix adds q) (fun _ => False) := by
  have made : ∀ p r c v, d.nodes[p.toNat]? = some v → d.nodes[c.toNat]? = some (v ++ [r]) → Made ix.items c p r := by
    intro p r c v h1 h2
    have hc0 : 0 < c.toNat := by
      refine Nat.pos_of_ne_zero fun e => ?_
      rw [e, h.root] at h2
      have := congrArg List.length (Option.some.inj h2)
      simp at this
    have hcl := ItemsSpell.lt h2
    obtain ⟨it, w, i1, _, i3, i4, i5⟩ := h.item c.toNat hc0 hcl
    rw [i5] at h2
    have hw := List.append_inj' (Option.some.inj h2) rfl
    obtain ⟨rfl, hl⟩ := hw
    refine ⟨it, Items.get_of hc0 (by rw [h.next]; exact hcl) i1, ?_, by simpa using hl⟩
    have hpe := (List.getElem?_eq_some_iff.1 i4)
    have hpe' := (List.getElem?_eq_some_iff.1 h1)
    obtain ⟨a1, a2⟩ := hpe
    obtain ⟨b1, b2⟩ := hpe'
    exact UInt32.toNat_inj.1 (h.nodup.getElem_inj_iff.1 (a2.trans b2.symm))
  have hnow : (AState.start ix adds q).now = ix := AState.start_now ix adds q
  have settle : ∀ k : ID, k.toNat < d.nodes.length → Settled (AState.start ix adds q) (fun _ => False) k := by
    intro k hk
    by_cases h0 : k = 0
    · exact .inl h0
    · have h1 : 0 < k.toNat := Nat.pos_of_ne_zero fun h' => h0 (TrieOK.toNat_eq_zero.1 h')
      obtain ⟨it, w, i1, _, i3, i4, i5⟩ := h.item k.toNat h1 hk
      exact .inr (.inr ⟨it.parent, it.letter, by rw [hnow]; exact (h.child _ _ _).2 (.inl ⟨w, i4, i5⟩)⟩)
  refine ⟨?_, fun _ _ h => h, ?_, fun _ h => h.elim, ?_, ?_, ?_⟩
  · intro m r c _ hc
    rcases (h.child (UInt32.ofNat m) r c).1 hc with ⟨v, h1, h2⟩ | h
    · exact .inl ⟨made _ r c v h1 h2, settle c (ItemsSpell.lt h2)⟩
    · exact .inr h
  · intro c p r hm
    obtain ⟨it, hg, rfl, rfl⟩ := hm
    obtain ⟨h0, h1, h2⟩ := Items.get_some hg
    replace h1 : c.toNat < ix.items.nextID.toNat := h1
    rw [h.next] at h1
    obtain ⟨it', w, i1, _, i3, i4, _⟩ := h.item c.toNat h0 h1
    replace h2 : ix.items.items[c.toNat]? = some it := h2
    rw [i1] at h2
    cases h2
    exact settle _ (ItemsSpell.lt i4)
  · intro t p r c h; cases h
  · intro t u p r p' r' c h; cases h
  · intro t p hp
    cases hp
    exact .inl rfl

namespace ForgetInv

variable {nul : Bool} {s : AState} {D : ID → Prop}

/-- The program counter (and the list of writers) changes. -/
theorem goto (h : ForgetInv nul s D) (t : Nat) (p : APC) (wr : List (Nat × Option Nat))
    (hn : ∀ k, p.node = some k → Settled s D k) (hp : p.pend = none ∨ p.pend = (s.pc t).pend) :
    ForgetInv nul ({ s with writing := wr }.goto t p) D := by
  have key : ∀ u x, ((({ s with writing := wr } : AState).goto t p).pc u).pend = some x → (s.pc u).pend = some x := by
    intro u x hx
    by_cases e : u = t
    · subst e
      simp only [AState.goto, upd_same] at hx
      rcases hp with hp | hp
      · rw [hp] at hx; cases hx
      · rw [← hp]; exact hx
    · simpa only [AState.goto, upd_other _ _ e] using hx
  refine ⟨h.entry, h.shown, h.below, h.lost, fun u a b c hu => h.pend u a b c (key u _ hu),
    fun u v a b a' b' c hu hv => h.uniq u v a b a' b' c (key u _ hu) (key v _ hv), ?_⟩
  intro u k hk
  by_cases e : u = t
  · subst e
    simp only [AState.goto, upd_same] at hk
    exact hn k hk
  · simp only [AState.goto, upd_other _ _ e] at hk
    exact h.place u k hk

theorem get_node {ix : Index} {c k : ID} (h : (APC.done (ix.get c)).node = some k) : k = c := by
  unfold Index.get at h
  split at h
  · cases h
  · cases h; rfl

theorem next_node {ix : Index} {c : ID} {rest : List Rune} {k : ID}
    (h : (if rest = [] then APC.done (ix.get c) else .check c rest).node = some k) : k = c := by
  split at h
  · exact get_node h
  · cases h; rfl

theorem next_pend {ix : Index} {c : ID} {rest : List Rune} :
    (if rest = [] then APC.done (ix.get c) else .check c rest).pend = none := by
  split <;> rfl

/-- A letter that is not there. -/
theorem missing (h : ForgetInv nul s D) (t : Nat) {p : ID} {r : Rune} {rest : List Rune} (hp : Settled s D p) :
    ForgetInv nul (s.missing t p r rest) D := by
  unfold AState.missing
  split
  · exact h.goto t _ s.writing (fun k hk => by cases hk; exact hp) (.inl rfl)
  · refine h.goto t (.done ((s.ix.word p).bind fun w => .err (.notFound w r))) s.writing (fun k hk => ?_) (.inl rfl)
    cases hw : s.ix.word p <;> (rw [hw] at hk; cases hk)

/-- A new node below `p`. -/
theorem make (h : ForgetInv nul s D) (t : Nat) {p : ID} {r : Rune} {rest : List Rune} (hp : s.pc t = .make p r rest)
    (hcap : s.ix.items.nextID.toNat ≤ s.ix.items.items.length) (hov : s.ix.items.nextID.toNat + 1 < 4294967296)
    (hpos : 0 < s.ix.items.nextID.toNat) {its : Items} {it : Item} (hnew : s.ix.items.newChild p r = some (its, it)) :
    ForgetInv nul ({ s with ix := { s.ix with items := its } }.goto t (.link p r rest it.id)) D := by
  obtain ⟨its', hnew', hnext, hlen, hself, hold, _⟩ := newChild_spec s.ix.items p r hcap
  rw [hnew] at hnew'
  obtain ⟨rfl, rfl⟩ := Prod.mk.inj (Option.some.inj hnew')
  have hn : its.nextID.toNat = s.ix.items.nextID.toNat + 1 := by
    rw [hnext, UInt32.toNat_add]
    simp only [show (1 : ID).toNat = 1 from rfl]
    omega
  have up : ∀ c a b, Made s.ix.items c a b → Made its c a b := by
    rintro c a b ⟨it, hg, h1, h2⟩
    obtain ⟨g0, g1, g2⟩ := Items.get_some hg
    exact ⟨it, Items.get_of g0 (by omega) (by rw [hold _ g1]; exact g2), h1, h2⟩
  have down : ∀ c a b, Made its c a b → Made s.ix.items c a b ∨ (c = s.ix.items.nextID ∧ a = p ∧ b = r) := by
    rintro c a b ⟨it, hg, h1, h2⟩
    obtain ⟨g0, g1, g2⟩ := Items.get_some hg
    by_cases e : c.toNat < s.ix.items.nextID.toNat
    · exact .inl ⟨it, Items.get_of g0 e (by rw [← hold _ e]; exact g2), h1, h2⟩
    · have hc : c = s.ix.items.nextID := UInt32.toNat_inj.1 (by omega)
      subst hc
      rw [hself] at g2
      cases g2
      exact .inr ⟨rfl, h1.symm, h2.symm⟩
  have hmade : Made its s.ix.items.nextID p r := ⟨_, Items.get_of hpos (by omega) hself, rfl, rfl⟩
  have hpl := h.place t p (by rw [hp]; rfl)
  have notD : ¬D s.ix.items.nextID := by
    intro hD
    obtain ⟨a, b, hm⟩ := h.lost _ hD
    exact absurd hm.lt.2 (by omega)
  have notE : ∀ m b, m < s.kids.fresh → s.kids.maps m b ≠ some s.ix.items.nextID := by
    intro m b hm he
    rcases h.entry m b _ hm he with ⟨hm, _⟩ | ⟨_, _, _, hz⟩
    · exact absurd hm.lt.2 (by omega)
    · rw [hz] at hpos; exact absurd hpos (by decide)
  have pnd : ∀ u x, ((({ s with ix := { s.ix with items := its } } : AState).goto t
      (.link p r rest s.ix.items.nextID)).pc u).pend = some x → (u = t ∧ x = (p, r, s.ix.items.nextID)) ∨ (u ≠ t ∧ (s.pc u).pend = some x) := by
    intro u x hx
    by_cases e : u = t
    · subst e
      simp only [AState.goto, upd_same] at hx
      cases hx
      exact .inl ⟨rfl, rfl⟩
    · simp only [AState.goto, upd_other _ _ e] at hx
      exact .inr ⟨e, hx⟩
  refine ⟨?_, h.shown, ?_, ?_, ?_, ?_, ?_⟩
  · intro m b c hm hc
    rcases h.entry m b c hm hc with ⟨hm, hd⟩ | hz
    · exact .inl ⟨up _ _ _ hm, hd⟩
    · exact .inr hz
  · intro c a b hm
    rcases down c a b hm with hm | ⟨_, rfl, _⟩
    · exact h.below c a b hm
    · exact hpl
  · intro c hc
    obtain ⟨a, b, hm⟩ := h.lost c hc
    exact ⟨a, b, up _ _ _ hm⟩
  · intro u a b c hu
    rcases pnd u _ hu with ⟨_, e⟩ | ⟨_, hu⟩
    · cases e
      exact ⟨hmade, notD, notE⟩
    · obtain ⟨h1, h2, h3⟩ := h.pend u a b c hu
      exact ⟨up _ _ _ h1, h2, h3⟩
  · intro u v a b a' b' c hu hv
    have fresh : ∀ w x y, (s.pc w).pend = some (x, y, s.ix.items.nextID) → False := fun w x y hw =>
      absurd (h.pend w x y _ hw).1.lt.2 (by omega)
    rcases pnd u _ hu with ⟨rfl, e⟩ | ⟨_, hu'⟩
    · rcases pnd v _ hv with ⟨rfl, _⟩ | ⟨_, hv⟩
      · rfl
      · cases e; exact (fresh _ _ _ hv).elim
    · rcases pnd v _ hv with ⟨rfl, e⟩ | ⟨_, hv⟩
      · cases e; exact (fresh _ _ _ hu').elim
      · exact h.uniq u v a b a' b' c hu' hv
  · intro u k hk
    by_cases e : u = t
    · subst e
      simp only [AState.goto, upd_same] at hk
      cases hk
      exact hpl
    · simp only [AState.goto, upd_other _ _ e] at hk
      exact h.place u k hk

/-- A step that changes the maps: `c0` is the node entered by it, if any. -/
theorem change (h : ForgetInv nul s D) (t : Nat) {s' : AState} {pc' : APC} (hi : s'.ix.items = s.ix.items)
    (hpc : s'.pc = upd s.pc t pc') (hpe : pc'.pend = none) {D' : ID → Prop}
    (hD' : ∀ k, D' k ↔ D k ∨ (s.Shows k ∧ ¬s'.Shows k) ∨ ((∃ p r, (s.pc t).pend = some (p, r, k)) ∧ ¬s'.Shows k ∧ pc'.node = some k))
    (hmap : ∀ m r c, m < s'.kids.fresh → s'.kids.maps m r = some c →
      (m < s.kids.fresh ∧ s'.kids.own m = s.kids.own m ∧ s.kids.maps m r = some c) ∨
      ((s.pc t).pend = some (s'.kids.own m, r, c) ∧ pc'.node = some c))
    (hnew : ∀ c, s'.Shows c → s.Shows c ∨ ∃ p r, (s.pc t).pend = some (p, r, c))
    (hok : ∀ p m, s.kids.ref p = some m → m < s.kids.fresh)
    (hz : nul = true → s'.now.getChildrenMap 0 0 = some 0)
    (hnode : ∀ k, pc'.node = some k → Settled s D k ∨ ∃ p r, (s.pc t).pend = some (p, r, k)) :
    ForgetInv nul s' D' := by
  have st : ∀ k, Settled s D k → Settled s' D' k := by
    rintro k (hk | hk | hk)
    · exact .inl hk
    · exact .inr (.inl ((hD' k).2 (.inl hk)))
    · by_cases e : s'.Shows k
      · exact .inr (.inr e)
      · exact .inr (.inl ((hD' k).2 (.inr (.inl ⟨hk, e⟩))))
  have stn : ∀ k, pc'.node = some k → Settled s' D' k := by
    intro k hk
    rcases hnode k hk with e | e
    · exact st k e
    · by_cases e' : s'.Shows k
      · exact .inr (.inr e')
      · exact .inr (.inl ((hD' k).2 (.inr (.inr ⟨e, e', hk⟩))))
  have npend : ∀ p r c, (s.pc t).pend = some (p, r, c) → ¬s.Shows c := by
    rintro p r c hp ⟨a, b, hc⟩
    obtain ⟨m, hr, hm⟩ := AState.now_some hc
    exact (h.pend t p r c hp).2.2 m b (hok a m hr) hm
  have madeOf : ∀ k, s.Shows k → (∃ a b, Made s.ix.items k a b) ∨ (nul = true ∧ k = 0) := by
    rintro k ⟨a, b, hk⟩
    obtain ⟨m, hr, hm⟩ := AState.now_some hk
    rcases h.entry m b k (hok a m hr) hm with ⟨e, _⟩ | ⟨e1, _, _, e2⟩
    · exact .inl ⟨_, b, e⟩
    · exact .inr ⟨e1, e2⟩
  have pnd : ∀ u x, (s'.pc u).pend = some x → u ≠ t ∧ (s.pc u).pend = some x := by
    intro u x hx
    rw [hpc] at hx
    by_cases e : u = t
    · subst e
      rw [upd_same, hpe] at hx; cases hx
    · rw [upd_other _ _ e] at hx
      exact ⟨e, hx⟩
  refine ⟨?_, ?_, ?_, ?_, ?_, ?_, ?_⟩
  · intro m r c hm hc
    rw [hi]
    rcases hmap m r c hm hc with ⟨h1, h2, h3⟩ | ⟨h1, h2⟩
    · rw [h2]
      exact (h.entry m r c h1 h3).imp_left fun x => ⟨x.1, st c x.2⟩
    · exact .inl ⟨(h.pend t _ r c h1).1, stn c h2⟩
  · intro c hs hd
    rcases (hD' c).1 hd with e | ⟨_, e⟩ | ⟨_, e, _⟩
    · rcases hnew c hs with hs | ⟨p, r, hp⟩
      · exact h.shown c hs e
      · exact (h.pend t p r c hp).2.1 e
    · exact e hs
    · exact e hs
  · intro c p r hm
    rw [hi] at hm
    exact st p (h.below c p r hm)
  · intro c hc
    rw [hi]
    rcases (hD' c).1 hc with e | ⟨e, e'⟩ | ⟨⟨p, r, e⟩, _, _⟩
    · exact h.lost c e
    · rcases madeOf c e with e | ⟨hn, rfl⟩
      · exact e
      · exact absurd ⟨0, 0, hz hn⟩ e'
    · exact ⟨p, r, (h.pend t p r c e).1⟩
  · intro u a b c hu
    obtain ⟨hut, hu⟩ := pnd u _ hu
    obtain ⟨h1, h2, h3⟩ := h.pend u a b c hu
    have h4 : ∀ p r, (s.pc t).pend ≠ some (p, r, c) := fun p r e => hut (h.uniq u t a b p r c hu e)
    refine ⟨by rw [hi]; exact h1, fun hd => ?_, fun m y hm hy => ?_⟩
    · rcases (hD' c).1 hd with e | ⟨⟨p, r, e⟩, _⟩ | ⟨⟨p, r, e⟩, _, _⟩
      · exact h2 e
      · obtain ⟨m, hr, hm⟩ := AState.now_some e
        exact h3 m r (hok p m hr) hm
      · exact h4 p r e
    · rcases hmap m y c hm hy with ⟨e1, _, e3⟩ | ⟨e1, _⟩
      · exact h3 m y e1 e3
      · exact h4 _ _ e1
  · intro u v a b a' b' k hu hv
    exact h.uniq u v a b a' b' k (pnd u _ hu).2 (pnd v _ hv).2
  · intro u k hk
    rw [hpc] at hk
    by_cases e : u = t
    · subst e
      rw [upd_same] at hk
      exact stn k hk
    · rw [upd_other _ _ e] at hk
      exact st k (h.place u k hk)

theorem step_inserting {t : Nat} {p : ID} {rs : List Rune} (hc : s.crashed = false) (hp : s.pc t = .inserting p rs) :
    s.step t = { s with writing := s.writing.erase (t, none), kids := s.kids.insert p }.goto t (.look p rs) := by
  unfold AState.step
  rw [hc, hp]
  rfl

theorem step_storing {t : Nat} {p : ID} {r : Rune} {rest : List Rune} {c : ID} {m : Nat} (hc : s.crashed = false)
    (hp : s.pc t = .storing p r rest c m) :
    s.step t = { s with writing := s.writing.erase (t, some m), kids := s.kids.store m r c }.next t c rest := by
  unfold AState.step
  rw [hc, hp]
  rfl

/-- The maps change in two kinds of steps only. -/
theorem step_kids (s : AState) (t : Nat) (h1 : ∀ p rs, s.pc t ≠ .inserting p rs)
    (h2 : ∀ p r rest c m, s.pc t ≠ .storing p r rest c m) : (s.step t).kids = s.kids := by
  unfold AState.step AState.access AState.next AState.missing AState.goto
  split
  · rfl
  · cases hp : s.pc t with
    | inserting p rs => exact absurd hp (h1 p rs)
    | storing p r rest c m => exact absurd hp (h2 p r rest c m)
    | check p rs =>
      cases rs with
      | nil => rfl
      | cons r rest => simp only; split <;> [rfl; (split <;> rfl)]
    | insert p rs => simp only; split <;> rfl
    | look p rs =>
      cases rs with
      | nil => rfl
      | cons r rest =>
        simp only
        split
        · rfl
        · split
          · rfl
          · split <;> rfl
    | probe p r rest m =>
      simp only
      split
      · rfl
      · split
        · split <;> rfl
        · split <;> rfl
    | make p r rest => simp only; split <;> rfl
    | link p r rest c =>
      simp only
      split
      · rfl
      · split <;> rfl
    | store p r rest c m => simp only; split <;> rfl
    | done o => rfl

/-- One step that does not end in a data race. -/
theorem step {ix0 : Index} {d : Dict} {adds : Nat → Bool} {q : Nat → List Rune} {ns ns' : List (List Rune)} {t : Nat}
    (h : ForgetInv d.nul s D) (ha : AInv ix0 d adds q s ns) (ha' : AInv ix0 d adds q (s.step t) ns')
    (h0 : d.nul = true → ix0.getChildrenMap 0 0 = some 0)
    (hcap : ns.length + 1 < 4294967296) (hcr : s.crashed = false) (hc : (s.step t).crashed = false) :
    ForgetInv d.nul (s.step t) (fun k => D k ∨ s.Forgets t k) := by
  have hz : d.nul = true → (s.step t).now.getChildrenMap 0 0 = some 0 := fun e => ha'.ext 0 0 0 (h0 e)
  -- all but two kinds of steps
  have none' : (∀ p rs, s.pc t ≠ .inserting p rs) → (∀ p r rest c m, s.pc t ≠ .storing p r rest c m) →
      ForgetInv d.nul (s.step t) D → ForgetInv d.nul (s.step t) (fun k => D k ∨ s.Forgets t k) := fun n1 n2 h' =>
    h'.congr fun k => ⟨.inl, fun hh => hh.elim id fun
      | .inl ⟨e1, e2⟩ => absurd (e1.of (step_kids s t n1 n2)) e2
      | .inr ⟨p, r, rest, m, hp, _⟩ => absurd hp (n2 p r rest k m)⟩
  have hg := ha.good t
  have hpl := h.place t
  cases hp : s.pc t with
  | inserting p rs =>
    have e := step_inserting hcr hp
    rw [hp] at hpl
    refine h.change t (s' := s.step t) (pc' := .look p rs) (by rw [e]; rfl) (by rw [e]; rfl) rfl ?_ ?_ ?_ ha.ok.lt hz ?_
    · intro k
      unfold AState.Forgets
      constructor
      · rintro (x | x | ⟨_, _, _, _, x, _⟩)
        · exact .inl x
        · exact .inr (.inl x)
        · rw [hp] at x; cases x
      · rintro (x | x | ⟨⟨_, _, x⟩, _⟩)
        · exact .inl x
        · exact .inr (.inl x)
        · rw [hp] at x; cases x
    · intro m r c hm hc
      rw [e] at hm hc ⊢
      simp only [AState.goto] at hm hc ⊢
      by_cases em : m = s.kids.fresh
      · subst em; simp only [KidMaps.insert, upd_same] at hc; cases hc
      · have hlt : m < s.kids.fresh := by simp only [KidMaps.insert] at hm; omega
        rw [KidMaps.insert_maps hlt] at hc
        exact .inl ⟨hlt, KidMaps.insert_own hlt, hc⟩
    · rintro c ⟨a, b, hc⟩
      left
      rw [AState.now_get, e] at hc
      simp only [AState.goto] at hc
      by_cases ea : a = p
      · subst ea
        simp only [KidMaps.insert, if_true, Option.bind_some, upd_same] at hc
        cases hc
      · have : (s.kids.insert p).ref a = s.kids.ref a := by simp [KidMaps.insert, ea]
        rw [this] at hc
        refine ⟨a, b, ?_⟩
        rw [AState.now_get]
        cases hr : s.kids.ref a with
        | none => rw [hr] at hc; cases hc
        | some m =>
          rw [hr] at hc
          simp only [Option.bind_some] at hc ⊢
          rw [KidMaps.insert_maps (ha.ok.lt a m hr)] at hc
          exact hc
    · intro k hk
      cases hk
      exact .inl (hpl _ rfl)
  | storing p r rest c m =>
    have e := step_storing hcr hp
    rw [AInv.next_eq] at e
    rw [hp] at hpl hg
    obtain ⟨hm, hh, v, hv, hcn⟩ := hg
    have hpend : (s.pc t).pend = some (p, r, c) := by rw [hp]; rfl
    have hnode : (if rest = [] then APC.done (s.ix.get c) else .check c rest).node = some c := by
      split
      · rw [ha.spells.get_ok hcn]; rfl
      · rfl
    have hcno := (h.pend t p r c hpend).2.2
    have hs' : ∀ a b, (s.step t).now.getChildrenMap a b = (s.kids.ref a).bind fun n => if n = m ∧ b = r then some c else s.kids.maps n b := by
      intro a b
      rw [AState.now_get, e]
      simp only [AState.goto]
      show (s.kids.ref a).bind (fun n => (s.kids.store m r c).maps n b) = _
      congr 1
      funext n
      exact KidMaps.store_maps m r c n b
    -- is the stored child visible?
    have hvis : (s.step t).Shows c ↔ s.kids.ref p = some m := by
      constructor
      · rintro ⟨a, b, hc⟩
        rw [hs'] at hc
        cases hr : s.kids.ref a with
        | none => rw [hr] at hc; cases hc
        | some n =>
          rw [hr] at hc
          simp only [Option.bind_some] at hc
          split at hc
          · rename_i hnb
            obtain ⟨rfl, rfl⟩ := hnb
            have := ha.ok.own a n hr
            rw [hh.own] at this
            rw [this]; exact hr
          · exact absurd hc (hcno n b (ha.ok.lt a n hr))
      · intro hr
        exact ⟨p, r, by rw [hs', hr]; simp⟩
    refine h.change t (s' := s.step t) (pc' := if rest = [] then APC.done (s.ix.get c) else .check c rest)
      (by rw [e]; rfl) (by rw [e]; rfl) next_pend ?_ ?_ ?_ ha.ok.lt hz ?_
    · intro k
      unfold AState.Forgets
      constructor
      · rintro (x | x | ⟨_, _, _, _, x, y⟩)
        · exact .inl x
        · exact .inr (.inl x)
        · rw [hp] at x
          cases x
          exact .inr (.inr ⟨⟨p, r, hpend⟩, fun z => y (hvis.1 z), hnode⟩)
      · rintro (x | x | ⟨⟨p', r', x⟩, y, _⟩)
        · exact .inl x
        · exact .inr (.inl x)
        · rw [hpend] at x
          cases x
          exact .inr (.inr ⟨p, r, rest, m, hp, fun z => y (hvis.2 z)⟩)
    · intro n b k hn hk
      rw [e] at hn hk ⊢
      simp only [AState.goto] at hn hk ⊢
      rw [KidMaps.store_maps] at hk
      split at hk
      · rename_i hnb
        obtain ⟨rfl, rfl⟩ := hnb
        cases hk
        refine .inr ⟨?_, hnode⟩
        show (s.pc t).pend = some (s.kids.own n, b, c)
        rw [hh.own]; exact hpend
      · exact .inl ⟨hn, rfl, hk⟩
    · rintro k ⟨a, b, hk⟩
      rw [hs'] at hk
      cases hr : s.kids.ref a with
      | none => rw [hr] at hk; cases hk
      | some n =>
        rw [hr] at hk
        simp only [Option.bind_some] at hk
        split at hk
        · cases hk; exact .inr ⟨p, r, hpend⟩
        · exact .inl ⟨a, b, by rw [AState.now_get, hr]; exact hk⟩
    · intro k hk
      rw [next_node hk]
      exact .inr ⟨p, r, hpend⟩
  | done o =>
    refine none' (by simp [hp]) (by simp [hp]) ?_
    unfold AState.step
    rw [hcr, hp]
    exact h
  | check p rs =>
    refine none' (by simp [hp]) (by simp [hp]) ?_
    unfold AState.step at hc ⊢
    rw [if_neg (by rw [hcr]; decide), hp] at hc ⊢
    rw [hp] at hpl
    cases rs with
    | nil => exact h.goto t _ s.writing (fun k hk => by cases hk) (.inl rfl)
    | cons r rest =>
      simp only at hc ⊢
      split
      · exact h.goto t _ s.writing (fun k hk => by cases hk) (.inl rfl)
      · rename_i hnp
        rw [if_neg hnp] at hc
        rw [AInv.access hc]
        split
        · exact h.goto t _ s.writing (fun k hk => by cases hk; exact hpl _ rfl) (.inl rfl)
        · exact h.goto t _ s.writing (fun k hk => by cases hk; exact hpl _ rfl) (.inl rfl)
  | insert p rs =>
    refine none' (by simp [hp]) (by simp [hp]) ?_
    unfold AState.step at hc ⊢
    rw [if_neg (by rw [hcr]; decide), hp] at hc ⊢
    rw [hp] at hpl
    simp only at hc ⊢
    rw [AInv.access hc]
    exact h.goto t _ _ (fun k hk => by cases hk; exact hpl _ rfl) (.inl rfl)
  | look p rs =>
    refine none' (by simp [hp]) (by simp [hp]) ?_
    unfold AState.step at hc ⊢
    rw [if_neg (by rw [hcr]; decide), hp] at hc ⊢
    rw [hp] at hpl
    cases rs with
    | nil => exact h
    | cons r rest =>
      simp only at hc ⊢
      rw [AInv.access hc]
      cases s.kids.ref p with
      | none => exact h.missing t (hpl _ rfl)
      | some m => exact h.goto t _ s.writing (fun k hk => by cases hk; exact hpl _ rfl) (.inl rfl)
  | probe p r rest m =>
    refine none' (by simp [hp]) (by simp [hp]) ?_
    unfold AState.step at hc ⊢
    rw [if_neg (by rw [hcr]; decide), hp] at hc ⊢
    rw [hp] at hpl hg
    simp only at hc ⊢
    rw [AInv.access hc]
    cases hcm : s.kids.maps m r with
    | none => exact h.missing t (hpl _ rfl)
    | some c =>
      simp only
      rw [AInv.next_eq]
      refine h.goto t _ s.writing (fun k hk => ?_) (.inl next_pend)
      rw [next_node hk]
      rcases h.entry m r c hg.2.1.lt hcm with ⟨_, hs⟩ | ⟨_, _, _, rfl⟩
      · exact hs
      · exact .inl rfl
  | make p r rest =>
    refine none' (by simp [hp]) (by simp [hp]) ?_
    unfold AState.step at hc ⊢
    rw [if_neg (by rw [hcr]; decide), hp] at hc ⊢
    rw [hp] at hg
    have hnx := ha.spells.next
    have hcp := ha.spells.cap
    have hrt := ItemsSpell.lt ha.spells.root
    obtain ⟨hm, v, hv⟩ := hg
    obtain ⟨its', it, hnew, _⟩ := ha.spells.newChild hv.node r hcap
    simp only [hnew]
    exact h.make t hp (by omega) (by omega) (by omega) hnew
  | link p r rest c =>
    refine none' (by simp [hp]) (by simp [hp]) ?_
    unfold AState.step at hc ⊢
    rw [if_neg (by rw [hcr]; decide), hp] at hc ⊢
    rw [hp] at hpl
    simp only at hc ⊢
    rw [AInv.access hc]
    cases s.kids.ref p with
    | none => exact h.goto t _ s.writing (fun k hk => by cases hk) (.inl rfl)
    | some m => exact h.goto t _ s.writing (fun k hk => by cases hk; exact hpl _ rfl) (.inr (by rw [hp]; rfl))
  | store p r rest c m =>
    refine none' (by simp [hp]) (by simp [hp]) ?_
    unfold AState.step at hc ⊢
    rw [if_neg (by rw [hcr]; decide), hp] at hc ⊢
    rw [hp] at hpl
    simp only at hc ⊢
    rw [AInv.access hc]
    exact h.goto t _ _ (fun k hk => by cases hk; exact hpl _ rfl) (.inr (by rw [hp]; rfl))

theorem forgotten_cons (s : AState) (t : Nat) (l : List Nat) (k : ID) :
    s.WasForgotten (t :: l) k ↔ s.Forgets t k ∨ (s.step t).WasForgotten l k := by
  constructor
  · rintro ⟨pre, u, post, he, hr⟩
    cases pre with
    | nil => cases he; exact .inl hr
    | cons a pre => cases he; exact .inr ⟨pre, u, post, rfl, hr⟩
  · rintro (hr | ⟨pre, u, post, rfl, hr⟩)
    · exact ⟨[], t, l, rfl, hr⟩
    · exact ⟨t :: pre, u, post, rfl, hr⟩

theorem run {ix0 : Index} {d : Dict} {adds : Nat → Bool} {q : Nat → List Rune} {ns : List (List Rune)}
    (h : ForgetInv d.nul s D) (ha : AInv ix0 d adds q s ns) (h0 : d.nul = true → ix0.getChildrenMap 0 0 = some 0)
    (hz : d.nul = false ∨ ∀ t, NoLeadingNul (q t)) (sched : List Nat)
    (hcap : ns.length + sched.length < 4294967296) (hc : (s.run sched).crashed = false) :
    ∃ ns', AInv ix0 d adds q (s.run sched) ns' ∧
      ForgetInv d.nul (s.run sched) (fun k => D k ∨ s.WasForgotten sched k) := by
  induction sched generalizing s ns D with
  | nil =>
    refine ⟨ns, ha, h.congr fun k => ⟨.inl, fun hh => hh.elim id ?_⟩⟩
    rintro ⟨pre, u, post, he, _⟩
    cases pre <;> cases he
  | cons t l ih =>
    have hc' : (s.step t).crashed = false := by
      cases e : (s.step t).crashed with
      | false => rfl
      | true =>
        have : s.run (t :: l) = s.step t := AInv.crashed_run l e
        rw [this, e] at hc; cases hc
    have hc0 : s.crashed = false := by
      cases e : s.crashed with
      | false => rfl
      | true => rw [AInv.crashed_run _ e, e] at hc; cases hc
    simp only [List.length_cons] at hcap
    obtain ⟨ns1, h1, hl⟩ := ha.step hz t (by omega) hc'
    obtain ⟨ns2, h2, h3⟩ := ih (h.step ha h1 h0 (by omega) hc0 hc') h1 (by omega) hc
    exact ⟨ns2, h2, h3.congr fun k => by rw [forgotten_cons, or_assoc]⟩

/-- Without a forgotten node above it, a node is found by its word. -/
theorem found {ns : List (List Rune)} (h : ForgetInv nul s D) (hok : s.kids.Ok) (hs : ItemsSpell s.ix.items ns) (n : Nat) :
    ∀ (k : ID) (w : List Rune), k.toNat = n → Settled s D k → ns[k.toNat]? = some w →
      (∀ a, Above s.ix.items a k → ¬D a) → walk s.now 0 w = some k := by
  induction n using Nat.strongRecOn with
  | _ n ih =>
    intro k w hkn hk hw hab
    by_cases hk0 : k = 0
    · subst hk0
      have hr := hs.root
      rw [show (0 : ID).toNat = 0 from rfl, hr] at hw
      cases hw
      rfl
    rcases hk with hk | hk | ⟨p, r, he⟩
    · exact absurd hk hk0
    · exact absurd hk (hab k (.self k))
    · obtain ⟨m, hr, hm⟩ := AState.now_some he
      rcases h.entry m r k (hok.lt p m hr) hm with ⟨⟨it, hg, h1, rfl⟩, _⟩ | ⟨_, _, _, e⟩
      · rw [hok.own p m hr] at h1
        subst h1
        obtain ⟨g0, g1, g2⟩ := Items.get_some hg
        rw [hs.next] at g1
        obtain ⟨it', w', i1, i2, i3, i4⟩ := hs.item k.toNat g0 g1
        rw [i1] at g2
        cases g2
        rw [i4] at hw
        cases hw
        have := ih it.parent.toNat (by omega) it.parent w' rfl (h.below k _ _ ⟨it, hg, rfl, rfl⟩) i3
          fun a ha => hab a (.up hg ha)
        rw [walk_append, this]
        simp only [Option.bind_some, walk, he]
      · exact absurd e hk0

/-- What is found by its letters has no forgotten node above it. -/
theorem clean (h : ForgetInv nul s D) (hok : s.kids.Ok) (w : List Rune) :
    ∀ k, walk s.now 0 w = some k → ∀ a, Above s.ix.items a k → ¬D a := by
  have root : ∀ a, Above s.ix.items a 0 → ¬D a := by
    intro a ha hd
    obtain ⟨p, r, hm⟩ := h.lost a hd
    cases ha with
    | self => exact hm.ne0 rfl
    | up hg _ => exact absurd (Items.get_some hg).1 (by decide)
  induction w using List.reverseRecOn with
  | nil =>
    intro k hk
    cases hk
    exact root
  | append_singleton w r ih =>
    intro k hk
    rw [walk_append] at hk
    cases hp : walk s.now 0 w with
    | none => rw [hp] at hk; cases hk
    | some p =>
      rw [hp] at hk
      simp only [Option.bind_some, walk] at hk
      cases he : s.now.getChildrenMap p r with
      | none => rw [he] at hk; cases hk
      | some c =>
        rw [he] at hk
        cases hk
        obtain ⟨m, hr, hm⟩ := AState.now_some he
        rcases h.entry m r k (hok.lt p m hr) hm with ⟨⟨it, hg, h1, _⟩, _⟩ | ⟨_, _, _, rfl⟩
        · rw [hok.own p m hr] at h1
          intro a ha
          cases ha with
          | self => exact h.shown k ⟨p, r, he⟩
          | up hg' ha' =>
            rw [hg] at hg'
            cases hg'
            rw [h1] at ha'
            exact ih p hp a ha'
        · exact root

end ForgetInv

end Verif
