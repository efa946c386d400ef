import Verif.Model.ConcurrentAdd
import Verif.Lemmas.ConcurrentLookup
import Verif.Lemmas.Answers
import Verif.Spec.ConcurrentAdd

/-! # Concurrent additions -/

namespace Verif

/-- The node reached from `p` by the letters. -/
def walk (ix : Index) : ID → List Rune → Option ID
  | p, [] => some p
  | p, r :: rest => (ix.getChildrenMap p r).bind fun c => walk ix c rest

theorem walk_congr {ix ix' : Index} (h : ix'.getChildrenMap = ix.getChildrenMap) (p : ID) (rs : List Rune) :
    walk ix' p rs = walk ix p rs := by
  induction rs generalizing p with
  | nil => rfl
  | cons r rest ih =>
    simp only [walk, h]
    congr 1
    funext c
    exact ih c

theorem walk_append (ix : Index) (p : ID) (a b : List Rune) :
    walk ix p (a ++ b) = (walk ix p a).bind fun c => walk ix c b := by
  induction a generalizing p with
  | nil => rfl
  | cons r rest ih =>
    simp only [List.cons_append, walk, ih, Option.bind_assoc]

theorem fetch_walk (ix : Index) (p id : ID) (rs : List Rune) (hrs : rs ≠ []) :
    (ix.fetchFromItem p rs).2 = .ok id ↔ walk ix p rs = some id ∧ id.toNat < ix.items.nextID.toNat := by
  induction rs generalizing ix p with
  | nil => exact absurd rfl hrs
  | cons r rest ih =>
    have ho := getChildrenIDMap_obs ix p
    have hs := getChildrenIDMap_snd ix p
    unfold Index.fetchFromItem
    generalize ix.getChildrenIDMap p = x at *
    obtain ⟨ix1, cm⟩ := x
    simp only at ho hs ⊢
    subst hs
    simp only [walk]
    cases hc : ix.getChildrenMap p r with
    | none =>
      simp only [Option.bind_none]
      cases ix1.word p with
      | _ => simp [Out.bind]
    | some c =>
      simp only [Option.bind_some]
      by_cases hr : rest = []
      · subst hr
        simp only [if_true, walk, Index.get, ho.items]
        split
        · rename_i hge
          constructor
          · intro h; cases h
          · rintro ⟨h1, h2⟩
            rw [Option.some.inj h1] at hge
            omega
        · rename_i hlt
          constructor
          · intro h
            have := Out.ok.inj h
            subst this
            exact ⟨rfl, by omega⟩
          · rintro ⟨h1, _⟩
            rw [Option.some.inj h1]
      · rw [if_neg hr, ih ix1 c hr, walk_congr ho.children, ho.items]

/-- Every entry of the children maps of `a` is one of `b`. -/
def KidsKept (a b : Index) : Prop := ∀ p r c, a.getChildrenMap p r = some c → b.getChildrenMap p r = some c

theorem KidsKept.refl (a : Index) : KidsKept a a := fun _ _ _ h => h

theorem KidsKept.walk {a b : Index} (h : KidsKept a b) {p c : ID} {rs : List Rune} (hw : walk a p rs = some c) :
    Verif.walk b p rs = some c := by
  induction rs generalizing p with
  | nil => exact hw
  | cons r rest ih =>
    simp only [Verif.walk] at hw ⊢
    cases hc : a.getChildrenMap p r with
    | none => rw [hc] at hw; cases hw
    | some k =>
      rw [hc] at hw
      rw [h _ _ _ hc]
      exact ih hw

/-- The items spell the words `ns` (several items may spell the same word). -/
structure ItemsSpell (its : Items) (ns : List (List Rune)) : Prop where
  root : ns[0]? = some []
  next : its.nextID.toNat = ns.length
  cap : ns.length ≤ its.items.length
  item : ∀ k, 0 < k → k < ns.length → ∃ it w, its.items[k]? = some it ∧
    it.parent.toNat < k ∧ ns[it.parent.toNat]? = some w ∧ ns[k]? = some (w ++ [it.letter])

theorem TrieOK.spells {ix : Index} {d : Dict} (h : TrieOK ix d) : ItemsSpell ix.items d.nodes :=
  ⟨h.root, h.next, h.cap, fun k h0 h1 => let ⟨it, w, a, _, b, c, e⟩ := h.item k h0 h1; ⟨it, w, a, b, c, e⟩⟩

namespace ItemsSpell

variable {its : Items} {ns : List (List Rune)}

theorem lt {ns : List (List Rune)} {k : Nat} {w : List Rune} (h : ns[k]? = some w) : k < ns.length :=
  (List.getElem?_eq_some_iff.1 h).1

theorem items_get (h : ItemsSpell its ns) {id : ID} (h0 : 0 < id.toNat) (h1 : id.toNat < ns.length) :
    ∃ it w, its.get id = some it ∧ it.parent.toNat < id.toNat ∧ ns[it.parent.toNat]? = some w ∧
      ns[id.toNat]? = some (w ++ [it.letter]) := by
  obtain ⟨it, w, h2, h3⟩ := h.item id.toNat h0 h1
  refine ⟨it, w, ?_, h3⟩
  unfold Items.get
  rw [if_neg (by omega), if_neg (by rw [h.next]; omega), h2]

theorem wordFuel_eq (h : ItemsSpell its ns) (n : Nat) (id : ID) (w : List Rune)
    (hw : ns[id.toNat]? = some w) (hn : id.toNat < n) :
    Index.wordFuel n its id = .ok (encodeRunes w) := by
  induction n generalizing id w with
  | zero => omega
  | succ n ih =>
    unfold Index.wordFuel
    by_cases h0 : id = 0
    · subst h0
      have : w = [] := by
        have := h.root
        rw [show (0 : ID).toNat = 0 from rfl] at hw
        rw [hw] at this; exact Option.some.inj this
      subst this
      rfl
    · rw [if_neg h0]
      have h1 : 0 < id.toNat := Nat.pos_of_ne_zero fun h' => h0 (TrieOK.toNat_eq_zero.1 h')
      obtain ⟨it, w', hg, hlt, hp, hk⟩ := h.items_get h1 (lt hw)
      have hww : w = w' ++ [it.letter] := by rw [hk] at hw; exact (Option.some.inj hw).symm
      rw [hg]
      simp only
      by_cases hpz : it.parent = 0
      · rw [if_neg (by simpa using hpz)]
        have : w' = [] := by
          have hr := h.root
          rw [hpz, show (0 : ID).toNat = 0 from rfl] at hp
          rw [hp] at hr; exact Option.some.inj hr
        subst this
        rw [hww]
        simp [encodeRunes]
      · rw [if_pos hpz, ih it.parent w' hp (by omega)]
        rw [hww]
        simp [encodeRunes]

theorem word_eq {ix : Index} (h : ItemsSpell ix.items ns) {id : ID} {w : List Rune} (hw : ns[id.toNat]? = some w) :
    ix.word id = .ok (encodeRunes w) :=
  h.wordFuel_eq _ id w hw (by rw [h.next]; have := lt hw; omega)

theorem get_ok {ix : Index} (h : ItemsSpell ix.items ns) {id : ID} {w : List Rune} (hw : ns[id.toNat]? = some w) :
    ix.get id = .ok id := by
  have := lt hw
  unfold Index.get
  rw [h.next, if_neg (by omega)]

/-- A new node below `p`. -/
theorem newChild (h : ItemsSpell its ns) {p : ID} {v : List Rune} (hp : ns[p.toNat]? = some v) (r : Rune)
    (hcap : ns.length + 1 < 4294967296) :
    ∃ its' it, its.newChild p r = some (its', it) ∧ ItemsSpell its' (ns ++ [v ++ [r]]) ∧
      (ns ++ [v ++ [r]])[it.id.toNat]? = some (v ++ [r]) := by
  obtain ⟨its', hnew, hnext, hlen, hself, hold, _⟩ := newChild_spec its p r (by rw [h.next]; exact h.cap)
  have hid := h.next
  have hpl := lt hp
  refine ⟨its', _, hnew, ⟨?_, ?_, ?_, ?_⟩, ?_⟩
  · rw [List.getElem?_append_left (by omega)]; exact h.root
  · rw [hnext, UInt32.toNat_add, hid]
    simp only [show (1 : ID).toNat = 1 from rfl, List.length_append, List.length_singleton]
    omega
  · simp only [List.length_append, List.length_singleton]; omega
  · intro k hk0 hk
    simp only [List.length_append, List.length_singleton] at hk
    by_cases hkn : k < ns.length
    · obtain ⟨it, w', e1, e3, e4, e5⟩ := h.item k hk0 hkn
      refine ⟨it, w', ?_, e3, ?_, ?_⟩
      · rw [hold k (by omega)]; exact e1
      · rw [List.getElem?_append_left (lt e4)]; exact e4
      · rw [List.getElem?_append_left hkn]; exact e5
    · have hk' : k = its.nextID.toNat := by omega
      subst hk'
      refine ⟨_, v, hself, ?_, ?_, ?_⟩
      · simp only; omega
      · simp only; rw [List.getElem?_append_left hpl]; exact hp
      · simp only; rw [hid, List.getElem?_append_right (by omega)]; simp
  · simp only; rw [hid, List.getElem?_append_right (by omega)]; simp

end ItemsSpell

/-! ## The heap of maps -/

/-- The maps in use were made, and made for their nodes. -/
structure KidMaps.Ok (k : KidMaps) : Prop where
  lt : ∀ p m, k.ref p = some m → m < k.fresh
  own : ∀ p m, k.ref p = some m → k.own m = p

namespace KidMaps

variable {k : KidMaps}

theorem ofIndex_ok (ix : Index) : (ofIndex ix).Ok := by
  have e : ∀ p m, (ofIndex ix).ref p = some m → m = p.toNat := by
    intro p m h
    simp only [ofIndex] at h
    split at h
    · cases h; rfl
    · cases h
  refine ⟨fun p m h => ?_, fun p m h => ?_⟩
  · rw [e p m h]; exact p.toNat_lt
  · rw [e p m h]; exact UInt32.ofNat_toNat

theorem ofIndex_view (ix : Index) : (ofIndex ix).view = ix.childrenMap := by
  funext p
  simp only [view, ofIndex, Index.getChildrenMap]
  cases h : ix.childrenMap p with
  | none => rfl
  | some im => simp [UInt32.ofNat_toNat, h]

theorem insert_ok (h : k.Ok) (p : ID) : (k.insert p).Ok := by
  refine ⟨fun a m e => ?_, fun a m e => ?_⟩
  · simp only [insert] at e ⊢
    split at e
    · cases e; omega
    · have := h.lt a m e; omega
  · simp only [insert] at e ⊢
    split at e
    · rename_i ha
      cases e
      rw [upd_same, ha]
    · have := h.lt a m e
      rw [upd_other _ _ (by omega)]
      exact h.own a m e

theorem insert_maps {p : ID} {m : Nat} (h : m < k.fresh) : (k.insert p).maps m = k.maps m := by
  simp only [insert]
  rw [upd_other _ _ (by omega)]

theorem insert_own {p : ID} {m : Nat} (h : m < k.fresh) : (k.insert p).own m = k.own m := by
  simp only [insert]
  rw [upd_other _ _ (by omega)]

theorem insert_view (h : k.Ok) (p : ID) :
    (k.insert p).view = fun a => if a = p then some (fun _ => none) else k.view a := by
  funext a
  simp only [view]
  split
  · rename_i e
    subst e
    simp [insert, upd_same]
  · rename_i e
    have : (k.insert p).ref a = k.ref a := by simp [insert, e]
    rw [this]
    cases hr : k.ref a with
    | none => rfl
    | some m => simp only [Option.map_some]; rw [insert_maps (h.lt a m hr)]

theorem store_ok (h : k.Ok) (m : Nat) (r : Rune) (c : ID) : (k.store m r c).Ok := ⟨h.lt, h.own⟩

theorem store_maps (m : Nat) (r : Rune) (c : ID) (n : Nat) (a : Rune) :
    (k.store m r c).maps n a = if n = m ∧ a = r then some c else k.maps n a := by
  simp only [store]
  by_cases e : n = m
  · subst e
    rw [upd_same]
    by_cases e' : a = r <;> simp [e']
  · rw [upd_other _ _ e, if_neg (fun h => e h.1)]

/-- Stored into the map in use. -/
theorem store_view (h : k.Ok) {p : ID} {m : Nat} (hr : k.ref p = some m) (r : Rune) (c : ID) :
    (k.store m r c).view = Index.setChild k.view p r c := by
  have hv : k.view p = some (k.maps m) := by simp [view, hr]
  funext a
  simp only [Index.setChild, hv]
  show (k.ref a).map (k.store m r c).maps = _
  split
  · rename_i e
    subst e
    rw [hr]
    simp [store, upd_same]
  · rename_i e
    show _ = (k.ref a).map k.maps
    cases ha : k.ref a with
    | none => rfl
    | some n =>
      have : n ≠ m := by
        rintro rfl
        exact e ((h.own a n ha).symm.trans (h.own p n hr))
      simp only [Option.map_some, store]
      rw [upd_other _ _ this]

end KidMaps

namespace AState

variable {s : AState}

theorem now_get (p : ID) (r : Rune) : s.now.getChildrenMap p r = (s.kids.ref p).bind fun m => s.kids.maps m r := by
  simp only [now, Index.getChildrenMap, KidMaps.view]
  cases s.kids.ref p <;> rfl

theorem now_of_ref {p : ID} {m : Nat} (h : s.kids.ref p = some m) (r : Rune) :
    s.now.getChildrenMap p r = s.kids.maps m r := by rw [now_get, h]; rfl

theorem now_some {p : ID} {r : Rune} {c : ID} (h : s.now.getChildrenMap p r = some c) :
    ∃ m, s.kids.ref p = some m ∧ s.kids.maps m r = some c := by
  rw [now_get] at h
  cases hr : s.kids.ref p with
  | none => rw [hr] at h; cases h
  | some m => rw [hr] at h; exact ⟨m, rfl, h⟩

theorem start_now (ix : Index) (adds : Nat → Bool) (q : Nat → List Rune) : (start ix adds q).now = ix := by
  simp only [now, start, KidMaps.ofIndex_view]

end AState

/-! ## The invariant -/

/-- Thread at node `p` with `rs` left of its word `w`. -/
structure APC.At (C : Prop) (ix0 ix : Index) (ns : List (List Rune)) (w : List Rune) (p : ID) (rs v : List Rune) : Prop where
  node : ns[p.toNat]? = some v
  word : w = v ++ rs
  reach : C → walk ix 0 v = some p
  same : ∀ p0, walk ix0 0 v = some p0 → p = p0

/-- Thread holding the map `m` of node `p`. -/
structure APC.Holds (C : Prop) (ix0 : Index) (k : KidMaps) (p : ID) (m : Nat) : Prop where
  lt : m < k.fresh
  own : k.own m = p
  old : (ix0.childrenMap p).isSome = true → m = p.toNat
  cur : C → k.ref p = some m

/-- Thread about to give `p` a new child. -/
structure APC.Mk (C : Prop) (ix0 ix : Index) (k : KidMaps) (a : Bool) (p : ID) (r : Rune) : Prop where
  add : a = true
  map : (k.ref p).isSome = true
  none0 : ix0.getChildrenMap p r = none
  free : C → ix.getChildrenMap p r = none

/-- Thread about to give `p` a map of children. -/
structure APC.Ins (C : Prop) (ix0 ix : Index) (p : ID) (rs : List Rune) : Prop where
  ne : rs ≠ []
  none0 : (ix0.childrenMap p).isSome = false
  free : C → ∀ r, ix.getChildrenMap p r = none

/-- What is known at each place of a call for the word `w` (an addition if `a`). `C` is the condition under which nothing
is lost. -/
def APC.Good (C : Prop) (ix0 ix : Index) (k : KidMaps) (a : Bool) (ns : List (List Rune)) (w : List Rune) : APC → Prop
  | .check p rs => (rs = [] → w = []) ∧ ∃ v, At C ix0 ix ns w p rs v
  | .insert p rs => Ins C ix0 ix p rs ∧ ∃ v, At C ix0 ix ns w p rs v
  | .inserting p rs => Ins C ix0 ix p rs ∧ ∃ v, At C ix0 ix ns w p rs v
  | .look p rs => rs ≠ [] ∧ (k.ref p).isSome = true ∧ ∃ v, At C ix0 ix ns w p rs v
  | .probe p r rest m => (k.ref p).isSome = true ∧ Holds (C ∧ a = true) ix0 k p m ∧ ∃ v, At C ix0 ix ns w p (r :: rest) v
  | .make p r rest => Mk C ix0 ix k a p r ∧ ∃ v, At C ix0 ix ns w p (r :: rest) v
  | .link p r rest c => Mk C ix0 ix k a p r ∧ ∃ v, At C ix0 ix ns w p (r :: rest) v ∧ ns[c.toNat]? = some (v ++ [r])
  | .store p r rest c m => Mk C ix0 ix k a p r ∧ Holds (C ∧ a = true) ix0 k p m ∧
      ∃ v, At C ix0 ix ns w p (r :: rest) v ∧ ns[c.toNat]? = some (v ++ [r])
  | .storing p r rest c m => Mk C ix0 ix k a p r ∧ Holds (C ∧ a = true) ix0 k p m ∧
      ∃ v, At C ix0 ix ns w p (r :: rest) v ∧ ns[c.toNat]? = some (v ++ [r])
  | .done o => (w = [] ∧ o = .err .emptyRunes) ∨
      (∃ id : ID, o = .ok id ∧ w ≠ [] ∧ ns[id.toNat]? = some w ∧ (C → walk ix 0 w = some id) ∧
        ∀ p0, walk ix0 0 w = some p0 → id = p0) ∨
      (a = false ∧ ∃ v r rest, w = v ++ r :: rest ∧ o = .err (.notFound (encodeRunes v) r) ∧
        walk ix0 0 (v ++ [r]) = none)

/-- The place where a new child is about to be made. -/
def APC.target : APC → Option (ID × Rune)
  | .make p r _ => some (p, r)
  | .link p r _ _ => some (p, r)
  | .store p r _ _ _ => some (p, r)
  | .storing p r _ _ _ => some (p, r)
  | _ => none

/-- The node whose children a call is busy with, and what is left of the word. -/
def APC.busyAt : APC → Option (ID × List Rune)
  | .insert p rs | .inserting p rs | .look p rs => some (p, rs)
  | .probe p r rest _ | .make p r rest | .link p r rest _ | .store p r rest _ _ | .storing p r rest _ _ => some (p, r :: rest)
  | _ => none

section
variable {C : Prop} {ix0 ix ix' : Index} {k k' : KidMaps} {a : Bool} {ns ns' : List (List Rune)} {w : List Rune}

theorem APC.At.mono {p : ID} {rs v : List Rune} (h : APC.At C ix0 ix ns w p rs v) (hn : ns <+: ns')
    (he : C → KidsKept ix ix') : APC.At C ix0 ix' ns' w p rs v :=
  ⟨prefix_getElem? hn h.node, h.word, fun c => (he c).walk (h.reach c), h.same⟩

theorem APC.Good.at {pc : APC} (h : pc.Good C ix0 ix k a ns w) {p : ID} {rs : List Rune} (hb : pc.busyAt = some (p, rs)) :
    rs ≠ [] ∧ ∃ v, APC.At C ix0 ix ns w p rs v := by
  cases pc <;> cases hb
  · exact ⟨h.1.ne, h.2⟩
  · exact ⟨h.1.ne, h.2⟩
  · exact ⟨h.1, h.2.2⟩
  · exact ⟨by simp, h.2.2⟩
  · exact ⟨by simp, h.2⟩
  · exact ⟨by simp, let ⟨v, hv, _⟩ := h.2; ⟨v, hv⟩⟩
  · exact ⟨by simp, let ⟨v, hv, _⟩ := h.2.2; ⟨v, hv⟩⟩
  · exact ⟨by simp, let ⟨v, hv, _⟩ := h.2.2; ⟨v, hv⟩⟩

theorem APC.Good.mono {pc : APC} (h : pc.Good C ix0 ix k a ns w) (hn : ns <+: ns') (he : C → KidsKept ix ix')
    (hfr : k.fresh ≤ k'.fresh) (how : ∀ m, m < k.fresh → k'.own m = k.own m)
    (hs : ∀ p, (k.ref p).isSome = true → (k'.ref p).isSome = true)
    (hcur : ∀ p rs m, pc.busyAt = some (p, rs) → C → a = true → k.ref p = some m → k'.ref p = some m)
    (hf : ∀ p r, pc.target = some (p, r) → C → ix.getChildrenMap p r = none → ix'.getChildrenMap p r = none)
    (hi : ∀ p rs, pc.busyAt = some (p, rs) → (ix0.childrenMap p).isSome = false → C →
      (∀ r, ix.getChildrenMap p r = none) → ∀ r, ix'.getChildrenMap p r = none) :
    pc.Good C ix0 ix' k' a ns' w := by
  have mk : ∀ p r, pc.target = some (p, r) → APC.Mk C ix0 ix k a p r → APC.Mk C ix0 ix' k' a p r := fun p r ht m =>
    ⟨m.add, hs _ m.map, m.none0, fun c => hf p r ht c (m.free c)⟩
  have ins : ∀ p rs, pc.busyAt = some (p, rs) → APC.Ins C ix0 ix p rs → APC.Ins C ix0 ix' p rs := fun p rs ht m =>
    ⟨m.ne, m.none0, fun c => hi p rs ht m.none0 c (m.free c)⟩
  have hold : ∀ p rs m, pc.busyAt = some (p, rs) → APC.Holds (C ∧ a = true) ix0 k p m →
      APC.Holds (C ∧ a = true) ix0 k' p m := fun p rs m hb hh =>
    ⟨Nat.lt_of_lt_of_le hh.lt hfr, (how m hh.lt).trans hh.own, hh.old, fun c => hcur p rs m hb c.1 c.2 (hh.cur c)⟩
  cases pc with
  | check p rs => exact ⟨h.1, let ⟨v, hv⟩ := h.2; ⟨v, hv.mono hn he⟩⟩
  | insert p rs => exact ⟨ins p rs rfl h.1, let ⟨v, hv⟩ := h.2; ⟨v, hv.mono hn he⟩⟩
  | inserting p rs => exact ⟨ins p rs rfl h.1, let ⟨v, hv⟩ := h.2; ⟨v, hv.mono hn he⟩⟩
  | look p rs => exact ⟨h.1, hs _ h.2.1, let ⟨v, hv⟩ := h.2.2; ⟨v, hv.mono hn he⟩⟩
  | probe p r rest m => exact ⟨hs _ h.1, hold p _ m rfl h.2.1, let ⟨v, hv⟩ := h.2.2; ⟨v, hv.mono hn he⟩⟩
  | make p r rest => exact ⟨mk p r rfl h.1, let ⟨v, hv⟩ := h.2; ⟨v, hv.mono hn he⟩⟩
  | link p r rest c =>
    exact ⟨mk p r rfl h.1, let ⟨v, hv, hc⟩ := h.2; ⟨v, hv.mono hn he, prefix_getElem? hn hc⟩⟩
  | store p r rest c m =>
    exact ⟨mk p r rfl h.1, hold p _ m rfl h.2.1, let ⟨v, hv, hc⟩ := h.2.2; ⟨v, hv.mono hn he, prefix_getElem? hn hc⟩⟩
  | storing p r rest c m =>
    exact ⟨mk p r rfl h.1, hold p _ m rfl h.2.1, let ⟨v, hv, hc⟩ := h.2.2; ⟨v, hv.mono hn he, prefix_getElem? hn hc⟩⟩
  | done o =>
    rcases h with h | ⟨id, h1, h2, h3, h4, h5⟩ | h
    · exact .inl h
    · exact .inr (.inl ⟨id, h1, h2, prefix_getElem? hn h3, fun c => (he c).walk (h4 c), h5⟩)
    · exact .inr (.inr h)

end

/-- The invariant; `ns` are the words spelled by the nodes. -/
structure AInv (ix0 : Index) (d : Dict) (adds : Nat → Bool) (q : Nat → List Rune) (s : AState) (ns : List (List Rune)) :
    Prop where
  adds_eq : s.adds = adds
  old : d.nodes <+: ns
  spells : ItemsSpell s.ix.items ns
  ok : s.kids.Ok
  big : 4294967296 ≤ s.kids.fresh
  sound : ∀ m r c, m < s.kids.fresh → s.kids.maps m r = some c →
    (∃ v, ns[(s.kids.own m).toNat]? = some v ∧ ns[c.toNat]? = some (v ++ [r])) ∨
      (d.nul = true ∧ s.kids.own m = 0 ∧ r = 0 ∧ c = 0)
  kept : ∀ p, (ix0.childrenMap p).isSome = true → s.kids.ref p = some p.toNat
  ext0 : ∀ p r c, ix0.getChildrenMap p r = some c → s.kids.maps p.toNat r = some c
  cur : Compat ix0 adds q → ∀ m r c, m < s.kids.fresh → s.kids.maps m r = some c → s.kids.ref (s.kids.own m) = some m
  from' : ∀ v ∈ ns, v ∈ d.nodes ∨ ∃ t, adds t = true ∧ v <+: q t
  good : ∀ t, (s.pc t).Good (Compat ix0 adds q) ix0 s.now s.kids (adds t) ns (q t)

theorem childrenMap_isSome {ix : Index} {p : ID} {r : Rune} {c : ID} (h : ix.getChildrenMap p r = some c) :
    (ix.childrenMap p).isSome = true := by
  unfold Index.getChildrenMap at h
  cases e : ix.childrenMap p with
  | none => rw [e] at h; cases h
  | some _ => rfl

namespace AInv

variable {ix0 : Index} {d : Dict} {adds : Nat → Bool} {q : Nat → List Rune} {s : AState} {ns : List (List Rune)}

theorem ext (h : AInv ix0 d adds q s ns) : KidsKept ix0 s.now := fun p r c e => by
  rw [AState.now_of_ref (h.kept p (childrenMap_isSome e))]
  exact h.ext0 p r c e

theorem start (h : TrieOK ix0 d) : AInv ix0 d adds q (AState.start ix0 adds q) d.nodes := by
  have e : ∀ (m : Nat), m < 4294967296 → (UInt32.ofNat m).toNat = m := fun m hm => UInt32.toNat_ofNat_of_lt' hm
  refine ⟨rfl, List.prefix_refl _, h.spells, KidMaps.ofIndex_ok ix0, Nat.le_refl _, ?_, ?_, ?_, ?_, fun v hv => .inl hv,
    fun t => ?_⟩
  · intro m r c _ hc
    exact (h.child (UInt32.ofNat m) r c).1 hc
  · intro p hp
    show (if _ then _ else _) = _
    rw [if_pos hp]
  · intro p r c hc
    show ix0.getChildrenMap (UInt32.ofNat p.toNat) r = some c
    rw [UInt32.ofNat_toNat]; exact hc
  · intro _ m r c hm hc
    have hs : (ix0.childrenMap (UInt32.ofNat m)).isSome = true := childrenMap_isSome hc
    show (if (ix0.childrenMap (UInt32.ofNat m)).isSome = true then some (UInt32.ofNat m).toNat else none) = some m
    rw [if_pos hs, e m hm]
  · refine ⟨fun e => e, [], ⟨h.root, rfl, fun _ => rfl, ?_⟩⟩
    intro p0 hp
    exact Option.some.inj hp

/-- Two calls, one an addition, that go on from the same node, which so had children from the start. -/
theorem apart (h : AInv ix0 d adds q s ns) (C : Compat ix0 adds q) {t u : Nat} (htu : t ≠ u) (hadd : adds t = true ∨ adds u = true)
    {p : ID} {rs rs' : List Rune} (ht : (s.pc t).busyAt = some (p, rs)) (hu : (s.pc u).busyAt = some (p, rs')) :
    (ix0.childrenMap p).isSome = true := by
  obtain ⟨hne, v, hv⟩ := (h.good t).at ht
  obtain ⟨hne', v', hv'⟩ := (h.good u).at hu
  have e : v = v' := Option.some.inj (hv.node.symm.trans hv'.node)
  subst e
  obtain ⟨x, rest, rfl⟩ := List.exists_cons_of_ne_nil hne
  obtain ⟨y, rest', rfl⟩ := List.exists_cons_of_ne_nil hne'
  have pt : v ++ [x] <+: q t := ⟨rest, by rw [hv.word]; simp⟩
  have pu : v ++ [y] <+: q u := ⟨rest', by rw [hv'.word]; simp⟩
  obtain ⟨r, id, hid⟩ : ∃ r id, (ix0.fetchRunes (v ++ [r])).2 = .ok id := by
    rcases hadd with ha | ha
    · exact C.goesOn t u htu ha v x y pt pu
    · exact C.goesOn u t htu.symm ha v y x pu pt
  have hw := ((fetch_walk ix0 0 id (v ++ [r]) (by simp)).1 hid).1
  rw [walk_append] at hw
  cases hv0 : walk ix0 0 v with
  | none => rw [hv0] at hw; cases hw
  | some p' =>
    rw [hv0] at hw
    rw [hv.same p' hv0]
    simp only [Option.bind_some, walk] at hw
    cases hc : ix0.getChildrenMap p' r with
    | none => rw [hc] at hw; cases hw
    | some c => exact childrenMap_isSome hc

theorem target_busy {pc : APC} {p : ID} {r : Rune} (h : pc.target = some (p, r)) : ∃ rest, pc.busyAt = some (p, r :: rest) := by
  cases pc <;> cases h <;> exact ⟨_, rfl⟩

theorem target_mk {C : Prop} {ix : Index} {k : KidMaps} {a : Bool} {w : List Rune} {pc : APC} {p : ID} {r : Rune}
    (hg : pc.Good C ix0 ix k a ns w) (h : pc.target = some (p, r)) : APC.Mk C ix0 ix k a p r := by
  cases pc <;> cases h <;> exact hg.1

/-- Two threads never want to make the same child. -/
theorem distinct (h : AInv ix0 d adds q s ns) (C : Compat ix0 adds q) {t u : Nat} (htu : t ≠ u) {p : ID} {r : Rune}
    (ht : (s.pc t).target = some (p, r)) (hu : (s.pc u).target = some (p, r)) : False := by
  have mt := target_mk (h.good t) ht
  have mu := target_mk (h.good u) hu
  obtain ⟨rest, bt⟩ := target_busy ht
  obtain ⟨rest', bu⟩ := target_busy hu
  obtain ⟨_, v, hv⟩ := (h.good t).at bt
  obtain ⟨_, v', hv'⟩ := (h.good u).at bu
  have e : v = v' := Option.some.inj (hv.node.symm.trans hv'.node)
  subst e
  have pt : v ++ [r] <+: q t := ⟨rest, by rw [hv.word]; simp⟩
  have pu : v ++ [r] <+: q u := ⟨rest', by rw [hv'.word]; simp⟩
  obtain ⟨id, hid⟩ := C.known t u htu mt.add mu.add (v ++ [r]) (by simp) pt pu
  have hw := ((fetch_walk ix0 0 id (v ++ [r]) (by simp)).1 hid).1
  rw [walk_append] at hw
  cases hv0 : walk ix0 0 v with
  | none => rw [hv0] at hw; cases hw
  | some p' =>
    rw [hv0] at hw
    obtain rfl := hv.same p' hv0
    simp only [Option.bind_some, walk, mt.none0, Option.bind_none] at hw
    cases hw

/-- The program counter (and the list of writers) changes. -/
theorem goto (h : AInv ix0 d adds q s ns) (t : Nat) (p : APC)
    (hp : p.Good (Compat ix0 adds q) ix0 s.now s.kids (adds t) ns (q t))
    (wr : List (Nat × Option Nat)) : AInv ix0 d adds q ({ s with writing := wr }.goto t p) ns := by
  refine ⟨h.adds_eq, h.old, h.spells, h.ok, h.big, h.sound, h.kept, h.ext0, h.cur, h.from', fun u => ?_⟩
  by_cases e : u = t
  · subst e; simp only [AState.goto, upd_same]; exact hp
  · simp only [AState.goto, upd_other _ _ e]; exact h.good u

theorem access {s' : AState} {t : Nat} {m : Option Nat} (hc : (s.access t m s').crashed = false) :
    s.access t m s' = s' := by
  unfold AState.access at hc ⊢
  split
  · rename_i hb; rw [if_pos hb] at hc; cases hc
  · rfl

/-- What is known once the child of letter `r` is `c`. -/
theorem nextGood {C : Prop} {ix ix' : Index} {k : KidMaps} {a : Bool} {w v : List Rune} {r : Rune} {rest : List Rune} {c : ID}
    (hs : ItemsSpell ix.items ns) (hw : w = v ++ r :: rest) (hc : ns[c.toNat]? = some (v ++ [r]))
    (hr : C → walk ix' 0 (v ++ [r]) = some c) (hsm : ∀ p0, walk ix0 0 (v ++ [r]) = some p0 → c = p0) :
    (if rest = [] then APC.done (ix.get c) else .check c rest).Good C ix0 ix' k a ns w := by
  split
  · rename_i e
    subst e
    exact .inr (.inl ⟨c, hs.get_ok hc, by rw [hw]; simp, by rw [hw]; exact hc, fun h => by rw [hw]; exact hr h,
      fun p0 h => hsm p0 (by rw [hw] at h; exact h)⟩)
  · rename_i e
    exact ⟨fun h' => absurd h' e, v ++ [r], hc, by rw [hw]; simp, hr, hsm⟩

/-- `next` as a `goto`. -/
theorem next_eq (s : AState) (t : Nat) (c : ID) (rest : List Rune) :
    s.next t c rest = s.goto t (if rest = [] then APC.done (s.ix.get c) else .check c rest) := by
  unfold AState.next
  split <;> rfl

/-- A letter that is not there: what is known at the next place. -/
theorem missing (h : AInv ix0 d adds q s ns) (t : Nat) {p : ID} {r : Rune} {rest v : List Rune}
    (hm : (s.kids.ref p).isSome = true)
    (hv : APC.At (Compat ix0 adds q) ix0 s.now ns (q t) p (r :: rest) v) (h0 : ix0.getChildrenMap p r = none)
    (hf : Compat ix0 adds q → adds t = true → s.now.getChildrenMap p r = none) :
    AInv ix0 d adds q (s.missing t p r rest) ns := by
  unfold AState.missing
  rw [h.adds_eq]
  cases ha : adds t with
  | true =>
    exact h.goto t (.make p r rest) ⟨⟨ha, hm, h0, fun C => hf C ha⟩, v, hv⟩ s.writing
  | false =>
    refine h.goto t (.done ((s.ix.word p).bind fun w => .err (.notFound w r))) (.inr (.inr ⟨ha, v, r, rest, hv.word, ?_, ?_⟩)) s.writing
    · rw [h.spells.word_eq hv.node]; rfl
    · rw [walk_append]
      cases hv0 : walk ix0 0 v with
      | none => rfl
      | some p' =>
        obtain rfl := hv.same p' hv0
        simp [walk, h0]

/-- A new, empty map for the children of `p`. -/
theorem insertMap (h : AInv ix0 d adds q s ns) (t : Nat) {p : ID} {rs : List Rune} (hp : s.pc t = .inserting p rs)
    (wr : List (Nat × Option Nat)) :
    AInv ix0 d adds q ((show AState from { s with writing := wr, kids := s.kids.insert p }).goto t (.look p rs)) ns := by
  have hg := h.good t
  rw [hp] at hg
  obtain ⟨hi, v, hv⟩ := hg
  have hget : ∀ a b, (show AState from { s with writing := wr, kids := s.kids.insert p }).now.getChildrenMap a b =
      if a = p then none else s.now.getChildrenMap a b := by
    intro a b
    simp only [AState.now, Index.getChildrenMap, KidMaps.insert_view h.ok]
    split <;> rfl
  have href : ∀ a, a ≠ p → (s.kids.insert p).ref a = s.kids.ref a := fun a e => by simp [KidMaps.insert, e]
  have hrefp : (s.kids.insert p).ref p = some s.kids.fresh := by simp [KidMaps.insert]
  have hext : Compat ix0 adds q → KidsKept s.now (show AState from { s with writing := wr, kids := s.kids.insert p }).now := by
    intro C a b c e
    rw [hget]
    split
    · rename_i ha; subst ha; rw [hi.free C b] at e; cases e
    · exact e
  have hsome : ∀ a, (s.kids.ref a).isSome = true → ((s.kids.insert p).ref a).isSome = true := by
    intro a ha
    by_cases e : a = p
    · subst e; rw [hrefp]; rfl
    · rw [href a e]; exact ha
  have hold : ∀ m r c, m < (s.kids.insert p).fresh → (s.kids.insert p).maps m r = some c →
      m < s.kids.fresh ∧ s.kids.maps m r = some c := by
    intro m r c hm hc
    simp only [KidMaps.insert] at hm hc
    by_cases e : m = s.kids.fresh
    · subst e; rw [upd_same] at hc; cases hc
    · rw [upd_other _ _ e] at hc; exact ⟨by omega, hc⟩
  have hnp : ∀ a, (ix0.childrenMap a).isSome = true → a ≠ p := by
    rintro a ha rfl
    rw [hi.none0] at ha; cases ha
  have hbig := h.big
  refine ⟨h.adds_eq, h.old, h.spells, KidMaps.insert_ok h.ok p, Nat.le_succ_of_le h.big, ?_, ?_, ?_, ?_, h.from', fun u => ?_⟩
  · intro m r c hm hc
    obtain ⟨h1, h2⟩ := hold m r c hm hc
    simp only [AState.goto]
    rw [KidMaps.insert_own h1]
    exact h.sound m r c h1 h2
  · intro a ha
    simp only [AState.goto]
    rw [href a (hnp a ha)]
    exact h.kept a ha
  · intro a b c hc
    simp only [AState.goto]
    have := a.toNat_lt
    rw [KidMaps.insert_maps (by omega)]
    exact h.ext0 a b c hc
  · intro C m r c hm hc
    obtain ⟨h1, h2⟩ := hold m r c hm hc
    simp only [AState.goto]
    rw [KidMaps.insert_own h1]
    have h3 := h.cur C m r c h1 h2
    rw [href _ ?_]
    · exact h3
    · intro e
      rw [e] at h3
      have := hi.free C r
      rw [AState.now_of_ref h3, h2] at this
      cases this
  · by_cases e : u = t
    · subst e
      simp only [AState.goto, upd_same]
      exact ⟨hi.ne, by rw [hrefp]; rfl, v, hv.mono (List.prefix_refl _) hext⟩
    · simp only [AState.goto, upd_other _ _ e]
      refine (h.good u).mono (List.prefix_refl _) hext (Nat.le_succ _) (fun m hm => KidMaps.insert_own hm) hsome ?_ ?_ ?_
      · intro a rs' m hb C ha hr
        rw [href a ?_]
        · exact hr
        · rintro rfl
          have := h.apart C e (.inl ha) hb (by rw [hp]; rfl)
          rw [hi.none0] at this; cases this
      · intro a b _ _ hn
        refine (hget a b).trans ?_
        split
        · rfl
        · exact hn
      · intro a rs' _ _ _ hn b
        refine (hget a b).trans ?_
        split
        · rfl
        · exact hn b

/-- The new child is stored. -/
theorem storeChild (h : AInv ix0 d adds q s ns) (t : Nat) {p : ID} {r : Rune} {rest : List Rune} {c : ID} {m : Nat}
    (hp : s.pc t = .storing p r rest c m) (wr : List (Nat × Option Nat)) :
    AInv ix0 d adds q ((show AState from { s with writing := wr, kids := s.kids.store m r c }).next t c rest) ns := by
  have hg := h.good t
  rw [hp] at hg
  obtain ⟨hm, hh, v, hv, hcn⟩ := hg
  have hmaps := s.kids.store_maps m r c
  -- what the stored child does to the visible children
  have hget : s.kids.ref p = some m → ∀ a b,
      (show AState from { s with writing := wr, kids := s.kids.store m r c }).now.getChildrenMap a b =
        if a = p ∧ b = r then some c else s.now.getChildrenMap a b := by
    intro hr a b
    rw [AState.now_get, AState.now_get]
    show (s.kids.ref a).bind (fun n => (s.kids.store m r c).maps n b) = _
    by_cases e : a = p
    · subst e
      rw [hr]
      simp only [Option.bind_some, hmaps, true_and]
    · rw [if_neg (fun x => e x.1)]
      cases ha : s.kids.ref a with
      | none => rfl
      | some n =>
        simp only [Option.bind_some, hmaps]
        rw [if_neg]
        rintro ⟨rfl, _⟩
        exact e ((h.ok.own a n ha).symm.trans (h.ok.own p n hr))
  have hcur : Compat ix0 adds q → s.kids.ref p = some m := fun C => hh.cur ⟨C, hm.add⟩
  have hext : Compat ix0 adds q →
      KidsKept s.now (show AState from { s with writing := wr, kids := s.kids.store m r c }).now := by
    intro C a b k e
    rw [hget (hcur C)]
    split
    · rename_i hab
      obtain ⟨rfl, rfl⟩ := hab
      rw [hm.free C] at e; cases e
    · exact e
  have hsame : ∀ p0, walk ix0 0 (v ++ [r]) = some p0 → c = p0 := by
    intro p0 hw
    rw [walk_append] at hw
    cases hv0 : walk ix0 0 v with
    | none => rw [hv0] at hw; cases hw
    | some p' =>
      rw [hv0] at hw
      obtain rfl := hv.same p' hv0
      simp only [Option.bind_some, walk, hm.none0, Option.bind_none] at hw
      cases hw
  have hng := nextGood (ix0 := ix0) (C := Compat ix0 adds q) (k := s.kids.store m r c) (a := adds t) (ix := s.ix)
    (ix' := (show AState from { s with writing := wr, kids := s.kids.store m r c }).now) (rest := rest) h.spells hv.word hcn
    (fun C => by
      rw [walk_append, (hext C).walk (hv.reach C)]
      simp only [Option.bind_some, walk]
      rw [hget (hcur C), if_pos ⟨rfl, rfl⟩]
      rfl) hsame
  rw [next_eq]
  refine ⟨h.adds_eq, h.old, h.spells, KidMaps.store_ok h.ok m r c, h.big, ?_, h.kept, ?_, ?_, h.from', fun u => ?_⟩
  · intro n a k hn hk
    simp only [AState.goto] at hk ⊢
    rw [hmaps] at hk
    split at hk
    · rename_i hab
      obtain ⟨rfl, rfl⟩ := hab
      obtain rfl := Option.some.inj hk
      refine .inl ⟨v, ?_, hcn⟩
      show ns[(s.kids.own n).toNat]? = some v
      rw [hh.own]; exact hv.node
    · exact h.sound n a k hn hk
  · intro a b k hk
    simp only [AState.goto]
    rw [hmaps]
    split
    · rename_i hab
      have hap : a = p := by
        have := h.ok.own a a.toNat (h.kept a (childrenMap_isSome hk))
        rw [hab.1, hh.own] at this
        exact this.symm
      rw [hap, hab.2, hm.none0] at hk
      cases hk
    · exact h.ext0 a b k hk
  · intro C n a k hn hk
    simp only [AState.goto] at hk ⊢
    rw [hmaps] at hk
    split at hk
    · rename_i hab
      obtain ⟨rfl, rfl⟩ := hab
      show s.kids.ref (s.kids.own n) = some n
      rw [hh.own]; exact hcur C
    · exact h.cur C n a k hn hk
  · by_cases e : u = t
    · subst e; simp only [AState.goto, upd_same]; exact hng
    · simp only [AState.goto, upd_other _ _ e]
      refine (h.good u).mono (List.prefix_refl _) hext (Nat.le_refl _) (fun _ _ => rfl) (fun _ x => x)
        (fun _ _ _ _ _ _ x => x) ?_ ?_
      · intro a b ht C e'
        refine (hget (hcur C) a b).trans ?_
        split
        · rename_i hab
          obtain ⟨rfl, rfl⟩ := hab
          exact (h.distinct C e ht (by rw [hp]; rfl)).elim
        · exact e'
      · intro a rs' hb h0 C hn b
        refine (hget (hcur C) a b).trans ?_
        split
        · rename_i hab
          obtain ⟨rfl, rfl⟩ := hab
          have := h.apart C e (.inr hm.add) hb (by rw [hp]; rfl)
          rw [h0] at this; cases this
        · exact hn b

/-- One step that does not end in a data race. -/
theorem step (h : AInv ix0 d adds q s ns) (hz : d.nul = false ∨ ∀ t, NoLeadingNul (q t)) (t : Nat)
    (hcap : ns.length + 1 < 4294967296) (hc : (s.step t).crashed = false) :
    ∃ ns', AInv ix0 d adds q (s.step t) ns' ∧ ns'.length ≤ ns.length + 1 := by
  have stay : ∀ {s'}, AInv ix0 d adds q s' ns → ∃ ns', AInv ix0 d adds q s' ns' ∧ ns'.length ≤ ns.length + 1 :=
    fun h => ⟨ns, h, by omega⟩
  unfold AState.step at hc ⊢
  by_cases hcr : s.crashed = true
  · rw [if_pos hcr]; exact stay h
  rw [if_neg hcr] at hc ⊢
  have hg := h.good t
  cases hp : s.pc t with
  | done o => exact stay h
  | check p rs =>
    rw [hp] at hg hc
    obtain ⟨h1, v, hv⟩ := hg
    cases rs with
    | nil => exact stay (h.goto t (.done (.err .emptyRunes)) (.inl ⟨h1 rfl, rfl⟩) s.writing)
    | cons r rest =>
      simp only at hc ⊢
      have hnp : ¬ (s.adds t = true ∧ p ≠ 0 ∧ (s.ix.items.get p).isNone = true) := by
        rintro ⟨_, h2, h3⟩
        obtain ⟨it, _, hg, _⟩ := h.spells.items_get (Nat.pos_of_ne_zero fun e => h2 (TrieOK.toNat_eq_zero.1 e))
          (ItemsSpell.lt hv.node)
        rw [hg] at h3; cases h3
      rw [if_neg hnp] at hc ⊢
      rw [access hc]
      apply stay
      split
      · rename_i hm
        exact h.goto t (.look p (r :: rest)) ⟨by simp, hm, v, hv⟩ s.writing
      · rename_i hm
        have hn : s.kids.ref p = none := by simpa using hm
        refine h.goto t (.insert p (r :: rest)) ⟨⟨by simp, ?_, fun _ b => ?_⟩, v, hv⟩ s.writing
        · cases h0 : (ix0.childrenMap p).isSome with
          | false => rfl
          | true => rw [h.kept p h0] at hn; cases hn
        · rw [AState.now_get, hn]; rfl
  | insert p rs =>
    rw [hp] at hg hc
    simp only at hc ⊢
    rw [access hc]
    exact stay (h.goto t (.inserting p rs) hg _)
  | inserting p rs => exact stay (h.insertMap t hp _)
  | look p rs =>
    rw [hp] at hg hc
    obtain ⟨h1, hm, v, hv⟩ := hg
    cases rs with
    | nil => exact absurd rfl h1
    | cons r rest =>
      simp only at hc ⊢
      rw [access hc]
      apply stay
      obtain ⟨m, hr⟩ := Option.isSome_iff_exists.1 hm
      rw [hr]
      refine h.goto t (.probe p r rest m) ⟨hm, ⟨h.ok.lt p m hr, h.ok.own p m hr, fun h0 => ?_, fun _ => hr⟩, v, hv⟩ s.writing
      rw [h.kept p h0] at hr
      exact (Option.some.inj hr).symm
  | probe p r rest m =>
    rw [hp] at hg hc
    obtain ⟨hm, hh, v, hv⟩ := hg
    simp only at hc ⊢
    rw [access hc]
    apply stay
    have hold : ∀ c0, ix0.getChildrenMap p r = some c0 → s.kids.maps m r = some c0 := by
      intro c0 h0
      rw [hh.old (childrenMap_isSome h0)]
      exact h.ext0 p r c0 h0
    cases hcm : s.kids.maps m r with
    | none =>
      refine h.missing t hm hv ?_ fun C ha => ?_
      · cases h0 : ix0.getChildrenMap p r with
        | none => rfl
        | some c => rw [hold c h0] at hcm; cases hcm
      · rw [AState.now_of_ref (hh.cur ⟨C, ha⟩)]; exact hcm
    | some c =>
      simp only
      have hcn : ns[c.toNat]? = some (v ++ [r]) := by
        rcases h.sound m r c hh.lt hcm with ⟨v', e1, e2⟩ | ⟨e1, e2, rfl, rfl⟩
        · rw [hh.own, hv.node] at e1
          rw [Option.some.inj e1]; exact e2
        · exfalso
          rw [hh.own] at e2
          subst e2
          rcases hz with hz | hz
          · rw [hz] at e1; cases e1
          · have hr := h.spells.root
            have hvn := hv.node
            rw [show (0 : ID).toNat = 0 from rfl, hr] at hvn
            have := Option.some.inj hvn
            subst this
            have := hz t
            rw [hv.word] at this
            exact this rfl
      have hng := nextGood (ix0 := ix0) (C := Compat ix0 adds q) (k := s.kids) (a := adds t) (ix := s.ix) (ix' := s.now)
        h.spells hv.word hcn (fun C => by
          have hr := h.cur C m r c hh.lt hcm
          rw [hh.own] at hr
          rw [walk_append, hv.reach C]
          simp [walk, AState.now_of_ref hr, hcm]) (fun p0 hw => by
          rw [walk_append] at hw
          cases hv0 : walk ix0 0 v with
          | none => rw [hv0] at hw; cases hw
          | some p' =>
            rw [hv0] at hw
            obtain rfl := hv.same p' hv0
            simp only [Option.bind_some, walk] at hw
            cases h0 : ix0.getChildrenMap p r with
            | none => rw [h0] at hw; cases hw
            | some c0 =>
              rw [h0] at hw
              obtain rfl := Option.some.inj hw
              rw [hold c0 h0] at hcm
              exact (Option.some.inj hcm).symm)
      rw [next_eq]
      exact h.goto t _ hng s.writing
  | make p r rest =>
    rw [hp] at hg hc
    obtain ⟨hm, v, hv⟩ := hg
    obtain ⟨its', it, hnew, hsp, hit⟩ := h.spells.newChild hv.node r hcap
    simp only [hnew]
    have hpre : ns <+: ns ++ [v ++ [r]] := List.prefix_append _ _
    have h' : AInv ix0 d adds q { s with ix := { s.ix with items := its' } } (ns ++ [v ++ [r]]) := by
      refine ⟨h.adds_eq, h.old.trans hpre, hsp, h.ok, h.big, ?_, h.kept, h.ext0, h.cur, ?_, fun u => ?_⟩
      · intro m b c hm e
        rcases h.sound m b c hm e with ⟨v', e1, e2⟩ | e
        · exact .inl ⟨v', prefix_getElem? hpre e1, prefix_getElem? hpre e2⟩
        · exact .inr e
      · intro x hx
        rcases List.mem_append.1 hx with hx | hx
        · exact h.from' x hx
        · rw [List.mem_singleton.1 hx]
          exact .inr ⟨t, hm.add, rest, by rw [hv.word]; simp⟩
      · exact (h.good u).mono hpre (fun _ => fun _ _ _ e => e) (Nat.le_refl _) (fun _ _ => rfl) (fun _ e => e)
          (fun _ _ _ _ _ _ e => e) (fun _ _ _ _ e => e) fun _ _ _ _ _ e => e
    have hgood := h'.good t
    simp only [hp] at hgood
    refine ⟨_, h'.goto t (.link p r rest it.id) ⟨hgood.1, v, hv.mono hpre fun _ => fun _ _ _ e => e, hit⟩ s.writing, by simp⟩
  | link p r rest c =>
    rw [hp] at hg hc
    obtain ⟨hm, v, hv, hcn⟩ := hg
    simp only at hc ⊢
    rw [access hc]
    apply stay
    obtain ⟨m, hr⟩ := Option.isSome_iff_exists.1 hm.map
    rw [hr]
    refine h.goto t (.store p r rest c m) ⟨hm, ⟨h.ok.lt p m hr, h.ok.own p m hr, fun h0 => ?_, fun _ => hr⟩, v, hv, hcn⟩ s.writing
    rw [h.kept p h0] at hr
    exact (Option.some.inj hr).symm
  | store p r rest c m =>
    rw [hp] at hg hc
    simp only at hc ⊢
    rw [access hc]
    exact stay (h.goto t (.storing p r rest c m) hg _)
  | storing p r rest c m => exact stay (h.storeChild t hp _)

theorem crashed_step (t : Nat) (hc : s.crashed = true) : s.step t = s := by
  unfold AState.step; rw [if_pos hc]

theorem crashed_run (sched : List Nat) (hc : s.crashed = true) : s.run sched = s := by
  induction sched with
  | nil => rfl
  | cons t l ih => show (s.step t).run l = s; rw [crashed_step t hc]; exact ih

theorem run (h : AInv ix0 d adds q s ns) (hz : d.nul = false ∨ ∀ t, NoLeadingNul (q t)) (sched : List Nat)
    (hcap : ns.length + sched.length < 4294967296) (hc : (s.run sched).crashed = false) :
    ∃ ns', AInv ix0 d adds q (s.run sched) ns' ∧ ns'.length ≤ ns.length + sched.length := by
  induction sched generalizing s ns with
  | nil => exact ⟨ns, h, by simp⟩
  | cons t l ih =>
    have hc' : (s.step t).crashed = false := by
      cases e : (s.step t).crashed with
      | false => rfl
      | true =>
        have : s.run (t :: l) = s.step t := crashed_run l e
        rw [this, e] at hc; cases hc
    simp only [List.length_cons] at hcap
    obtain ⟨ns1, h1, hl⟩ := h.step hz t (by omega) hc'
    obtain ⟨ns2, h2, hl2⟩ := ih h1 (by omega) hc
    exact ⟨ns2, h2, by simp only [List.length_cons]; omega⟩

end AInv

/-- Steps a call still has to make, at most. -/
def APC.left : APC → Nat
  | .check _ rs => 9 * rs.length + 1
  | .insert _ rs => 9 * rs.length
  | .inserting _ rs => 9 * rs.length - 1
  | .look _ rs => 9 * rs.length - 2
  | .probe _ _ rest _ => 9 * rest.length + 6
  | .make _ _ rest => 9 * rest.length + 5
  | .link _ _ rest _ => 9 * rest.length + 4
  | .store _ _ rest _ _ => 9 * rest.length + 3
  | .storing _ _ rest _ _ => 9 * rest.length + 2
  | .done _ => 0

theorem AState.step_left (s : AState) (t : Nat) (hc : (s.step t).crashed = false) :
    ((s.step t).pc t).left ≤ (s.pc t).left - 1 ∧ ∀ u, u ≠ t → (s.step t).pc u = s.pc u := by
  have mk : ∀ {s' : AState} {p : APC}, s'.pc = s.pc → p.left ≤ (s.pc t).left - 1 →
      ((s'.goto t p).pc t).left ≤ (s.pc t).left - 1 ∧ ∀ u, u ≠ t → (s'.goto t p).pc u = s.pc u := by
    intro s' p e hl
    refine ⟨?_, fun u hu => ?_⟩
    · simp only [AState.goto, upd_same]; exact hl
    · simp only [AState.goto, upd_other _ _ hu, e]
  have nx : ∀ {s' : AState} {c : ID} {rest : List Rune}, s'.pc = s.pc → 9 * rest.length + 2 ≤ (s.pc t).left →
      ((s'.next t c rest).pc t).left ≤ (s.pc t).left - 1 ∧ ∀ u, u ≠ t → (s'.next t c rest).pc u = s.pc u := by
    intro s' c rest e hl
    unfold AState.next
    split
    · exact mk e (Nat.zero_le _)
    · exact mk e (show 9 * rest.length + 1 ≤ _ by omega)
  have ms : ∀ {p : ID} {r : Rune} {rest : List Rune}, 9 * rest.length + 6 ≤ (s.pc t).left →
      ((s.missing t p r rest).pc t).left ≤ (s.pc t).left - 1 ∧ ∀ u, u ≠ t → (s.missing t p r rest).pc u = s.pc u := by
    intro p r rest hl
    unfold AState.missing
    split
    · exact mk rfl (show 9 * rest.length + 5 ≤ _ by omega)
    · exact mk rfl (Nat.zero_le _)
  unfold AState.step at hc ⊢
  by_cases hcr : s.crashed = true
  · rw [if_pos hcr] at hc; rw [hcr] at hc; cases hc
  rw [if_neg hcr] at hc ⊢
  cases hp : s.pc t with
  | done o => simp only; rw [hp]; exact ⟨Nat.le_refl _, fun _ _ => trivial⟩
  | check p rs =>
    rw [hp] at hc mk
    cases rs with
    | nil => exact mk rfl (by simp [APC.left])
    | cons r rest =>
      simp only at hc ⊢
      split
      · exact mk rfl (by simp [APC.left])
      · rename_i h1
        rw [if_neg h1] at hc
        rw [AInv.access hc]
        split
        · exact mk rfl (by simp only [APC.left, List.length_cons]; omega)
        · exact mk rfl (by simp only [APC.left, List.length_cons]; omega)
  | insert p rs =>
    rw [hp] at hc mk
    simp only at hc ⊢
    rw [AInv.access hc]
    exact mk rfl (by simp only [APC.left]; omega)
  | inserting p rs =>
    rw [hp] at mk
    exact mk rfl (by simp only [APC.left]; omega)
  | look p rs =>
    rw [hp] at hc mk ms
    cases rs with
    | nil => simp only; rw [hp]; exact ⟨Nat.le_refl _, fun _ _ => trivial⟩
    | cons r rest =>
      simp only at hc ⊢
      rw [AInv.access hc]
      cases s.kids.ref p with
      | none => exact ms (by simp only [APC.left, List.length_cons]; omega)
      | some m => exact mk rfl (by simp only [APC.left, List.length_cons]; omega)
  | probe p r rest m =>
    rw [hp] at hc mk ms nx
    simp only at hc ⊢
    rw [AInv.access hc]
    cases s.kids.maps m r with
    | none => exact ms (by simp only [APC.left]; omega)
    | some c => exact nx rfl (by simp only [APC.left]; omega)
  | make p r rest =>
    rw [hp] at mk
    simp only
    cases s.ix.items.newChild p r with
    | none => exact mk rfl (by simp [APC.left])
    | some x => exact mk rfl (by simp only [APC.left]; omega)
  | link p r rest c =>
    rw [hp] at hc mk
    simp only at hc ⊢
    rw [AInv.access hc]
    cases s.kids.ref p with
    | none => exact mk rfl (by simp [APC.left])
    | some m => exact mk rfl (by simp only [APC.left]; omega)
  | store p r rest c m =>
    rw [hp] at hc mk
    simp only at hc ⊢
    rw [AInv.access hc]
    exact mk rfl (by simp only [APC.left]; omega)
  | storing p r rest c m =>
    rw [hp] at nx
    exact nx rfl (by simp only [APC.left]; omega)

theorem AState.run_left (s : AState) (sched : List Nat) (t : Nat) (hc : (s.run sched).crashed = false) :
    ((s.run sched).pc t).left ≤ (s.pc t).left - sched.count t := by
  induction sched generalizing s with
  | nil => simp [AState.run]
  | cons u l ih =>
    have hc' : (s.step u).crashed = false := by
      cases e : (s.step u).crashed with
      | false => rfl
      | true =>
        have : s.run (u :: l) = s.step u := AInv.crashed_run l e
        rw [this, e] at hc; cases hc
    have h1 := s.step_left u hc'
    have h2 := ih (s.step u) hc
    show (((s.step u).run l).pc t).left ≤ _
    by_cases e : u = t
    · subst e
      rw [List.count_cons_self]
      omega
    · rw [h1.2 t (fun h => e h.symm)] at h2
      rw [List.count_cons_of_ne e]
      exact h2

/-- A call given enough steps has returned. -/
theorem AInv.finishes {ix0 : Index} {d : Dict} {adds : Nat → Bool} {q : Nat → List Rune} {s : AState}
    {ns : List (List Rune)} (h : AInv ix0 d adds q s ns) {t : Nat} (hl : (s.pc t).left = 0) : ∃ o, s.pc t = .done o := by
  have hg := h.good t
  have pos : ∀ rs : List Rune, rs ≠ [] → 0 < rs.length := fun rs h => List.length_pos_iff.2 h
  cases hp : s.pc t with
  | done o => exact ⟨o, rfl⟩
  | check p rs => rw [hp] at hl; simp only [APC.left] at hl; omega
  | insert p rs => rw [hp] at hl hg; simp only [APC.left] at hl; have := pos rs hg.1.ne; omega
  | inserting p rs => rw [hp] at hl hg; simp only [APC.left] at hl; have := pos rs hg.1.ne; omega
  | look p rs => rw [hp] at hl hg; simp only [APC.left] at hl; have := pos rs hg.1; omega
  | probe p r rest m => rw [hp] at hl; simp only [APC.left] at hl; omega
  | make p r rest => rw [hp] at hl; simp only [APC.left] at hl; omega
  | link p r rest c => rw [hp] at hl; simp only [APC.left] at hl; omega
  | store p r rest c m => rw [hp] at hl; simp only [APC.left] at hl; omega
  | storing p r rest c m => rw [hp] at hl; simp only [APC.left] at hl; omega

end Verif
