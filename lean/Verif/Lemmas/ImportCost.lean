import Verif.Model.ImportCost
import Verif.Spec.ImportCost
import Verif.Lemmas.Cost
import Verif.Lemmas.ParserStream
import Verif.Lemmas.DocRoom

/-! # The steps of an import -/

namespace Verif

open PState

/-! ## The counted functions compute what the functions of the model compute -/

theorem getAttrT_fst (n : Str) (as : List XAttr) : (getAttrT n as).1 = getAttr n as := by
  rw [getAttr_eq]
  induction as with
  | nil => rfl
  | cons a as ih =>
    unfold getAttrT attrOf
    split
    · rfl
    · exact ih

theorem getAttrT_le (n : Str) (as : List XAttr) : (getAttrT n as).2 ≤ as.length := by
  induction as with
  | nil => exact Nat.le_refl _
  | cons a as ih =>
    unfold getAttrT
    split
    · simp
    · simp only [List.length_cons]; omega

theorem attrRounds_le (as : List XAttr) (hd : Handler) : attrRounds as hd ≤ 2 * as.length := by
  have h := fun n => getAttrT_le n as
  have h1 := h (str "id")
  have h2 := h (str "rev")
  have h3 := h (str "parent")
  have h4 := h (str "t")
  have h5 := h (str "v")
  cases hd <;> simp only [attrRounds] <;> (try split) <;> omega

theorem addStringT_fst (ix : Index) (w : Str) : (ix.addStringT w).1 = ix.addString w := by
  unfold Index.addStringT Index.addString
  split
  · rfl
  · exact addLoopT_fst 0 ix 0 _

theorem addFormsT_fst (lg : List Str) (fs : List (Option WForm)) (ix : Index) :
    (addFormsT lg ix fs).1 = addForms lg ix fs := by
  induction fs generalizing ix with
  | nil => rfl
  | cons f rest ih =>
    cases f with
    | none => rfl
    | some w =>
      unfold addFormsT addForms
      rw [← addStringT_fst]
      generalize ix.addStringT w.form = x
      obtain ⟨⟨ix1, o⟩, k⟩ := x
      cases o with
      | ok id =>
        simp only
        rw [← addTagSetT_fst]
        generalize ix1.addTagSetT id (lg ++ w.g) = y
        obtain ⟨⟨ix2, o2⟩, k2⟩ := y
        cases o2 with
        | ok u => exact ih ix2
        | err e => rfl
        | panic => rfl
        | diverge => rfl
      | err e => rfl
      | panic => rfl
      | diverge => rfl

theorem runT_fst (fo : Str → Bool) (ts : List XTok) (s : PState) : (runT fo s ts).1 = run fo s ts := by
  induction ts generalizing s with
  | nil => rfl
  | cons t ts ih =>
    unfold runT run tokenT
    generalize s.token fo t = x
    obtain ⟨s', o⟩ := x
    cases o with
    | none => exact ih s'
    | some e => rfl

/-! ## The calls of the index, apart from the rest -/

/-- Those made on the way through the tokens. -/
def callsAlong (fo : Str → Bool) : PState → List XTok → Nat
  | _, [] => 0
  | s, t :: ts => s.callSteps t + match s.token fo t with
    | (s', none) => callsAlong fo s' ts
    | (_, some _) => 0

theorem scanSteps_le (s : PState) (t : XTok) : 1 + s.scanSteps t ≤ t.size := by
  cases t with
  | start n as =>
    simp only [scanSteps, XTok.size]
    split
    · omega
    · have := attrRounds_le as ‹_›; omega
  | _ => exact Nat.le_refl _

theorem runT_le (fo : Str → Bool) (ts : List XTok) (s : PState) :
    (runT fo s ts).2 ≤ (ts.map XTok.size).sum + callsAlong fo s ts := by
  induction ts generalizing s with
  | nil => exact Nat.le_refl _
  | cons t ts ih =>
    have h := scanSteps_le s t
    unfold runT tokenT callsAlong
    rw [List.map_cons, List.sum_cons]
    generalize s.token fo t = x
    obtain ⟨s', o⟩ := x
    cases o with
    | none =>
      have := ih s'
      simp only
      omega
    | some e => simp only; omega

theorem runT_ge (fo : Str → Bool) (ts : List XTok) (s : PState) : callsAlong fo s ts ≤ (runT fo s ts).2 := by
  induction ts generalizing s with
  | nil => exact Nat.le_refl _
  | cons t ts ih =>
    unfold runT tokenT callsAlong
    generalize s.token fo t = x
    obtain ⟨s', o⟩ := x
    cases o with
    | none =>
      have := ih s'
      simp only
      omega
    | some e => simp only; omega

/-- Without an error every token is processed. -/
theorem runT_ge_length (fo : Str → Bool) (ts : List XTok) (s : PState) (h : (run fo s ts).2 = none) :
    ts.length + callsAlong fo s ts ≤ (runT fo s ts).2 := by
  induction ts generalizing s with
  | nil => exact Nat.le_refl _
  | cons t ts ih =>
    unfold run at h
    unfold runT tokenT callsAlong
    generalize s.token fo t = x at h
    obtain ⟨s', o⟩ := x
    cases o with
    | none =>
      have := ih s' h
      simp only [List.length_cons]
      omega
    | some e => simp at h

theorem callsAlong_append (fo : Str → Bool) (a b : List XTok) (s : PState) :
    callsAlong fo s (a ++ b) = callsAlong fo s a + match run fo s a with
      | (s', none) => callsAlong fo s' b
      | (_, some _) => 0 := by
  induction a generalizing s with
  | nil => simp [callsAlong, run]
  | cons t a ih =>
    simp only [List.cons_append, callsAlong, run]
    generalize s.token fo t = x
    obtain ⟨s', o⟩ := x
    cases o with
    | none => simp only; rw [ih s']; omega
    | some e => simp

/-! ## Elements in which nothing is called -/

theorem onStart_path (fo : Str → Bool) (s : PState) (as : List XAttr) (hd : Handler) :
    (s.onStart fo as hd).1.path = s.path := by
  cases hd <;> simp only [onStart] <;> (repeat' split) <;> rfl

/-- No grammeme and no lemma further down. -/
def Below (st : List Str) : Prop := ∀ rest, rest ≠ [] → st ++ rest ≠ stG ∧ st ++ rest ≠ stL

theorem Below.snoc {st : List Str} (h : Below st) (n : Str) : Below (st ++ [n]) := by
  intro rest _
  rw [List.append_assoc]
  exact h ([n] ++ rest) (by simp)

theorem Below.of_length {st : List Str} (h : 3 ≤ st.length) : Below st := by
  intro rest hr
  have : 0 < rest.length := List.length_pos_iff.2 hr
  constructor <;> intro e <;> · have := congrArg List.length e; simp [stG, stL] at this; omega

theorem Below.of_second {a b : Str} (h1 : b ≠ str "grammemes") (h2 : b ≠ str "lemmata") : Below [a, b] := by
  intro rest _
  constructor <;> intro e <;> simp [stG, stL] at e <;> simp [e] at h1 h2

theorem stop_path {fo : Str → Bool} {s s' : PState} {p n : Str} (hp : s.path = p ++ 0x2e :: n)
    (h : s.token fo (.stop n) = (s', none)) : s'.path = p := by
  simp only [token, endElement] at h
  split at h
  · cases h
  · split at h
    · cases h
    · obtain ⟨rfl, _⟩ := Prod.mk.inj h
      rw [hp]
      exact take_path p n

theorem stop_quiet {s : PState} {st : List Str} {n : Str} (hs : Below st) (hk : st ++ [n] ∈ knownPaths)
    (hp : s.path = pathOf (st ++ [n])) (m : Str) : s.callSteps (.stop m) = 0 := by
  simp only [callSteps]
  split
  · rfl
  · rename_i hd hh
    rw [hp] at hh
    have hat := handler_at hk hh
    obtain ⟨h1, h2⟩ := hs [n] (by simp)
    cases hd <;> simp only [endSteps]
    · exact absurd (of_decide_eq_true hat) h1
    · exact absurd (of_decide_eq_true hat) h2

mutual
theorem quiet_tree (fo : Str → Bool) : ∀ (x : Xml) (st : List Str) (s : PState), Below st → s.path = pathOf st →
    x.Valid fo st → callsAlong fo s x.tokens = 0 ∧ ∀ s', run fo s x.tokens = (s', none) → s'.path = pathOf st
  | .elem n as ks, st, s, hb, hp, hv => by
    rw [Xml.Valid] at hv
    obtain ⟨hn, _, hk⟩ := hv
    rw [Xml.tokens]
    have hp1 : pathOf (st ++ [n]) = s.path ++ 0x2e :: n := by rw [pathOf_snoc, hp]
    have hpath : ∀ s', s.token fo (.start n as) = (s', none) → s'.path = pathOf (st ++ [n]) := by
      intro s' e
      simp only [token, startElement] at e
      split at e
      · cases e
      · have := onStart_path fo { s with path := s.path ++ 0x2e :: n } as ‹_›
        rw [e] at this
        rw [hp1]
        exact this
    simp only [callsAlong, run, callSteps]
    generalize hx : s.token fo (.start n as) = x at hpath
    obtain ⟨s1, o⟩ := x
    cases o with
    | some e => exact ⟨rfl, fun s' h => by simp at h⟩
    | none =>
      have h1 := hpath s1 rfl
      obtain ⟨q1, q2⟩ := quiet_trees fo ks (st ++ [n]) s1 (hb.snoc n) h1 hk
      simp only
      rw [callsAlong_append, q1, run_append]
      generalize hy : run fo s1 (Xml.tokensAll ks) = y at q2
      obtain ⟨s2, o2⟩ := y
      cases o2 with
      | some e => exact ⟨rfl, fun s' h => by simp at h⟩
      | none =>
        have h2 := q2 s2 rfl
        simp only [callsAlong, run]
        rw [stop_quiet hb (List.mem_cons_of_mem _ hn) h2]
        generalize hz : s2.token fo (.stop n) = z
        obtain ⟨s3, o3⟩ := z
        cases o3 with
        | some e => exact ⟨rfl, fun s' h => by simp at h⟩
        | none =>
          refine ⟨rfl, fun s' h => ?_⟩
          obtain rfl := (Prod.mk.inj h).1
          rw [hp1] at h2
          rw [← hp]
          exact stop_path h2 hz
  | .text d, st, s, hb, hp, _ => by
    refine ⟨?_, fun s' h => ?_⟩
    · simp only [Xml.tokens, callsAlong, callSteps]
      split <;> rfl
    · simp only [Xml.tokens, run, token, charData] at h
      rw [← hp]
      revert h
      cases handlerOf s.path with
      | none => intro h; simp at h
      | some hd =>
        cases hd <;> simp only <;> (try cases s.grammeme) <;> intro h <;> simp at h <;> rw [← h]
  | .other, st, s, hb, hp, _ => by
    refine ⟨rfl, fun s' h => ?_⟩
    simp only [Xml.tokens, run, token] at h
    obtain rfl := (Prod.mk.inj h).1
    exact hp

theorem quiet_trees (fo : Str → Bool) : ∀ (xs : List Xml) (st : List Str) (s : PState), Below st → s.path = pathOf st →
    Xml.ValidAll fo st xs → callsAlong fo s (Xml.tokensAll xs) = 0 ∧
      ∀ s', run fo s (Xml.tokensAll xs) = (s', none) → s'.path = pathOf st
  | [], st, s, hb, hp, _ => by
    refine ⟨rfl, fun s' h => ?_⟩
    simp only [Xml.tokensAll, run] at h
    obtain rfl := (Prod.mk.inj h).1
    exact hp
  | x :: xs, st, s, hb, hp, hv => by
    rw [Xml.ValidAll] at hv
    obtain ⟨q1, q2⟩ := quiet_tree fo x st s hb hp hv.1
    rw [Xml.tokensAll, callsAlong_append, q1, run_append]
    generalize run fo s x.tokens = y at q2
    obtain ⟨s1, o⟩ := y
    cases o with
    | some e => exact ⟨rfl, fun s' h => by simp at h⟩
    | none =>
      obtain ⟨q3, q4⟩ := quiet_trees fo xs st s1 hb (q2 s1 rfl) hv.2
      simp only
      rw [q3]
      exact ⟨rfl, q4⟩
end

/-! ## The calls are those of the entries -/

/-- The steps for the forms of a lemma. -/
def formsWork : Index → List (Str × List Str) → Nat
  | _, [] => 0
  | ix, (w, tags) :: rest =>
    1 + (ix.addStringT w).2 + match ix.addString w with
      | (ix1, .ok id) => tags.length + (ix1.addTagSetT id tags).2 + match ix1.addTagSet id tags with
        | (ix2, .ok ()) => formsWork ix2 rest
        | _ => 0
      | _ => 0

/-- The steps for entries. -/
def entriesWork : Index → List Entry → Nat
  | _, [] => 0
  | ix, .grammeme n p :: es => (tagsFindT n 0 ix.tags).2 + entriesWork (ix.tagID n p).1 es
  | ix, .lem fs :: es => formsWork ix fs + match addFormsSpec ix fs with
    | (ix, none) => entriesWork ix es
    | (_, some _) => 0

theorem entriesWork_append (a b : List Entry) (ix : Index) :
    entriesWork ix (a ++ b) = entriesWork ix a + match execEntries ix a with
      | (ix, none) => entriesWork ix b
      | (_, some _) => 0 := by
  induction a generalizing ix with
  | nil => simp [entriesWork, execEntries]
  | cons e a ih =>
    cases e with
    | grammeme n p =>
      simp only [List.cons_append, entriesWork, execEntries, Entry.exec]
      rw [ih]; omega
    | lem fs =>
      simp only [List.cons_append, entriesWork, execEntries, Entry.exec]
      generalize addFormsSpec ix fs = x
      obtain ⟨ix', o⟩ := x
      cases o with
      | none => simp only; rw [ih]; omega
      | some e => simp

theorem addFormsT_snd (lg : List Str) (fs : List (List XAttr × List Xml)) (ix : Index) :
    (addFormsT lg ix (fs.map fun f => some { form := (attrOf (str "t") f.1).getD [], g := tagsOf f.2 })).2 =
      formsWork ix (fs.map fun f => ((attrOf (str "t") f.1).getD [], lg ++ tagsOf f.2)) := by
  induction fs generalizing ix with
  | nil => rfl
  | cons f fs ih =>
    simp only [List.map_cons, addFormsT, formsWork]
    rw [← addStringT_fst]
    generalize ix.addStringT ((attrOf (str "t") f.1).getD []) = x
    obtain ⟨⟨ix1, o⟩, k⟩ := x
    cases o with
    | ok id =>
      simp only
      rw [← addTagSetT_fst]
      generalize ix1.addTagSetT id (lg ++ tagsOf f.2) = y
      obtain ⟨⟨ix2, o2⟩, k2⟩ := y
      cases o2 with
      | ok u => simp only; rw [ih]; omega
      | err e => simp only; omega
      | panic => simp only; omega
      | diverge => simp only; omega
    | err e => rfl
    | panic => rfl
    | diverge => rfl

/-- The tokens do what the entries say, with their number of steps. -/
structure SimT (fo : Str → Bool) (s : PState) (ts : List XTok) (es : List Entry) : Prop where
  sim : Sim fo s ts es
  steps : callsAlong fo s ts = entriesWork s.ix es

theorem SimT.nil {fo : Str → Bool} {s : PState} {ts : List XTok} (h : Does fo s ts s) (hq : callsAlong fo s ts = 0) :
    SimT fo s ts [] := ⟨Sim.nil h, hq⟩

theorem SimT.append {fo : Str → Bool} {s : PState} {ts ts' : List XTok} {es es' : List Entry} (hm : s.maxLemmas ≤ 0)
    (h : SimT fo s ts es) (h' : ∀ ix c, SimT fo { s with ix := ix, parsedLemmas := c } ts' es') :
    SimT fo s (ts ++ ts') (es ++ es') := by
  refine ⟨Sim.append h.sim fun ix c => (h' ix c).sim, ?_⟩
  rw [callsAlong_append, entriesWork_append, h.steps]
  have hs := h.sim
  obtain ⟨n1, n2⟩ := execCounted_nolimit hm es s.ix s.parsedLemmas
  unfold Sim at hs
  generalize execCounted s.maxLemmas s.ix s.parsedLemmas es = x at hs n1 n2
  generalize execEntries s.ix es = y at n1 n2
  obtain ⟨ix, c, o⟩ := x
  obtain ⟨ix', o'⟩ := y
  simp only at n1 n2
  subst n1 n2
  cases o with
  | none =>
    unfold Does at hs
    simp only at hs
    rw [hs]
    simp only
    rw [(h' ix c).steps]
  | some e =>
    obtain ⟨s', h1, _⟩ := hs
    rw [h1]

theorem simT_lemma {fo : Str → Bool} {s : PState} {as : List XAttr} {ks : List Xml} (hp : s.path = pLs) (hc : Clean s)
    (hv : Xml.Valid fo [str "dictionary", str "lemmata"] (.elem (str "lemma") as ks)) :
    SimT fo s (Xml.tokens (.elem (str "lemma") as ks)) [lemmaEntry ks] := by
  refine ⟨sim_lemma hp hc hv, ?_⟩
  obtain ⟨_, ha, hk⟩ := hv
  unfold AttrsOK at ha
  rw [if_neg (by decide), if_neg (by decide), if_pos (by decide)] at ha
  obtain ⟨⟨v1, h1, h1'⟩, v2, h2, h2'⟩ := ha
  have hh : handlerOf (s.path ++ 0x2e :: str "lemma") = some .lem := by rw [hp]; decide
  have hpl : s.path ++ 0x2e :: str "lemma" = pathOf stL := by rw [hp]; decide
  have hstart : s.token fo (.start (str "lemma") as) =
      ({ s with path := s.path ++ 0x2e :: str "lemma", lem := some newLemma }, none) := by
    have e1 : intAttrOK (str "id") as = true := by unfold intAttrOK; rw [getAttr_eq, h1]; exact (atoiOK_iff _).2 h1'
    have e2 : intAttrOK (str "rev") as = true := by unfold intAttrOK; rw [getAttr_eq, h2]; exact (atoiOK_iff _).2 h2'
    simp only [token, startElement, hh, onStart, e1, e2, and_self, if_true]
  have hkids := does_lemmaKids (fo := fo) ks { s with path := s.path ++ 0x2e :: str "lemma", lem := some newLemma } newLemma
    (by show s.path ++ _ = _; rw [hp]; decide) rfl hc.form hk
  obtain ⟨q1, _⟩ := quiet_trees fo ks stL { s with path := s.path ++ 0x2e :: str "lemma", lem := some newLemma }
    (Below.of_length (by decide)) hpl hk
  rw [Xml.tokens]
  simp only [callsAlong]
  rw [hstart]
  simp only
  rw [callsAlong_append, q1, hkids]
  simp only [callsAlong, callSteps, hh, endSteps]
  unfold lemmaEntry
  simp only [entriesWork]
  rw [show newLemma.f ++ formsOf ks = (childrenNamed (str "f") ks).map fun f =>
    some { form := (attrOf (str "t") f.1).getD [], g := tagsOf f.2 } from rfl,
    show newLemma.lg ++ lemmaTags ks = lemmaTags ks from rfl, addFormsT_snd]
  have e : lemmaTags ks = (childrenNamed (str "l") ks).flatMap fun l => tagsOf l.2 := rfl
  rw [e]
  simp only [Nat.zero_add]
  congr 1
  split <;> split <;> rfl

theorem simT_lemmataKids {fo : Str → Bool} (ks : List Xml) (s : PState) (hm : s.maxLemmas ≤ 0) (hp : s.path = pLs)
    (hc : Clean s) (hv : Xml.ValidAll fo [str "dictionary", str "lemmata"] ks) :
    SimT fo s (Xml.tokensAll ks) ((childrenNamed (str "lemma") ks).map fun l => lemmaEntry l.2) := by
  induction ks generalizing s with
  | nil => exact SimT.nil Does.nil rfl
  | cons k ks ih =>
    rw [Xml.ValidAll] at hv
    rw [Xml.tokensAll]
    have hh : handlerOf s.path = some .mute := by rw [hp]; decide
    have hrest : ∀ ix c, SimT fo { s with ix := ix, parsedLemmas := c } (Xml.tokensAll ks)
        ((childrenNamed (str "lemma") ks).map fun l => lemmaEntry l.2) :=
      fun ix c => ih _ hm hp ⟨hc.grammeme, hc.lem, hc.form⟩ hv.2
    cases k with
    | text d =>
      exact SimT.append hm (es := []) (SimT.nil (does_text hh (by decide) d) (by
        simp only [Xml.tokens, callsAlong, callSteps]; split <;> rfl)) hrest
    | other => exact SimT.append hm (es := []) (SimT.nil does_other rfl) hrest
    | elem n as ks' =>
      have hn' := mem_nextNames hv.1.1
      rw [show nextNames [str "dictionary", str "lemmata"] = [str "lemma"] by decide, List.mem_singleton] at hn'
      subst hn'
      rw [childrenNamed, if_pos rfl, List.map_cons]
      exact SimT.append hm (es := [lemmaEntry ks']) (simT_lemma hp hc hv.1) hrest

theorem simT_grammeme {fo : Str → Bool} {s : PState} {as : List XAttr} {ks : List Xml} (hp : s.path = pGs) (hc : Clean s)
    (hv : Xml.Valid fo [str "dictionary", str "grammemes"] (.elem (str "grammeme") as ks)) :
    SimT fo s (Xml.tokens (.elem (str "grammeme") as ks)) [grammemeEntry as ks] := by
  refine ⟨sim_grammeme hp hc hv, ?_⟩
  obtain ⟨_, ha, hk⟩ := hv
  unfold AttrsOK at ha
  rw [if_neg (by decide), if_pos (by decide)] at ha
  obtain ⟨v, hv⟩ := ha
  have hh : handlerOf (s.path ++ 0x2e :: str "grammeme") = some .grammeme := by rw [hp]; decide
  have hpl : s.path ++ 0x2e :: str "grammeme" = pathOf stG := by rw [hp]; decide
  have hstart : s.token fo (.start (str "grammeme") as) =
      ({ s with path := s.path ++ 0x2e :: str "grammeme", grammeme := some { parent := v, name := [] } }, none) := by
    simp only [token, startElement, hh, onStart, getAttr_eq, hv]
  have hkids := does_grammemeKids (fo := fo) ks
    { s with path := s.path ++ 0x2e :: str "grammeme", grammeme := some { parent := v, name := [] } } { parent := v, name := [] }
    (by show s.path ++ _ = _; rw [hp]; decide) rfl hk
  obtain ⟨q1, _⟩ := quiet_trees fo ks stG
    { s with path := s.path ++ 0x2e :: str "grammeme", grammeme := some { parent := v, name := [] } } (Below.of_length (by decide)) hpl hk
  rw [Xml.tokens]
  simp only [callsAlong]
  rw [hstart]
  simp only
  rw [callsAlong_append, q1, hkids]
  simp only [callsAlong, callSteps, hh, endSteps]
  unfold grammemeEntry
  simp only [entriesWork]
  have e : nameTexts ks = (childrenNamed (str "name") ks).flatMap fun n => textsOf n.2 := rfl
  rw [← e]
  simp only [Nat.zero_add]
  congr 1
  split <;> rfl

theorem simT_grammemesKids {fo : Str → Bool} (ks : List Xml) (s : PState) (hm : s.maxLemmas ≤ 0) (hp : s.path = pGs)
    (hc : Clean s) (hv : Xml.ValidAll fo [str "dictionary", str "grammemes"] ks) :
    SimT fo s (Xml.tokensAll ks) ((childrenNamed (str "grammeme") ks).map fun g => grammemeEntry g.1 g.2) := by
  induction ks generalizing s with
  | nil => exact SimT.nil Does.nil rfl
  | cons k ks ih =>
    rw [Xml.ValidAll] at hv
    rw [Xml.tokensAll]
    have hh : handlerOf s.path = some .mute := by rw [hp]; decide
    have hrest : ∀ ix c, SimT fo { s with ix := ix, parsedLemmas := c } (Xml.tokensAll ks)
        ((childrenNamed (str "grammeme") ks).map fun g => grammemeEntry g.1 g.2) :=
      fun ix c => ih _ hm hp ⟨hc.grammeme, hc.lem, hc.form⟩ hv.2
    cases k with
    | text d =>
      exact SimT.append hm (es := []) (SimT.nil (does_text hh (by decide) d) (by
        simp only [Xml.tokens, callsAlong, callSteps]; split <;> rfl)) hrest
    | other => exact SimT.append hm (es := []) (SimT.nil does_other rfl) hrest
    | elem n as ks' =>
      have hn' := mem_nextNames hv.1.1
      rw [show nextNames [str "dictionary", str "grammemes"] = [str "grammeme"] by decide, List.mem_singleton] at hn'
      subst hn'
      rw [childrenNamed, if_pos rfl, List.map_cons]
      exact SimT.append hm (es := [grammemeEntry as ks']) (simT_grammeme hp hc hv.1) hrest

/-- An element that calls nothing itself. -/
theorem SimT.muted {fo : Str → Bool} {s : PState} {n : Str} {as : List XAttr} {ts : List XTok} {es : List Entry}
    {hd : Handler} (h : handlerOf (s.path ++ 0x2e :: n) = some hd)
    (h1 : PState.onStart fo { s with path := s.path ++ 0x2e :: n } as hd = ({ s with path := s.path ++ 0x2e :: n }, none))
    (h4 : ∀ s' : PState, s'.onEnd hd = (s', none)) (h5 : ∀ s' : PState, s'.endSteps hd = 0)
    (h2 : SimT fo { s with path := s.path ++ 0x2e :: n } ts es) : SimT fo s (.start n as :: (ts ++ [.stop n])) es := by
  refine ⟨Sim.muted h h1 h4 h2.sim, ?_⟩
  have hstart : s.token fo (.start n as) = ({ s with path := s.path ++ 0x2e :: n }, none) := by
    simp only [token, startElement, h, h1]
  simp only [callsAlong, callSteps]
  rw [hstart]
  simp only
  rw [callsAlong_append, h2.steps]
  have hs := h2.sim
  unfold Sim at hs
  simp only at hs
  generalize execCounted s.maxLemmas s.ix s.parsedLemmas es = x at hs
  obtain ⟨ix, c, o⟩ := x
  cases o with
  | some e =>
    obtain ⟨s', h3, _⟩ := hs
    rw [h3]
    simp
  | none =>
    unfold Does at hs
    simp only at hs
    rw [hs]
    simp only [callsAlong, callSteps, h, h5, Nat.zero_add]
    split <;> rfl

theorem simT_section {fo : Str → Bool} {s : PState} {n : Str} {as : List XAttr} {ks : List Xml} (hm : s.maxLemmas ≤ 0)
    (hp : s.path = pD) (hc : Clean s) (hv : Xml.Valid fo [str "dictionary"] (.elem n as ks)) :
    SimT fo s (Xml.tokens (.elem n as ks)) (sectionEntries n ks) := by
  have hsim := sim_section hp hc hv
  obtain ⟨hn, _, hk⟩ := id hv
  have hn' := mem_nextNames hn
  rw [show nextNames [str "dictionary"] =
    [str "grammemes", str "restrictions", str "lemmata", str "link_types", str "links"] by decide] at hn'
  have hc' : ∀ p, Clean { s with path := p } := fun p => ⟨hc.grammeme, hc.lem, hc.form⟩
  have quiet : ∀ b, b ≠ str "grammemes" → b ≠ str "lemmata" → n = b → SimT fo s (Xml.tokens (.elem n as ks)) (sectionEntries n ks) := by
    rintro b h1 h2 rfl
    refine ⟨hsim, ?_⟩
    have e : sectionEntries n ks = [] := by
      unfold sectionEntries
      rw [if_neg h1, if_neg h2]
    rw [e]
    have hpn : s.path ++ 0x2e :: n = pathOf [str "dictionary", n] := by
      rw [hp]
      show pD ++ 0x2e :: n = pathOf ([str "dictionary"] ++ [n])
      rw [pathOf_snoc]
      congr 1
    have hb := Below.of_second (a := str "dictionary") h1 h2
    have hpath : ∀ s', s.token fo (.start n as) = (s', none) → s'.path = pathOf [str "dictionary", n] := by
      intro s' e
      simp only [token, startElement] at e
      split at e
      · cases e
      · have := onStart_path fo { s with path := s.path ++ 0x2e :: n } as ‹_›
        rw [e] at this
        rw [← hpn]
        exact this
    rw [Xml.tokens]
    simp only [callsAlong, callSteps, entriesWork]
    generalize s.token fo (.start n as) = x at hpath
    obtain ⟨s1, o⟩ := x
    cases o with
    | some e => rfl
    | none =>
      obtain ⟨q1, q2⟩ := quiet_trees fo ks _ s1 hb (hpath s1 rfl) hk
      simp only
      rw [callsAlong_append, q1]
      generalize run fo s1 (Xml.tokensAll ks) = y at q2
      obtain ⟨s2, o2⟩ := y
      cases o2 with
      | some e => rfl
      | none =>
        have hq := q2 s2 rfl
        have hknown : [str "dictionary", n] ∈ knownPaths := List.mem_cons_of_mem _ hn
        have : s2.callSteps (.stop n) = 0 := by
          simp only [callSteps]
          split
          · rfl
          · rename_i hd hh
            rw [hq] at hh
            have hat := handler_at hknown hh
            cases hd <;> simp only [endSteps]
            · exact absurd (of_decide_eq_true hat) (by simp [stG])
            · exact absurd (of_decide_eq_true hat) (by simp [stL])
        simp only [callsAlong]
        rw [this]
        simp only [Nat.zero_add]
        split <;> rfl
  simp only [List.mem_cons, List.not_mem_nil, or_false] at hn'
  rcases hn' with rfl | rfl | rfl | rfl | rfl
  · refine SimT.muted (hd := .mute) (by rw [hp]; decide) rfl (fun _ => rfl) (fun _ => rfl) ?_
    exact simT_grammemesKids ks _ hm (by show s.path ++ _ = _; rw [hp]; decide) (hc' _) hk
  · exact quiet _ (by decide) (by decide) rfl
  · refine SimT.muted (hd := .mute) (by rw [hp]; decide) rfl (fun _ => rfl) (fun _ => rfl) ?_
    exact simT_lemmataKids ks _ hm (by show s.path ++ _ = _; rw [hp]; decide) (hc' _) hk
  · exact quiet _ (by decide) (by decide) rfl
  · exact quiet _ (by decide) (by decide) rfl

theorem simT_dictionaryKids {fo : Str → Bool} (ks : List Xml) (s : PState) (hm : s.maxLemmas ≤ 0) (hp : s.path = pD)
    (hc : Clean s) (hv : Xml.ValidAll fo [str "dictionary"] ks) :
    SimT fo s (Xml.tokensAll ks) (ks.flatMap childEntries) := by
  induction ks generalizing s with
  | nil => exact SimT.nil Does.nil rfl
  | cons k ks ih =>
    rw [Xml.ValidAll] at hv
    rw [Xml.tokensAll, List.flatMap_cons]
    have hh : handlerOf s.path = some .dictionary := by rw [hp]; decide
    have hrest : ∀ ix c, SimT fo { s with ix := ix, parsedLemmas := c } (Xml.tokensAll ks) (ks.flatMap childEntries) :=
      fun ix c => ih _ hm hp ⟨hc.grammeme, hc.lem, hc.form⟩ hv.2
    cases k with
    | text d =>
      exact SimT.append hm (es := []) (SimT.nil (does_text hh (by decide) d) (by
        simp only [Xml.tokens, callsAlong, callSteps]; split <;> rfl)) hrest
    | other => exact SimT.append hm (es := []) (SimT.nil does_other rfl) hrest
    | elem n as ks' => exact SimT.append hm (simT_section hm hp hc hv.1) hrest

theorem simT_doc {fo : Str → Bool} (doc : List Xml) (s : PState) (hm : s.maxLemmas ≤ 0) (hp : s.path = []) (hc : Clean s)
    (hv : Xml.ValidAll fo [] doc) : SimT fo s (Xml.tokensAll doc) (entriesOf doc) := by
  induction doc generalizing s with
  | nil => exact SimT.nil Does.nil rfl
  | cons k ks ih =>
    rw [Xml.ValidAll] at hv
    rw [Xml.tokensAll]
    have hh : handlerOf s.path = some .mute := by rw [hp]; decide
    have hrest : ∀ ix c, SimT fo { s with ix := ix, parsedLemmas := c } (Xml.tokensAll ks) (entriesOf ks) :=
      fun ix c => ih _ hm hp ⟨hc.grammeme, hc.lem, hc.form⟩ hv.2
    cases k with
    | text d =>
      exact SimT.append hm (es := []) (SimT.nil (does_text hh (by decide) d) (by
        simp only [Xml.tokens, callsAlong, callSteps]; split <;> rfl)) hrest
    | other => exact SimT.append hm (es := []) (SimT.nil does_other rfl) hrest
    | elem n as ks' =>
      obtain ⟨⟨hn, ha, hk⟩, hv⟩ := hv
      have hn' := mem_nextNames hn
      rw [show nextNames [] = [str "dictionary"] by decide, List.mem_singleton] at hn'
      subst hn'
      have e : entriesOf (.elem (str "dictionary") as ks' :: ks) = ks'.flatMap childEntries ++ entriesOf ks := by
        unfold entriesOf
        rw [childrenNamed, if_pos rfl, List.flatMap_cons]
      rw [e]
      refine SimT.append hm ?_ hrest
      unfold AttrsOK at ha
      rw [if_pos (by decide)] at ha
      have hd : dictionaryOK fo as = true := by
        unfold dictionaryOK
        rw [List.all_eq_true]
        intro a hm
        by_cases h1 : a.name = str "version"
        · rw [if_pos h1]; exact ha.1 a hm h1
        · rw [if_neg h1]
          by_cases h2 : a.name = str "revision"
          · rw [if_pos h2]; exact (atoiOK_iff _).2 (ha.2 a hm h2)
          · rw [if_neg h2]
      refine SimT.muted (hd := .dictionary) (by rw [hp]; decide) (by simp only [onStart, hd, if_true]) (fun _ => rfl)
        (fun _ => rfl) ?_
      exact simT_dictionaryKids ks' _ hm (by show s.path ++ _ = _; rw [hp]; decide) ⟨hc.grammeme, hc.lem, hc.form⟩ hk

end Verif
