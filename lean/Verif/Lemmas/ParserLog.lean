import Verif.Spec.ParserLog
import Verif.Lemmas.ParserStream
import Verif.Lemmas.DocRoom

/-! # The parser's log on a document -/

namespace Verif

open PState

theorem wordsIn_append (a b : List ParseLine) : wordsIn (a ++ b) = wordsIn a ++ wordsIn b := by
  induction a with
  | nil => rfl
  | cons l ls ih => cases l <;> simp [wordsIn, ih]

theorem runLog_append (fo : Str → Bool) (s : PState) (a b : List XTok) :
    runLog fo s (a ++ b) = runLog fo s a ++ match run fo s a with
      | (s', none) => runLog fo s' b
      | (_, some _) => [] := by
  induction a generalizing s with
  | nil => rfl
  | cons t ts ih =>
    rw [List.cons_append, runLog, runLog, run]
    cases h : s.token fo t with
    | mk s' o => cases o with
      | none => simp only [ih s', List.append_assoc]
      | some e => simp

/-- The reports of forms that are added one after the other. -/
def formLines : Index → List (Str × List Str) → List (Item × Str × List Str)
  | _, [] => []
  | ix, (w, tags) :: rest =>
    match ix.addString w with
    | (ix, .ok id) => match ix.addTagSet id tags with
      | (ix, .ok ()) => (ix.items.items.getD id.toNat zeroItem, w, tags) :: formLines ix rest
      | _ => []
    | _ => []

/-- The reports of the entries. -/
def entryLines : Index → List Entry → List (Item × Str × List Str)
  | _, [] => []
  | ix, .grammeme n p :: es => entryLines (ix.tagID n p).1 es
  | ix, .lem fs :: es => formLines ix fs ++ match addFormsSpec ix fs with
    | (ix, none) => entryLines ix es
    | (_, some _) => []

/-- The same with a limit. -/
def countedLines (max : Int) : Index → Nat → List Entry → List (Item × Str × List Str)
  | _, _, [] => []
  | ix, c, .grammeme n p :: es => countedLines max (ix.tagID n p).1 c es
  | ix, c, .lem fs :: es => formLines ix fs ++ match addFormsSpec ix fs with
    | (ix, none) => if 0 < max ∧ max ≤ c + 1 then [] else countedLines max ix (c + 1) es
    | (_, some _) => []

theorem formsLog_words (lg : List Str) (fs : List (List XAttr × List Xml)) (ix : Index) :
    wordsIn (formsLog lg ix (fs.map fun f => some { form := (attrOf (str "t") f.1).getD [], g := tagsOf f.2 })) =
      formLines ix (fs.map fun f => ((attrOf (str "t") f.1).getD [], lg ++ tagsOf f.2)) := by
  induction fs generalizing ix with
  | nil => rfl
  | cons f fs ih =>
    simp only [List.map_cons, formsLog, formLines]
    cases ix.addString ((attrOf (str "t") f.1).getD []) with
    | mk ix1 o1 => cases o1 with
      | ok id =>
        simp only
        cases ix1.addTagSet id (lg ++ tagsOf f.2) with
        | mk ix2 o2 => cases o2 with
          | ok u => simp only [wordsIn, ih]
          | _ => rfl
      | _ => rfl

/-! ### Where nothing is reported -/

theorem token_silent {fo : Str → Bool} {s s' : PState} {t : XTok} (h : s.token fo t = (s', none)) :
    s.parsedLemmas ≤ s'.parsedLemmas ∧ (s'.parsedLemmas = s.parsedLemmas → wordsIn (s.tokenLog t) = []) := by
  cases t with
  | start n as =>
    refine ⟨?_, fun _ => rfl⟩
    simp only [token, startElement] at h
    cases hh : handlerOf (s.path ++ 0x2e :: n) with
    | none => rw [hh] at h; simp at h
    | some hd =>
      rw [hh] at h
      simp only at h
      cases hd <;> simp only [onStart] at h <;> (try split at h) <;> (try split at h) <;>
        (have := (Prod.mk.inj h).1; subst this; exact Nat.le_refl _)
  | chars d =>
    constructor
    · simp only [token, charData] at h
      split at h
      · simp at h
      · split at h
        · simp at h
        · have := (Prod.mk.inj h).1; subst this; exact Nat.le_refl _
      · have := (Prod.mk.inj h).1; subst this; exact Nat.le_refl _
    · intro _
      simp only [tokenLog]
      split <;> rfl
  | other =>
    have := (Prod.mk.inj h).1
    subst this
    exact ⟨Nat.le_refl _, fun _ => rfl⟩
  | stop n =>
    simp only [token, endElement] at h
    simp only [tokenLog]
    cases hh : handlerOf s.path with
    | none => rw [hh] at h; simp at h
    | some hd =>
      rw [hh] at h
      simp only at h
      split at h
      · simp at h
      · obtain ⟨h1, h2⟩ := Prod.mk.inj h
        have hp : s'.parsedLemmas = (s.onEnd hd).1.parsedLemmas := by rw [← h1]
        rw [hp]
        cases hd
        case lem =>
          simp only [onEnd] at h2 ⊢
          cases hl : s.lem with
          | none => rw [hl] at h2; simp at h2
          | some l =>
            rw [hl] at h2
            simp only at h2 ⊢
            cases ha : addForms l.lg s.ix l.f with
            | mk ix o => cases o with
              | some e => rw [ha] at h2; simp at h2
              | none => exact ⟨Nat.le_succ _, fun h => absurd h (by simp)⟩
        all_goals
          simp only [onEnd]
          refine ⟨?_, fun _ => rfl⟩
          first
            | exact Nat.le_refl _
            | (split <;> exact Nat.le_refl _)

/-- Tokens that finish no lemma report no words. -/
theorem Does.silent {fo : Str → Bool} {ts : List XTok} {s s' : PState} (h : Does fo s ts s') :
    s.parsedLemmas ≤ s'.parsedLemmas ∧ (s'.parsedLemmas = s.parsedLemmas → wordsIn (runLog fo s ts) = []) := by
  induction ts generalizing s with
  | nil =>
    obtain rfl := (Prod.mk.inj h).1
    exact ⟨Nat.le_refl _, fun _ => rfl⟩
  | cons t ts ih =>
    unfold Does at h
    rw [run] at h
    cases ht : s.token fo t with
    | mk s1 o =>
      rw [ht] at h
      cases o with
      | some e => simp at h
      | none =>
        obtain ⟨a, b⟩ := token_silent ht
        obtain ⟨c, d⟩ := ih h
        refine ⟨Nat.le_trans a c, fun e => ?_⟩
        rw [runLog, ht, wordsIn_append, b (by omega), d (by omega)]
        rfl

/-! ### The tokens report what the entries say -/

def Loud (fo : Str → Bool) (s : PState) (ts : List XTok) (es : List Entry) : Prop :=
  wordsIn (runLog fo s ts) = countedLines s.maxLemmas s.ix s.parsedLemmas es

theorem countedLines_append (max : Int) (es es' : List Entry) (ix : Index) (c : Nat) :
    countedLines max ix c (es ++ es') = countedLines max ix c es ++ match execCounted max ix c es with
      | (ix, c, none) => countedLines max ix c es'
      | _ => [] := by
  induction es generalizing ix c with
  | nil => rfl
  | cons e es ih =>
    cases e with
    | grammeme n p => rw [List.cons_append, countedLines, countedLines, execCounted]; exact ih ..
    | lem fs =>
      rw [List.cons_append, countedLines, countedLines, execCounted]
      cases h : addFormsSpec ix fs with
      | mk ix' o => cases o with
        | some e => simp
        | none =>
          simp only
          split
          · simp
          · rw [ih, List.append_assoc]

theorem Loud.append {fo : Str → Bool} {s : PState} {ts ts' : List XTok} {es es' : List Entry} (m : Sim fo s ts es)
    (h : Loud fo s ts es) (h' : ∀ ix c, Loud fo { s with ix := ix, parsedLemmas := c } ts' es') :
    Loud fo s (ts ++ ts') (es ++ es') := by
  unfold Loud at *
  unfold Sim at m
  rw [runLog_append, wordsIn_append, countedLines_append, h]
  congr 1
  cases he : execCounted s.maxLemmas s.ix s.parsedLemmas es with
  | mk ix r => cases r with
    | mk c o =>
      rw [he] at m
      cases o with
      | some e =>
        obtain ⟨s', h1, _⟩ := m
        rw [h1]
        rfl
      | none =>
        simp only at m
        unfold Does at m
        rw [m]
        exact h' ix c

theorem Loud.nil {fo : Str → Bool} {s : PState} {ts : List XTok} (h : Does fo s ts s) : Loud fo s ts [] :=
  h.silent.2 rfl

theorem Loud.muted {fo : Str → Bool} {s : PState} {n : Str} {as : List XAttr} {ts : List XTok} {es : List Entry}
    {hd : Handler} (h : handlerOf (s.path ++ 0x2e :: n) = some hd) (hl : hd ≠ .lem)
    (h1 : PState.onStart fo { s with path := s.path ++ 0x2e :: n } as hd = ({ s with path := s.path ++ 0x2e :: n }, none))
    (m : Sim fo { s with path := s.path ++ 0x2e :: n } ts es)
    (h2 : Loud fo { s with path := s.path ++ 0x2e :: n } ts es) : Loud fo s (.start n as :: (ts ++ [.stop n])) es := by
  unfold Loud at *
  rw [runLog]
  simp only [token, startElement, h, h1]
  rw [runLog_append, wordsIn_append, wordsIn_append, h2]
  simp only [tokenLog, wordsIn, List.nil_append]
  refine (congrArg _ ?_).trans (List.append_nil _)
  unfold Sim at m
  simp only at m
  cases he : execCounted s.maxLemmas s.ix s.parsedLemmas es with
  | mk ix r => cases r with
    | mk c o =>
      rw [he] at m
      cases o with
      | some e =>
        obtain ⟨s', h1, _⟩ := m
        rw [h1]
        rfl
      | none =>
        simp only at m
        unfold Does at m
        rw [m]
        simp only
        rw [runLog, wordsIn_append]
        have e1 : wordsIn (tokenLog { s with ix := ix, parsedLemmas := c, path := s.path ++ 0x2e :: n } (.stop n)) = [] := by
          simp only [tokenLog, h]
          cases hd <;> first | rfl | exact absurd rfl hl
        rw [e1]
        split <;> rfl

theorem loud_lemma {fo : Str → Bool} {s : PState} {as : List XAttr} {ks : List Xml} (hp : s.path = pLs) (hc : Clean s)
    (hv : Xml.Valid fo [str "dictionary", str "lemmata"] (.elem (str "lemma") as ks)) :
    Loud fo s (Xml.tokens (.elem (str "lemma") as ks)) [lemmaEntry ks] := by
  obtain ⟨_, ha, hk⟩ := hv
  unfold AttrsOK at ha
  rw [if_neg (by decide), if_neg (by decide), if_pos (by decide)] at ha
  obtain ⟨⟨v1, h1, h1'⟩, v2, h2, h2'⟩ := ha
  have hh : handlerOf (s.path ++ 0x2e :: str "lemma") = some .lem := by rw [hp]; decide
  have hstart : PState.onStart fo { s with path := s.path ++ 0x2e :: str "lemma" } as .lem =
      ({ s with path := s.path ++ 0x2e :: str "lemma", lem := some newLemma }, none) := by
    have e1 : intAttrOK (str "id") as = true := by unfold intAttrOK; rw [getAttr_eq, h1]; exact (atoiOK_iff _).2 h1'
    have e2 : intAttrOK (str "rev") as = true := by unfold intAttrOK; rw [getAttr_eq, h2]; exact (atoiOK_iff _).2 h2'
    simp only [onStart, e1, e2, and_self, if_true]
  have hkids := does_lemmaKids (fo := fo) ks { s with path := s.path ++ 0x2e :: str "lemma", lem := some newLemma } newLemma
    (by show s.path ++ _ = _; rw [hp]; decide) rfl hc.form hk
  have hwords : wordsIn (formsLog (newLemma.lg ++ lemmaTags ks) s.ix (newLemma.f ++ formsOf ks)) =
      formLines s.ix ((childrenNamed (str "f") ks).map fun f =>
        ((attrOf (str "t") f.1).getD [], lemmaTags ks ++ tagsOf f.2)) := formsLog_words (lemmaTags ks) _ s.ix
  unfold Loud lemmaEntry
  rw [countedLines, Xml.tokens, runLog]
  simp only [token, startElement, hh, hstart]
  rw [runLog_append, wordsIn_append, wordsIn_append, hkids.silent.2 rfl]
  unfold Does at hkids
  rw [hkids]
  simp only
  rw [runLog, wordsIn_append]
  have e1 : wordsIn (tokenLog { s with
        path := s.path ++ 0x2e :: str "lemma",
        lem := some { lg := newLemma.lg ++ lemmaTags ks, f := newLemma.f ++ formsOf ks } } (.stop (str "lemma"))) =
      formLines s.ix ((childrenNamed (str "f") ks).map fun f =>
        ((attrOf (str "t") f.1).getD [], lemmaTags ks ++ tagsOf f.2)) := by
    simp only [tokenLog, hh]
    exact hwords
  rw [e1]
  have e2 : ∀ l, formLines s.ix ((childrenNamed (str "f") ks).map fun f =>
        ((attrOf (str "t") f.1).getD [], lemmaTags ks ++ tagsOf f.2)) ++ l = formLines s.ix
          ((childrenNamed (str "f") ks).map fun f => ((attrOf (str "t") f.1).getD [],
            ((childrenNamed (str "l") ks).flatMap fun l => tagsOf l.2) ++ tagsOf f.2)) ++ l := fun _ => rfl
  rw [e2]
  simp only [tokenLog, wordsIn, List.nil_append]
  congr 1
  have e3 : ∀ ix c, countedLines s.maxLemmas ix c [] = [] := fun _ _ => rfl
  split <;> split <;> first | rfl | (simp only [runLog, wordsIn, e3, ite_self])

theorem loud_lemmataKids {fo : Str → Bool} (ks : List Xml) (s : PState) (hp : s.path = pLs) (hc : Clean s)
    (hv : Xml.ValidAll fo [str "dictionary", str "lemmata"] ks) :
    Loud fo s (Xml.tokensAll ks) ((childrenNamed (str "lemma") ks).map fun l => lemmaEntry l.2) := by
  induction ks generalizing s with
  | nil => exact Loud.nil Does.nil
  | cons k ks ih =>
    rw [Xml.ValidAll] at hv
    rw [Xml.tokensAll]
    have hh : handlerOf s.path = some .mute := by rw [hp]; decide
    have hrest : ∀ ix c, Loud fo { s with ix := ix, parsedLemmas := c } (Xml.tokensAll ks)
        ((childrenNamed (str "lemma") ks).map fun l => lemmaEntry l.2) :=
      fun ix c => ih _ hp ⟨hc.grammeme, hc.lem, hc.form⟩ hv.2
    cases k with
    | text d =>
      have := does_text (fo := fo) hh (by decide) d
      exact Loud.append (es := []) (Sim.nil this) (Loud.nil this) hrest
    | other => exact Loud.append (es := []) (Sim.nil does_other) (Loud.nil does_other) hrest
    | elem n as ks' =>
      have hn' := mem_nextNames hv.1.1
      rw [show nextNames [str "dictionary", str "lemmata"] = [str "lemma"] by decide, List.mem_singleton] at hn'
      subst hn'
      rw [childrenNamed, if_pos rfl, List.map_cons]
      exact Loud.append (es := [lemmaEntry ks']) (sim_lemma hp hc hv.1) (loud_lemma hp hc hv.1) hrest

/-- Entries without lemmas. -/
theorem countedLines_grammemes (max : Int) (gs : List (List XAttr × List Xml)) (ix : Index) (c : Nat) :
    countedLines max ix c (gs.map fun g => grammemeEntry g.1 g.2) = [] ∧
      ∃ ix', execCounted max ix c (gs.map fun g => grammemeEntry g.1 g.2) = (ix', c, none) := by
  induction gs generalizing ix with
  | nil => exact ⟨rfl, _, rfl⟩
  | cons g gs ih =>
    rw [List.map_cons, grammemeEntry, countedLines, execCounted]
    exact ih _

theorem loud_grammemesKids {fo : Str → Bool} (ks : List Xml) (s : PState) (hp : s.path = pGs) (hc : Clean s)
    (hv : Xml.ValidAll fo [str "dictionary", str "grammemes"] ks) :
    Loud fo s (Xml.tokensAll ks) ((childrenNamed (str "grammeme") ks).map fun g => grammemeEntry g.1 g.2) := by
  have m := sim_grammemesKids ks s hp hc hv
  obtain ⟨h1, ix', h2⟩ := countedLines_grammemes s.maxLemmas (childrenNamed (str "grammeme") ks) s.ix s.parsedLemmas
  unfold Loud
  unfold Sim at m
  rw [h2] at m
  rw [h1]
  exact Does.silent m |>.2 rfl

theorem loud_section {fo : Str → Bool} {s : PState} {n : Str} {as : List XAttr} {ks : List Xml} (hp : s.path = pD)
    (hc : Clean s) (hv : Xml.Valid fo [str "dictionary"] (.elem n as ks)) :
    Loud fo s (Xml.tokens (.elem n as ks)) (sectionEntries n ks) := by
  have m := sim_section hp hc hv
  obtain ⟨hn, _, hk⟩ := hv
  have hn' := mem_nextNames hn
  rw [show nextNames [str "dictionary"] =
    [str "grammemes", str "restrictions", str "lemmata", str "link_types", str "links"] by decide] at hn'
  have hc' : ∀ p, Clean { s with path := p } := fun p => ⟨hc.grammeme, hc.lem, hc.form⟩
  simp only [List.mem_cons, List.not_mem_nil, or_false] at hn'
  have quiet : sectionEntries n ks = [] → Loud fo s (Xml.tokens (.elem n as ks)) (sectionEntries n ks) := by
    intro e
    rw [e] at m ⊢
    exact Loud.nil m
  rcases hn' with rfl | rfl | rfl | rfl | rfl
  · refine Loud.muted (hd := .mute) (by rw [hp]; decide) (by decide) rfl ?_ ?_
    · exact sim_grammemesKids ks _ (by show s.path ++ _ = _; rw [hp]; decide) (hc' _) hk
    · exact loud_grammemesKids ks _ (by show s.path ++ _ = _; rw [hp]; decide) (hc' _) hk
  · exact quiet rfl
  · refine Loud.muted (hd := .mute) (by rw [hp]; decide) (by decide) rfl ?_ ?_
    · exact sim_lemmataKids ks _ (by show s.path ++ _ = _; rw [hp]; decide) (hc' _) hk
    · exact loud_lemmataKids ks _ (by show s.path ++ _ = _; rw [hp]; decide) (hc' _) hk
  · exact quiet rfl
  · exact quiet rfl

theorem loud_dictionaryKids {fo : Str → Bool} (ks : List Xml) (s : PState) (hp : s.path = pD) (hc : Clean s)
    (hv : Xml.ValidAll fo [str "dictionary"] ks) : Loud fo s (Xml.tokensAll ks) (ks.flatMap childEntries) := by
  induction ks generalizing s with
  | nil => exact Loud.nil Does.nil
  | cons k ks ih =>
    rw [Xml.ValidAll] at hv
    rw [Xml.tokensAll, List.flatMap_cons]
    have hh : handlerOf s.path = some .dictionary := by rw [hp]; decide
    have hrest : ∀ ix c, Loud fo { s with ix := ix, parsedLemmas := c } (Xml.tokensAll ks) (ks.flatMap childEntries) :=
      fun ix c => ih _ hp ⟨hc.grammeme, hc.lem, hc.form⟩ hv.2
    cases k with
    | text d =>
      have := does_text (fo := fo) hh (by decide) d
      exact Loud.append (es := []) (Sim.nil this) (Loud.nil this) hrest
    | other => exact Loud.append (es := []) (Sim.nil does_other) (Loud.nil does_other) hrest
    | elem n as ks' => exact Loud.append (sim_section hp hc hv.1) (loud_section hp hc hv.1) hrest

theorem loud_doc {fo : Str → Bool} (doc : List Xml) (s : PState) (hp : s.path = []) (hc : Clean s)
    (hv : Xml.ValidAll fo [] doc) : Loud fo s (Xml.tokensAll doc) (entriesOf doc) := by
  induction doc generalizing s with
  | nil => exact Loud.nil Does.nil
  | cons k ks ih =>
    have hv0 := hv
    rw [Xml.ValidAll] at hv
    rw [Xml.tokensAll]
    have hh : handlerOf s.path = some .mute := by rw [hp]; decide
    have hrest : ∀ ix c, Loud fo { s with ix := ix, parsedLemmas := c } (Xml.tokensAll ks) (entriesOf ks) :=
      fun ix c => ih _ hp ⟨hc.grammeme, hc.lem, hc.form⟩ hv.2
    cases k with
    | text d =>
      have := does_text (fo := fo) hh (by decide) d
      exact Loud.append (es := []) (Sim.nil this) (Loud.nil this) hrest
    | other => exact Loud.append (es := []) (Sim.nil does_other) (Loud.nil does_other) hrest
    | elem n as ks' =>
      have m := sim_doc (fo := fo) [.elem n as ks'] s hp hc (by rw [Xml.ValidAll]; exact ⟨hv.1, trivial⟩)
      rw [Xml.tokensAll, Xml.tokensAll, List.append_nil] at m
      obtain ⟨⟨hn, ha, hk⟩, hv⟩ := hv
      have hn' := mem_nextNames hn
      rw [show nextNames [] = [str "dictionary"] by decide, List.mem_singleton] at hn'
      subst hn'
      have e : entriesOf (.elem (str "dictionary") as ks' :: ks) = ks'.flatMap childEntries ++ entriesOf ks := by
        unfold entriesOf
        rw [childrenNamed, if_pos rfl, List.flatMap_cons]
      have e0 : entriesOf [.elem (str "dictionary") as ks'] = ks'.flatMap childEntries := by
        unfold entriesOf
        rw [childrenNamed, if_pos rfl, List.flatMap_cons]
        exact List.append_nil _
      rw [e0] at m
      rw [e]
      refine Loud.append m ?_ hrest
      unfold AttrsOK at ha
      rw [if_pos (by decide)] at ha
      have hd : dictionaryOK fo as = true := by
        unfold dictionaryOK
        rw [List.all_eq_true]
        intro a hm
        by_cases h1 : a.name = str "version"
        · rw [if_pos h1]; exact ha.1 a hm h1
        · rw [if_neg h1]
          by_cases h2 : a.name = str "revision"
          · rw [if_pos h2]; exact (atoiOK_iff _).2 (ha.2 a hm h2)
          · rw [if_neg h2]
      refine Loud.muted (hd := .dictionary) (by rw [hp]; decide) (by decide) (by simp only [onStart, hd, if_true]) ?_ ?_
      · exact sim_dictionaryKids ks' _ (by show s.path ++ _ = _; rw [hp]; decide) ⟨hc.grammeme, hc.lem, hc.form⟩ hk
      · exact loud_dictionaryKids ks' _ (by show s.path ++ _ = _; rw [hp]; decide) ⟨hc.grammeme, hc.lem, hc.form⟩ hk

/-! ### With the limit -/

theorem countedLines_wanted (max : Int) (es : List Entry) (ix : Index) :
    countedLines max ix 0 es = entryLines ix (wanted max es) := by
  have lim : ∀ (es : List Entry) (m k : Nat) (ix : Index) (c : Nat), m = c + k + 1 →
      countedLines (m : Int) ix c es = entryLines ix (upToLemma (k + 1) es) := by
    intro es
    induction es with
    | nil => intros; rfl
    | cons e es ih =>
      intro m k ix c hk
      cases e with
      | grammeme n p =>
        have : upToLemma (k + 1) (.grammeme n p :: es) = .grammeme n p :: upToLemma (k + 1) es := by cases k <;> rfl
        rw [this, countedLines, entryLines]
        exact ih _ _ _ _ hk
      | lem fs =>
        rw [countedLines]
        cases k with
        | zero =>
          rw [upToLemma, entryLines]
          cases addFormsSpec ix fs with
          | mk ix' o => cases o with
            | some e => rfl
            | none => simp only [entryLines]; rw [if_pos (by omega)]
        | succ k =>
          rw [upToLemma, entryLines]
          cases addFormsSpec ix fs with
          | mk ix' o => cases o with
            | some e => rfl
            | none =>
              simp only
              rw [if_neg (by omega), ih m k ix' (c + 1) (by omega)]
  have nolim : max ≤ 0 → ∀ (es : List Entry) (ix : Index) (c : Nat), countedLines max ix c es = entryLines ix es := by
    intro hm es
    induction es with
    | nil => intros; rfl
    | cons e es ih =>
      intro ix c
      cases e with
      | grammeme n p => exact ih ..
      | lem fs =>
        rw [countedLines, entryLines]
        cases addFormsSpec ix fs with
        | mk ix' o => cases o with
          | some e => rfl
          | none =>
            simp only
            rw [if_neg (by omega), ih]
  unfold wanted
  by_cases h : 0 < max
  · rw [if_pos h]
    obtain ⟨k, rfl⟩ : ∃ k : Nat, max = ((k + 1 : Nat) : Int) := ⟨(max - 1).toNat, by omega⟩
    exact lim es (k + 1) k ix 0 (by omega)
  · rw [if_neg h]
    exact nolim (by omega) es ix 0

/-- The reported words of a document. -/
theorem words_doc {fo : Str → Bool} {doc : List Xml} (hv : Xml.ValidAll fo [] doc) (ix : Index) (max : Int) :
    wordsIn (runLog fo (PState.init ix max) (Xml.tokensAll doc)) = entryLines ix (wanted max (entriesOf doc)) :=
  (loud_doc doc (PState.init ix max) rfl ⟨rfl, rfl, rfl⟩ hv).trans (countedLines_wanted ..)

end Verif
