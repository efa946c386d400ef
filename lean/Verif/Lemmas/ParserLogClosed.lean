import Verif.Lemmas.ParserLog

/-! # The end of the dictionary in the parser's log -/

namespace Verif

open PState

theorem closedIn_append (a b : List ParseLine) : closedIn (a ++ b) = closedIn a ++ closedIn b := by
  induction a with
  | nil => rfl
  | cons l ls ih => cases l <;> simp [closedIn, ih]

theorem tokensAll_append (a b : List Xml) : Xml.tokensAll (a ++ b) = Xml.tokensAll a ++ Xml.tokensAll b := by
  induction a with
  | nil => simp [Xml.tokensAll]
  | cons x xs ih => rw [List.cons_append, Xml.tokensAll, Xml.tokensAll, ih, List.append_assoc]

/-- Text and comments outside of all elements. -/
theorem quiet_outside {fo : Str → Bool} (xs : List Xml) (h : ∀ x ∈ xs, ∀ n as ks, x ≠ .elem n as ks) (s : PState)
    (hp : s.path = []) :
    run fo s (Xml.tokensAll xs) = (s, none) ∧ closedIn (runLog fo s (Xml.tokensAll xs)) = [] := by
  have hh : handlerOf s.path = some .mute := by rw [hp]; decide
  induction xs with
  | nil => exact ⟨rfl, rfl⟩
  | cons x xs ih =>
    obtain ⟨a, b⟩ := ih (fun y hy => h y (List.mem_cons_of_mem _ hy))
    rw [Xml.tokensAll, run_append, runLog_append, closedIn_append]
    cases x with
    | elem n as ks => exact absurd rfl (h _ List.mem_cons_self n as ks)
    | text d =>
      rw [Xml.tokens, does_text hh (by decide) d]
      refine ⟨a, ?_⟩
      simp only [b, List.append_nil, runLog, token, charData, hh, tokenLog]
      rfl
    | other => exact ⟨a, b⟩

theorem handler_dictionary {p : Str} (h : handlerOf p = some .dictionary) : p = str ".dictionary" := by
  have key : ∀ (l : List (Str × Handler)), l.lookup p = some .dictionary → (p, .dictionary) ∈ l := by
    intro l
    induction l with
    | nil => intro h; cases h
    | cons x l ih =>
      obtain ⟨q, hd⟩ := x
      intro h
      rw [List.lookup_cons] at h
      by_cases hq : p = q
      · subst hq
        simp at h
        subst h
        exact List.mem_cons_self
      · have : (p == q) = false := by simpa using hq
        rw [this] at h
        exact List.mem_cons_of_mem _ (ih h)
  have all : ∀ x ∈ handlers, x.2 = .dictionary → x.1 = str ".dictionary" := by decide
  exact all _ (key _ h) rfl

theorem formsLog_closed (lg : List Str) (fs : List (Option WForm)) (ix : Index) : closedIn (formsLog lg ix fs) = [] := by
  induction fs generalizing ix with
  | nil => rfl
  | cons f fs ih =>
    cases f with
    | none => rfl
    | some w =>
      rw [formsLog]
      split
      · split
        · simp only [closedIn, ih]
        · rfl
      · rfl

/-- A token that is logged as an end is the end of the dictionary. -/
theorem tokenLog_closed (s : PState) (t : XTok) (h : s.path ≠ str ".dictionary") : closedIn (s.tokenLog t) = [] := by
  cases t with
  | start n as => rfl
  | other => rfl
  | chars d =>
    simp only [tokenLog]
    split <;> rfl
  | stop n =>
    simp only [tokenLog]
    split
    · rename_i hh
      exact absurd (handler_dictionary hh) h
    · split
      · rfl
      · exact formsLog_closed ..
    · rfl

theorem onStart_keeps {fo : Str → Bool} (s : PState) (as : List XAttr) (hd : Handler) :
    (s.onStart fo as hd).1.path = s.path := by
  cases hd <;> simp only [onStart] <;> (try split) <;> (try split) <;> rfl

theorem start_path {fo : Str → Bool} {s s' : PState} {n : Str} {as : List XAttr}
    (h : s.token fo (.start n as) = (s', none)) : s'.path = s.path ++ 0x2e :: n := by
  simp only [token, startElement] at h
  cases hh : handlerOf (s.path ++ 0x2e :: n) with
  | none => rw [hh] at h; simp at h
  | some hd =>
    rw [hh] at h
    simp only at h
    have := onStart_keeps (fo := fo) { s with path := s.path ++ 0x2e :: n } as hd
    rw [h] at this
    exact this

theorem stop_shortens {fo : Str → Bool} {s s' : PState} {n p : Str} (hp : s.path = p ++ 0x2e :: n)
    (h : s.token fo (.stop n) = (s', none)) : s'.path = p := by
  simp only [token, endElement] at h
  cases hh : handlerOf s.path with
  | none => rw [hh] at h; simp at h
  | some hd =>
    rw [hh] at h
    simp only at h
    split at h
    · simp at h
    · rw [← (Prod.mk.inj h).1, hp]
      exact take_path p n

theorem chars_path {fo : Str → Bool} {s s' : PState} {d : Str} (h : s.token fo (.chars d) = (s', none)) :
    s'.path = s.path := by
  simp only [token, charData] at h
  split at h
  · simp at h
  · split at h
    · simp at h
    · rw [← (Prod.mk.inj h).1]
  · rw [← (Prod.mk.inj h).1]

mutual
/-- Below the dictionary no end is logged, and the path is the same afterwards. -/
theorem inside_tree (fo : Str → Bool) : (x : Xml) → (s : PState) → 11 ≤ s.path.length →
    closedIn (runLog fo s x.tokens) = [] ∧ ∀ s', run fo s x.tokens = (s', none) → s'.path = s.path
  | .text d, s, _ => by
    rw [Xml.tokens]
    constructor
    · have e : closedIn (s.tokenLog (.chars d)) = [] := by
        simp only [tokenLog]
        split <;> rfl
      rw [runLog, closedIn_append, e]
      split <;> rfl
    · intro s' h
      rw [run] at h
      cases ht : s.token fo (.chars d) with
      | mk s1 o =>
        rw [ht] at h
        cases o with
        | some e => simp at h
        | none => rw [← (Prod.mk.inj h).1]; exact chars_path ht
  | .other, s, _ => ⟨rfl, fun s' h => by rw [← (Prod.mk.inj h).1]⟩
  | .elem n as ks, s, hs => by
    rw [Xml.tokens, runLog, run]
    cases ht : s.token fo (.start n as) with
    | mk s1 o => cases o with
      | some e => exact ⟨rfl, nofun⟩
      | none =>
        have h1 := start_path ht
        have hlen : s1.path.length = s.path.length + n.length + 1 := by
          rw [h1, List.length_append, List.length_cons]; omega
        obtain ⟨a, b⟩ := inside_list fo ks s1 (by omega)
        simp only
        rw [runLog_append, run_append, closedIn_append, closedIn_append, a]
        cases hk : run fo s1 (Xml.tokensAll ks) with
        | mk s2 o => cases o with
          | some e => exact ⟨rfl, nofun⟩
          | none =>
            have h2 : s2.path = s.path ++ 0x2e :: n := (b s2 hk).trans h1
            have hne : s2.path ≠ str ".dictionary" := by
              intro e
              have := congrArg List.length e
              rw [h2, List.length_append, List.length_cons] at this
              have e11 : (str ".dictionary").length = 11 := by decide
              omega
            have e3 := tokenLog_closed s2 (.stop n) hne
            simp only [runLog, run, closedIn_append, e3]
            cases hst : s2.token fo (.stop n) with
            | mk s3 o => cases o with
              | some e => exact ⟨rfl, nofun⟩
              | none =>
                refine ⟨rfl, fun s' h => ?_⟩
                rw [← (Prod.mk.inj h).1]
                exact stop_shortens h2 hst

theorem inside_list (fo : Str → Bool) : (xs : List Xml) → (s : PState) → 11 ≤ s.path.length →
    closedIn (runLog fo s (Xml.tokensAll xs)) = [] ∧ ∀ s', run fo s (Xml.tokensAll xs) = (s', none) → s'.path = s.path
  | [], s, _ => ⟨rfl, fun s' h => by rw [← (Prod.mk.inj h).1]⟩
  | x :: xs, s, hs => by
    obtain ⟨a, b⟩ := inside_tree fo x s hs
    rw [Xml.tokensAll, runLog_append, run_append, closedIn_append, a]
    cases hx : run fo s x.tokens with
    | mk s1 o => cases o with
      | some e => exact ⟨rfl, nofun⟩
      | none =>
        have h1 := b s1 hx
        obtain ⟨c, d⟩ := inside_list fo xs s1 (by rw [h1]; exact hs)
        exact ⟨c, fun s' h => (d s' h).trans h1⟩
end

theorem path_dictionary {fo : Str → Bool} {ix : Index} {max : Int} {as : List XAttr} {ks : List Xml} {s' : PState}
    (h : run fo (PState.init ix max) (Xml.tokens (.elem (str "dictionary") as ks)) = (s', none)) : s'.path = [] := by
  rw [Xml.tokens, run] at h
  cases ht : (PState.init ix max).token fo (.start (str "dictionary") as) with
  | mk s1 o =>
    rw [ht] at h
    cases o with
    | some e => simp at h
    | none =>
      have h1 : s1.path = [] ++ 0x2e :: str "dictionary" := start_path ht
      simp only at h
      rw [run_append] at h
      cases hk : run fo s1 (Xml.tokensAll ks) with
      | mk s2 o =>
        rw [hk] at h
        cases o with
        | some e => simp at h
        | none =>
          have h2 := (inside_list fo ks s1 (by rw [h1]; decide)).2 s2 hk
          simp only [run] at h
          cases hst : s2.token fo (.stop (str "dictionary")) with
          | mk s3 o =>
            rw [hst] at h
            cases o with
            | some e => simp at h
            | none =>
              rw [← (Prod.mk.inj h).1]
              exact stop_shortens (h2.trans h1) hst

/-- The dictionary itself: its end is logged if it was reached without an error. -/
theorem closed_dictionary {fo : Str → Bool} {as : List XAttr} {ks : List Xml} (s : PState) (hp : s.path = []) :
    ((run fo s (Xml.tokens (.elem (str "dictionary") as ks))).2 = none →
      closedIn (runLog fo s (Xml.tokens (.elem (str "dictionary") as ks))) = [str ".dictionary"]) ∧
    ((run fo s (Xml.tokens (.elem (str "dictionary") as ks))).2 ≠ none →
      closedIn (runLog fo s (Xml.tokens (.elem (str "dictionary") as ks))) = []) := by
  rw [Xml.tokens, runLog, run]
  cases ht : s.token fo (.start (str "dictionary") as) with
  | mk s1 o => cases o with
    | some e => exact ⟨nofun, fun _ => rfl⟩
    | none =>
      have h1 : s1.path = str ".dictionary" := by
        rw [start_path ht, hp]
        decide
      obtain ⟨a, b⟩ := inside_list fo ks s1 (by rw [h1]; decide)
      simp only
      rw [runLog_append, run_append, closedIn_append, closedIn_append, a]
      cases hk : run fo s1 (Xml.tokensAll ks) with
      | mk s2 o => cases o with
        | some e => exact ⟨nofun, fun _ => rfl⟩
        | none =>
          have h2 : s2.path = str ".dictionary" := (b s2 hk).trans h1
          have hh : handlerOf s2.path = some .dictionary := by rw [h2]; decide
          have ht2 : s2.token fo (.stop (str "dictionary")) = ({ s2 with path := s2.path.take 0 }, none) := by
            simp only [token, endElement, hh, onEnd]
            rw [h2, if_neg (by decide)]
            rfl
          simp only [runLog, run, ht2, tokenLog, h2]
          exact ⟨fun _ => rfl, fun h => absurd rfl h⟩

end Verif
