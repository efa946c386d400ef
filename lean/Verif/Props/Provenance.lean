import Verif.Lemmas.Provenance
import Verif.Props.Exact

/-!
# Where an index comes from

C86: whatever the loader was asked to do, whatever failed and whenever the process died, an index that can be loaded is that of a
complete document the server sent.
-/

namespace Verif

theorem reached_origin {E : Env → Prop} {fs : FS} (h : DiskReached E fs) : Content (Origin E) fs := by
  induction h with
  | start dir => intro f d hd; cases hd
  | @call fs fs' cfg env c n h he hp ih =>
    refine Keeps.passed ?_ ih hp
    cases c with
    | download => exact download_keeps cfg he _
    | unpack => exact unpack_keeps cfg he _
    | parse => exact parse_keeps he _
    | update force => exact update_keeps cfg he force _

/-- The end of an update is reached. -/
theorem reached_update {E : Env → Prop} {fs : FS} {cfg : LoaderCfg} {env : Env} {force : Bool} {n : Nat} {r : LRes Unit}
    {w' : World} (h : DiskReached E fs) (he : E env) (hu : update cfg env force ⟨fs, [], n, []⟩ = (r, w')) :
    DiskReached E w'.fs := by
  refine .call cfg env (.update force) n h he ?_
  obtain ⟨l, e, -⟩ := update_keeps cfg he force ⟨fs, [], n, []⟩
  refine ⟨l, e, ?_⟩
  have : LoaderCall.exec cfg env ⟨fs, [], n, []⟩ (.update force) = w' := by
    show (update cfg env force ⟨fs, [], n, []⟩).2 = w'
    rw [hu]
  rw [this]; simp

/-- C86, except that the document need not be complete: an index that can be loaded is what saving and loading makes of an
index built from a text that ended properly and was imported without an error; the text is the beginning of what the beginning of
an answer of the server unpacks to. The index built must be within the limits of the file format. -/
theorem C86_partial (E : Env → Prop) (fs : FS) (h : DiskReached E fs) (env : Env) (v : World) (hv : v.fs = fs) (ix : Index)
    (hl : (loadIndex env v).1 = .ok ix) :
    ∃ built, CompiledFrom E built ∧
      (built.InLimits → built.save.err = none ∧ Index.new.load built.save.bytes = .ok (ix, [])) := by
  have ho := reached_origin h
  cases hc : fs.file .compiled with
  | none =>
    have := load_missing hc env v hv
    rw [hl] at this
    cases this
  | some d =>
    obtain ⟨built, hb, hp⟩ := ho .compiled d hc
    refine ⟨built, hb, fun hlim => ?_⟩
    rcases state_cases hlim hc hp with hf | ⟨-, h2, ix', h3, h4, -⟩
    · have := hf env v hv
      rw [hl] at this
      cases this
    · rcases h4 env v hv with h5 | h5
      · rw [hl] at h5; cases h5
      · rw [hl] at h5
        obtain rfl : ix = ix' := by injection h5
        exact ⟨h2, h3⟩

theorem entries_noElem (l : List Xml) (h : l.filter Xml.isElem = []) : entriesOf l = [] := by
  induction l with
  | nil => rfl
  | cons x l ih =>
    cases x with
    | elem => simp [Xml.isElem] at h
    | text d => exact ih (by simpa [Xml.isElem] using h)
    | other => exact ih (by simpa [Xml.isElem] using h)

theorem children_append (n : Str) (a b : List Xml) : childrenNamed n (a ++ b) = childrenNamed n a ++ childrenNamed n b := by
  induction a with
  | nil => rfl
  | cons x a ih =>
    cases x with
    | elem m as ks =>
      simp only [List.cons_append, childrenNamed]
      split
      · rw [ih]; rfl
      · exact ih
    | text d => exact ih
    | other => exact ih

theorem entries_docs (a b : List Xml) : entriesOf (a ++ b) = entriesOf a ++ entriesOf b := by
  unfold entriesOf
  rw [children_append, List.flatMap_append]

theorem validAll_docs (fo : Str → Bool) (path : List Str) (a b : List Xml) :
    Xml.ValidAll fo path (a ++ b) ↔ Xml.ValidAll fo path a ∧ Xml.ValidAll fo path b := by
  induction a with
  | nil => simp [Xml.ValidAll]
  | cons x a ih => simp only [List.cons_append, Xml.ValidAll, ih, and_assoc]

/-- A document cut off between trees has all entries or none. -/
theorem cut_entries {part doc : List Xml} (h : CutOf part doc) (h1 : OneRoot doc) :
    entriesOf part = [] ∨ entriesOf part = entriesOf doc := by
  obtain ⟨p, rest, rfl, hp⟩ := h
  have e : entriesOf part = entriesOf p := by
    rcases hp with rfl | ⟨d, rfl⟩
    · rfl
    · rw [entries_docs]; simp [entriesOf, childrenNamed]
  rw [e]
  unfold OneRoot at h1
  rw [List.filter_append, List.length_append] at h1
  by_cases h0 : p.filter Xml.isElem = []
  · exact .inl (entries_noElem p h0)
  · have : 0 < (p.filter Xml.isElem).length := List.length_pos_iff.2 h0
    have hr : rest.filter Xml.isElem = [] := List.eq_nil_of_length_eq_zero (by omega)
    right
    rw [entries_docs, entries_noElem rest hr, List.append_nil]

theorem cut_valid {fo : Str → Bool} {part doc : List Xml} (h : CutOf part doc) (hv : Xml.ValidAll fo [] doc) :
    Xml.ValidAll fo [] part := by
  obtain ⟨p, rest, rfl, hp⟩ := h
  have := ((validAll_docs fo [] p rest).1 hv).1
  rcases hp with rfl | ⟨d, rfl⟩
  · exact this
  · rw [validAll_docs]; exact ⟨this, by simp [Xml.ValidAll, Xml.Valid]⟩

theorem docRoom_nil : DocRoom [] where
  prefixes := ⟨[[]], by decide, by simp, by simp [allForms]⟩
  grammemes := ⟨[], by decide, by simp⟩
  names := by simp
  tags := by simp [allForms]
  tagLists := ⟨[], by decide, by simp [allForms]⟩
  perWord := fun w => ⟨[], by decide, by simp [tagListsOf, allForms]⟩
  sets := ⟨[], by decide, by
    intro F hF w hne
    have : F = [] := by simpa [allForms] using hF
    subst this
    simp [tagListsOf] at hne⟩

theorem declared_nil : Declared [] := declared_of_check _ (by decide)

theorem serves_congr {a b : List Xml} (h : entriesOf a = entriesOf b) {ix : Index} (hs : ServesExactly a ix) :
    ServesExactly b ix := by
  unfold ServesExactly at hs ⊢
  rw [h] at hs
  exact hs

/-- C86 for a server that publishes dictionaries: an index that can be loaded answers exactly as a document says that the server
offered, or it is the index of the empty document. -/
theorem C86_serves_partial (E : Env → Prop) (bunzip : Str → Str × Bool) (tokens : Str → List XTok × Bool) (floatOK : Str → Bool)
    (hd : Decoders E bunzip tokens floatOK) (hp : Publishes E bunzip tokens floatOK)
    (fs : FS) (h : DiskReached E fs) (env : Env) (v : World) (hv : v.fs = fs) (ix : Index) (hl : (loadIndex env v).1 = .ok ix) :
    (∃ doc, Offered E bunzip tokens floatOK doc ∧ ServesExactly doc ix) ∨ ServesExactly [] ix := by
  obtain ⟨built, ⟨env1, x, s, he1, ⟨env2, a, he2, hs, hx⟩, ht, hr, rfl⟩, hb⟩ := C86_partial E fs h env v hv ix hl
  obtain ⟨env3, n, st, body, c, he3, hg, ha⟩ := hs
  obtain ⟨-, e2, e3⟩ := hd.same env1 he1
  obtain ⟨e1, -, -⟩ := hd.same env2 he2
  rw [e1] at hx
  rw [e2] at ht hr
  rw [e3] at hr
  have key : ∀ part, (tokens x).1 = Xml.tokensAll part → Xml.ValidAll floatOK [] part → Declared (entriesOf part) →
      DocRoom (entriesOf part) → ServesExactly part ix := by
    intro part hpart hval hdec hroom
    have hlim := imported_limits hval hdec hroom
    obtain ⟨-, -, -, ix', hload, hser⟩ := C44_exact floatOK part hval hdec hroom
    rw [hpart] at hr
    rw [hr] at hlim hload
    have := (hb hlim).2
    rw [hload] at this
    simp only [Out.ok.injEq, Prod.mk.injEq, and_true] at this
    rw [← this]; exact hser
  rcases hp env3 n st body c he3 hg with h0 | ⟨full, doc, hf, h1, h2, h3, h4, h5⟩
  · right
    have : x = [] := by
      have := hx.trans (hd.mono a body ha)
      rw [h0] at this
      simpa using this
    subst this
    exact key [] hd.nothing (by simp [Xml.ValidAll]) declared_nil docRoom_nil
  · have hxf := hx.trans (hd.mono a full (ha.trans hf))
    obtain ⟨part, hpart, hcut⟩ := hd.cut x _ doc hxf h1 ht
    have hval := cut_valid hcut h3
    rcases cut_entries hcut h2 with h0 | h0
    · right
      exact serves_congr (b := []) h0 (key part hpart hval (by rw [h0]; exact declared_nil) (by rw [h0]; exact docRoom_nil))
    · left
      exact ⟨doc, ⟨env3, n, st, body, c, full, he3, hg, hf, h1, h2, h3, h4, h5⟩,
        serves_congr h0 (key part hpart hval (by rw [h0]; exact h4) (by rw [h0]; exact h5))⟩

/-! ## A dictionary without words -/

/-- Archives begin with `bz`. -/
def toyBunzip (a : Str) : Str × Bool := if str "bz" <+: a then (str "xml", true) else ([], false)

/-- The texts that end properly are the empty one and `xml`. -/
def toyTokens (x : Str) : List XTok × Bool :=
  if x = str "xml" then (Xml.tokensAll sampleDoc, true) else ([], decide (x = []))

/-- The server has the archive of the sample document. -/
def goodServer : Env := quietEnv (str "bz") 10 (fun n => 100 + n) toyBunzip toyTokens

/-- The server answers with an error page. -/
def errorServer : Env := { goodServer with get := fun _ => .answer 404 (str "<html>") true }

/-- Both. -/
def TwoServers (env : Env) : Prop := env = goodServer ∨ env = errorServer

theorem toyTokens_true {x : Str} (h : (toyTokens x).2 = true) : x = str "xml" ∨ x = [] := by
  unfold toyTokens at h
  split at h
  · left; assumption
  · right; simpa using h

theorem two_decoders : Decoders TwoServers toyBunzip toyTokens (fun _ => true) where
  same := by rintro env (rfl | rfl) <;> exact ⟨rfl, rfl, rfl⟩
  mono := by
    intro a b hab
    unfold toyBunzip
    by_cases ha : str "bz" <+: a
    · rw [if_pos ha, if_pos (ha.trans hab)]; exact List.prefix_refl _
    · rw [if_neg ha]; exact List.nil_prefix
  nothing := by decide
  cut := by
    intro x y doc hxy hy hx
    rcases toyTokens_true hx with rfl | rfl
    · rcases toyTokens_true (congrArg Prod.snd hy) with rfl | rfl
      · exact ⟨doc, congrArg Prod.fst hy, doc, [], by simp, .inl rfl⟩
      · exact absurd hxy (by decide)
    · exact ⟨[], by decide, [], doc, rfl, .inl rfl⟩

theorem sample_archive : ArchiveOf toyBunzip toyTokens (fun _ => true) (str "bz") sampleDoc :=
  ⟨rfl, by decide, sampleDoc_valid, sampleDoc_declared, sampleDoc_room⟩

theorem two_publish : Publishes TwoServers toyBunzip toyTokens (fun _ => true) := by
  rintro env n st body c (rfl | rfl) h
  · right
    cases h
    exact ⟨str "bz", sampleDoc, List.prefix_refl _, sample_archive⟩
  · left
    cases h
    rfl

/-- The first update: the page is taken for an archive and cannot be unpacked; the empty text stays. -/
def afterErrorPage : World := (update ⟨true⟩ errorServer true emptyWorld).2

/-- The second update only compiles, because the page is newer than the archive of the server. -/
def afterSecond : World := (update ⟨true⟩ goodServer true { fs := afterErrorPage.fs, past := [], n := 0, ev := [] }).2

theorem passed_end (w w' : World) (l : List FS) (h : w'.past = w.past ++ l) : Passed w w' w'.fs := ⟨l, h, by simp⟩

theorem second_reached : DiskReached TwoServers afterSecond.fs := by
  refine .call ⟨true⟩ goodServer (.update true) 0 (fs := afterErrorPage.fs) ?_ (.inl rfl) (passed_end _ _ _ rfl)
  refine .call ⟨true⟩ errorServer (.update true) 0 (.start true) (.inr rfl) ?_
  exact passed_end _ (update ⟨true⟩ errorServer true emptyWorld).2 _ rfl

/-- What the second update leaves. -/
theorem second_loads : (update ⟨true⟩ goodServer true { fs := afterErrorPage.fs, past := [], n := 0, ev := [] }).1 = .ok () ∧
    ∃ ix, (loadIndex goodServer afterSecond).1 = .ok ix ∧ ix.tags = [] := ⟨rfl, _, rfl, rfl⟩

/-- Two documents with the same tokens declare the same tags. -/
theorem same_tokens_tags {fo : Str → Bool} {a b : List Xml} (h : Xml.tokensAll a = Xml.tokensAll b)
    (va : Xml.ValidAll fo [] a) (da : Declared (entriesOf a)) (ra : DocRoom (entriesOf a))
    (vb : Xml.ValidAll fo [] b) (db : Declared (entriesOf b)) (rb : DocRoom (entriesOf b)) :
    declaredTags (entriesOf a) = declaredTags (entriesOf b) := by
  obtain ⟨-, -, -, ix, h1, h2, -⟩ := C44_exact fo a va da ra
  obtain ⟨-, -, -, ix', h1', h2', -⟩ := C44_exact fo b vb db rb
  rw [h, h1'] at h1
  simp only [Out.ok.injEq, Prod.mk.injEq, and_true] at h1
  rw [← h2, ← h2', h1]

/-- C86 fails: the server answers once with an error page, the update fails; the next update reports success, and the index it
leaves has no words at all, although the only document ever offered has. -/
theorem not_C86 : ¬ ∀ (E : Env → Prop) (bunzip : Str → Str × Bool) (tokens : Str → List XTok × Bool) (floatOK : Str → Bool),
    Decoders E bunzip tokens floatOK → Publishes E bunzip tokens floatOK →
    ∀ fs, DiskReached E fs → ∀ (env : Env) (v : World), v.fs = fs → ∀ ix, (loadIndex env v).1 = .ok ix →
      ∃ doc, Offered E bunzip tokens floatOK doc ∧ ServesExactly doc ix := by
  intro h
  obtain ⟨-, ix, hl, ht⟩ := second_loads
  obtain ⟨doc, ⟨env, n, st, body, c, full, -, -, -, h1, h2, h3, h4, h5⟩, hs, -⟩ :=
    h _ _ _ _ two_decoders two_publish _ second_reached goodServer afterSecond rfl ix hl
  rw [ht] at hs
  have hx : (toyBunzip full).1 = str "xml" ∨ (toyBunzip full).1 = [] := by
    unfold toyBunzip; split
    · exact .inl rfl
    · exact .inr rfl
  rcases hx with hx | hx
  · rw [hx] at h1
    have e : Xml.tokensAll sampleDoc = Xml.tokensAll doc := congrArg Prod.fst h1
    rw [← same_tokens_tags e sampleDoc_valid sampleDoc_declared sampleDoc_room h3 h4 h5, sampleDoc_entries] at hs
    exact absurd hs (by decide)
  · rw [hx] at h1
    have e : Xml.tokensAll doc = [] := (congrArg Prod.fst h1).symm
    cases doc with
    | nil => exact absurd h2 (by decide)
    | cons x l =>
      cases x <;> simp [Xml.tokensAll, Xml.tokens] at e

/-- It is the case of the empty document. -/
example : ∃ ix, (loadIndex goodServer afterSecond).1 = .ok ix ∧ ix.tags = [] := second_loads.2

/-- And without the error page the index is that of the sample document. -/
example : ∃ fs ix, DiskReached TwoServers fs ∧ LoadsTo fs ix ∧ ServesExactly sampleDoc ix := by
  obtain ⟨w', ix, h1, -, h2, h3⟩ := C62_exact goodServer true emptyWorld (quietEnv_calm _ _ _ _ _)
    (by intro v hv; unfold isUpdateRequired statFile; rw [hv]; rfl) (str "bz") (str "xml") (fun _ => rfl) rfl
    sampleDoc rfl sampleDoc_valid sampleDoc_declared sampleDoc_room
  exact ⟨w'.fs, ix, reached_update (.start true) (.inl rfl) h1, h2, h3⟩

end Verif
