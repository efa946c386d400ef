import Verif.Lemmas.Paths

/-!
# C81 — every file is where its path says
-/

namespace Verif

/-- C81, loaders: the data path of a loader leads where the given one leads (the default is `.data/opencorpora` in the
working directory), and its files are the three named files in that directory. -/
theorem C81_loader (cwd : List Str) (dataPath : Str) : ∃ dir,
    (if dataPath = [] then dir = cwd ++ [str ".data", str "opencorpora"] else Leads cwd dataPath dir) ∧
    Leads cwd (loaderDataPath dataPath) dir ∧
    Leads cwd (loaderFilePath dataPath .downloaded) (dir ++ [str "dict.xml.bz2"]) ∧
    Leads cwd (loaderFilePath dataPath .unpacked) (dir ++ [str "dict.xml"]) ∧
    Leads cwd (loaderFilePath dataPath .compiled) (dir ++ [str "opencorpora.dat"]) := by
  have hf : ∀ f, Leads cwd (loaderFilePath dataPath f) (locate cwd (loaderDataPath dataPath) ++ [f.name]) := fun f =>
    (leads_iff _ _ _).2 (locate_join_name cwd _ _ (loaderDataPath_ne_nil dataPath) f.plain).symm
  refine ⟨locate cwd (loaderDataPath dataPath), ?_, (leads_iff _ _ _).2 rfl, hf .downloaded, hf .unpacked, hf .compiled⟩
  rw [loaderDataPath, locate_cleanPath]
  split
  · rw [domainDataPath, locate_join_name _ _ _ (by decide) (by unfold PlainName; decide)]
    have : locate cwd (str ".data") = cwd ++ [str ".data"] := rfl
    rw [this]; simp
  · exact (leads_iff _ _ _).2 rfl

/-- C81, no mix-up: two files of two loaders are at the same place only if the directories are the same and the files are
of the same kind. -/
theorem C81_distinct (cwd : List Str) (d e : Str) (f g : LoaderFile) (loc : List Str)
    (h1 : Leads cwd (loaderFilePath d f) loc) (h2 : Leads cwd (loaderFilePath e g) loc) :
    f = g ∧ ∃ dir, Leads cwd (loaderDataPath d) dir ∧ Leads cwd (loaderDataPath e) dir := by
  rw [leads_iff] at h1 h2
  rw [loaderFilePath, locate_join_name cwd _ _ (loaderDataPath_ne_nil d) f.plain] at h1
  rw [loaderFilePath, locate_join_name cwd _ _ (loaderDataPath_ne_nil e) g.plain] at h2
  have h := h1.symm.trans h2
  obtain ⟨ha, hb⟩ := List.append_inj' h rfl
  refine ⟨?_, _, (leads_iff _ _ _).2 rfl, (leads_iff _ _ _).2 ha⟩
  have hb' := (List.cons.inj hb).1
  cases f <;> cases g <;> first | rfl | exact absurd hb' (by decide)

/-- C81, data of a domain: with plain names, the files of a domain are in its own directory below `.data`. -/
theorem C81_domain_partial (cwd : List Str) (domain file : Str) (hd : PlainName domain) (hf : PlainName file) :
    Leads cwd (domainFilePath domain file) (cwd ++ [str ".data", domain, file]) := by
  rw [leads_iff, domainFilePath, locate_join_name _ _ _ ?_ hf, domainDataPath,
    locate_join_name _ _ _ (by decide) hd]
  · have : locate cwd (str ".data") = cwd ++ [str ".data"] := rfl
    rw [this]; simp
  · rw [domainDataPath, pathJoin, if_neg (by decide), if_neg hd.1]
    exact cleanPath_ne_nil _

/-- C81, data of a domain, exactly, whatever the names: from the data directory in the working directory follow the
elements of the domain, then those of the file. -/
theorem C81_domain_exact (cwd : List Str) (domain file : Str) (ld lf : List Str) (hd : Elements domain ld)
    (hf : Elements file lf) :
    Leads cwd (domainDataPath domain) (ld.foldl enter (cwd ++ [str ".data"])) ∧
    Leads cwd (domainFilePath domain file) (lf.foldl enter (ld.foldl enter (cwd ++ [str ".data"]))) := by
  rw [elements_iff] at hd hf
  have h1 : locate cwd (domainDataPath domain) = ld.foldl enter (cwd ++ [str ".data"]) := by
    rw [domainDataPath, locate_pathJoin _ _ _ (by decide), hd]; rfl
  refine ⟨(leads_iff _ _ _).2 h1.symm, (leads_iff _ _ _).2 ?_⟩
  rw [domainFilePath, locate_pathJoin, h1, hf]
  rw [domainDataPath, pathJoin, if_neg (by decide)]
  split <;> exact cleanPath_ne_nil _

/-- So two domains share a directory exactly if their elements lead to the same place from there. -/
theorem C81_domain_same (cwd : List Str) (d e : Str) (ld le : List Str) (hd : Elements d ld) (he : Elements e le) :
    (∃ loc, Leads cwd (domainDataPath d) loc ∧ Leads cwd (domainDataPath e) loc) ↔
      ld.foldl enter (cwd ++ [str ".data"]) = le.foldl enter (cwd ++ [str ".data"]) := by
  have h1 := (C81_domain_exact cwd d [] ld [[]] hd ⟨rfl, by simp, by simp⟩).1
  have h2 := (C81_domain_exact cwd e [] le [[]] he ⟨rfl, by simp, by simp⟩).1
  constructor
  · rintro ⟨loc, g1, g2⟩
    rw [leads_iff] at h1 h2 g1 g2
    rw [h1, h2, ← g1, ← g2]
  · intro h
    exact ⟨_, h1, h ▸ h2⟩

/-- C81, resolving: from a working directory, the three parts `ResolveFilePath` returns make up the absolute path of the
location the given path leads to; the directory is that of the location, the extension is what follows the last dot of the
name, and the call fails if nothing is there (and for the root). -/
theorem C81_resolve (cwd : List Str) (hc : ∀ e ∈ cwd, PlainName e) (exist : Str → Bool) (p : Str) (loc : List Str)
    (hl : Leads cwd p loc) : ∃ dirname filename ext failed,
    resolveFilePath (slashPath cwd) exist p = ⟨dirname, filename, ext, failed⟩ ∧
    dirname ++ filename ++ ext = slashPath loc ∧
    (∀ dir name, loc = dir ++ [name] → Leads cwd dirname dir ∧ filename ++ ext = name) ∧
    ((ext = [] ∧ (0x2e : UInt8) ∉ filename) ∨ ∃ t, ext = 0x2e :: t ∧ (0x2e : UInt8) ∉ t) ∧
    (failed = false ↔ exist (slashPath loc) = true ∧ loc ≠ []) := by
  rw [leads_iff] at hl
  obtain ⟨ha, hp⟩ := absPath_eq cwd hc p
  rw [← hl] at ha hp
  refine ⟨_, _, _, _, rfl, ?_⟩
  have hs : ∃ d n, slashPath loc = d ++ 0x2f :: n ∧ (0x2f : UInt8) ∉ n ∧ (loc = [] → d = [] ∧ n = []) ∧
      ∀ dir name, loc = dir ++ [name] → n = name ∧ locate cwd (d ++ [0x2f]) = dir := by
    rcases List.eq_nil_or_concat loc with h0 | ⟨dir, name, h0⟩
    · exact ⟨[], [], by rw [h0]; rfl, by simp, fun _ => ⟨rfl, rfl⟩, fun dir name h => by rw [h0] at h; simp at h⟩
    · have hn := hp name (by rw [h0]; simp)
      have hd : ∀ e ∈ dir, PlainName e := fun e he => hp e (by rw [h0]; simp [he])
      refine ⟨if dir = [] then [] else slashPath dir, name, ?_, hn.2.2.2, fun h => by rw [h0] at h; simp at h, ?_⟩
      · rw [h0]
        cases dir with
        | nil => simp [slashPath, List.intercalate]
        | cons a l =>
          rw [if_neg (by simp), slashPath, slashPath, List.cons_append]
          congr 1
          rw [← joinSlash_eq, ← joinSlash_eq]
          clear hd hp h0 ha
          induction l generalizing a with
          | nil => rfl
          | cons b l ih =>
            have := ih b
            simp only [List.concat_eq_append, List.cons_append] at this ⊢
            rw [joinSlash, joinSlash, this]
            simp
      · intro dir' name' h'
        rw [h0, List.concat_eq_append] at h'
        obtain ⟨e1, e2⟩ := List.append_inj' h' rfl
        refine ⟨(List.cons.inj e2).1, ?_⟩
        rw [← e1]
        cases dir with
        | nil => rfl
        | cons a l =>
          rw [if_neg (by simp)]
          have h3 := locate_slashPath cwd (a :: l) hd
          rw [locate] at h3 ⊢
          rw [splitSlash_append, List.foldl_append]
          have h4 : (slashPath (a :: l) ++ [0x2f]).head? = (slashPath (a :: l)).head? := rfl
          rw [h4, h3]
          simp [splitSlash, enter]
  obtain ⟨d, n, e1, e2, e3, e4⟩ := hs
  rw [ha, e1, splitFile_eq d n e2]
  simp only
  refine ⟨?_, ?_, ?_, ?_⟩
  · rw [List.append_assoc, take_ext]; simp
  · intro dir name h
    obtain ⟨h1, h2⟩ := e4 dir name h
    exact ⟨(leads_iff _ _ _).2 h2.symm, by rw [take_ext, h1]⟩
  · rcases extOf_spec n with ⟨h1, h2⟩ | ⟨s, t, h1, h2, h3⟩
    · exact Or.inl ⟨h1, by rw [h1]; simpa using h2⟩
    · exact Or.inr ⟨t, h3, h2⟩
  · by_cases hx : exist (d ++ 0x2f :: n) = true
    · rw [hx]
      by_cases h0 : loc = []
      · obtain ⟨h1, h2⟩ := e3 h0
        rw [h1, h2, h0]; simp
      · have : d ++ 0x2f :: n ≠ [0x2f] := by
          rcases List.eq_nil_or_concat loc with h | ⟨dir, name, h⟩
          · exact absurd h h0
          · rw [List.concat_eq_append] at h
            have := (e4 dir name h).1
            have hn := (hp name (by rw [h]; simp)).1
            rw [← this] at hn
            intro hh
            have := congrArg List.length hh
            simp only [List.length_append, List.length_cons, List.length_nil] at this
            cases n with
            | nil => exact hn rfl
            | cons _ _ => simp at this; omega
        simp [this, h0]
    · have hx' : exist (d ++ 0x2f :: n) = false := by simpa using hx
      rw [hx']; simp

/-! ## What does not hold -/

/-- C81 does not hold for other names: the domain `..` has its data outside the data directory. -/
theorem not_C81_domain : Leads [str "home"] (domainFilePath (str "..") (str "f")) [str "home", str "f"] :=
  (leads_iff _ _ _).2 (by decide)

/-- Nor does `ResolveFilePath` succeed for whatever exists: it fails for the root, not for other directories. -/
theorem not_C81_root : (resolveFilePath (slashPath []) (fun _ => true) (str "/")).failed = true ∧
    (resolveFilePath (slashPath []) (fun _ => true) (str "/home")).failed = false := by decide

/-! ## Examples -/

example : loaderFilePath [] .compiled = str ".data/opencorpora/opencorpora.dat" ∧
    loaderFilePath (str "../x//y/./z/..") .unpacked = str "../x/y/dict.xml" ∧
    loaderDataPath (str "/a/../..") = str "/" ∧ domainFilePath (str "d") (str "f") = str ".data/d/f" := by decide

example : resolveFilePath (str "/home/u") (fun _ => true) (str "d/words.v1.idx") =
    ⟨str "/home/u/d/", str "words.v1", str ".idx", false⟩ ∧ slashPath [str "home", str "u"] = str "/home/u" := by decide

/-- Domains that are not plain names. -/
example : Elements (str "a/../b") [str "a", str "..", str "b"] ∧ Elements (str "..") [str ".."] ∧
    [str "a", str "..", str "b"].foldl enter [str "home", str ".data"] = [str "home", str ".data", str "b"] ∧
    [str ".."].foldl enter [str "home", str ".data"] = [str "home"] := by unfold Elements; decide

example : PlainName (str "opencorpora") ∧ ∀ e ∈ [str "home", str "u"], PlainName e := by unfold PlainName; decide

example : Leads [str "home"] (str "a/../b") [str "home", str "b"] := (leads_iff _ _ _).2 (by decide)

end Verif
