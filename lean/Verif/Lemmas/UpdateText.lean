import Verif.Spec.UpdateText
import Verif.Lemmas.UpdateLog
import Verif.Lemmas.Paths
import Verif.Lemmas.Output
import Verif.Lemmas.Numbers
import Verif.Lemmas.Printed

/-! # Helper lemmas: telling the loader's messages apart by their texts -/

namespace Verif

theorem joinSlash_snoc : ∀ (l : List Str), l ≠ [] → ∀ (n : Str), joinSlash (l ++ [n]) = joinSlash l ++ 0x2f :: n
  | [], h, _ => absurd rfl h
  | [a], _, n => rfl
  | a :: b :: l, _, n => by
    have ih := joinSlash_snoc (b :: l) (by simp) n
    show a ++ 0x2f :: joinSlash ((b :: l) ++ [n]) = (a ++ 0x2f :: joinSlash (b :: l)) ++ 0x2f :: n
    rw [ih]
    simp

/-- The three paths differ in the names only. -/
theorem shown_base (dataPath : Str) : ∃ base, FName.archive.shown dataPath = base ++ str "dict.xml.bz2" ∧
    FName.xml.shown dataPath = base ++ str "dict.xml" ∧ FName.compiled.shown dataPath = base ++ str "opencorpora.dat" := by
  have hne := loaderDataPath_ne_nil dataPath
  suffices ∃ base, ∀ f : LoaderFile, loaderFilePath dataPath f = base ++ f.name by
    obtain ⟨base, h⟩ := this
    exact ⟨base, h .downloaded, h .unpacked, h .compiled⟩
  unfold loaderFilePath
  generalize loaderDataPath dataPath = p at hne ⊢
  have key : ∀ n : Str, n ≠ [] → (0x2f : UInt8) ∉ n → n ≠ str "." → n ≠ str ".." →
      pathJoin p n = (if isRooted p then [0x2f] else []) ++
        ((if ((splitSlash p).foldl (cleanStep (isRooted p)) []).reverse = [] then []
          else joinSlash ((splitSlash p).foldl (cleanStep (isRooted p)) []).reverse ++ [0x2f]) ++ n) := by
    intro n h1 h2 h3 h4
    have hr : isRooted (p ++ 0x2f :: n) = isRooted p := by
      unfold isRooted
      cases p with
      | nil => exact absurd rfl hne
      | cons b p => rfl
    unfold pathJoin
    rw [if_neg hne, if_neg h1]
    unfold cleanPath
    simp only
    rw [hr, splitSlash_append, splitSlash_noSlash_eq n h2, List.foldl_append]
    generalize (splitSlash p).foldl (cleanStep (isRooted p)) [] = st
    have hs : [n].foldl (cleanStep (isRooted p)) st = n :: st := by
      show cleanStep _ st n = _
      unfold cleanStep
      rw [if_neg (by simp [h1, h3]), if_neg h4]
    rw [hs, List.reverse_cons]
    have hj : joinSlash (st.reverse ++ [n]) = (if st.reverse = [] then [] else joinSlash st.reverse ++ [0x2f]) ++ n := by
      split
      · rename_i h0
        rw [h0]
        rfl
      · rename_i h0
        rw [joinSlash_snoc _ h0]
        simp
    rw [hj]
    split
    · rfl
    · rw [if_neg (by simp)]
      rfl
  refine ⟨(if isRooted p then [0x2f] else []) ++
        (if ((splitSlash p).foldl (cleanStep (isRooted p)) []).reverse = [] then []
          else joinSlash ((splitSlash p).foldl (cleanStep (isRooted p)) []).reverse ++ [0x2f]), fun f => ?_⟩
  rw [List.append_assoc]
  cases f <;> exact key _ (by decide) (by decide) (by decide) (by decide)

/-- How the messages begin. -/
def marks : List Str := [str "check OpenCorpora updates", str "check if update required", str "check file ",
  str "file not exists, update required: ", str "check remote ",
  str "remote http://opencorpora.org/files/export/dict/dict.opcorpora.xml.bz2: error: ",
  str "remote http://opencorpora.org/files/export/dict/dict.opcorpora.xml.bz2: status: ", str "remote Last-Modified: [",
  str "remote Last-Modified: missed, assume no update required", str "check if downloaded file exists",
  str "check if unpacked file exists", str "check if compiled file exists", str "file not exists at ", str "file access: ",
  str "exists: ", str "check update: ", str "lemmata up to date", str "do recompile as force update required",
  str "update required, downloading", str "download: ", str "files not updated, no errors", str "downloaded, unpacking",
  str "unpack: ", str "lemmata updated, compile", str "start parse", str "save compiled index", str "indexed ",
  str "optimize index", str "saving index", str "finishing ", str "close index: ", str "opencorpora: save index: ",
  str "remove incomplete index: ", str "compiled index saved at ", str "compile: ", str "opening ",
  str "create index instance", str "load index data", str "loading finished ", str "opencorpora: read index: ",
  str "compiled index loaded from "]

def LogLine.form : LogLine → Nat
  | .checkUpdates => 0
  | .checkRequired => 1
  | .checkFile _ => 2
  | .noArchive => 3
  | .checkRemote => 4
  | .remoteError => 5
  | .remoteStatus _ => 6
  | .remoteTime _ => 7
  | .remoteNoTime => 8
  | .checkExists .archive => 9
  | .checkExists .xml => 10
  | .checkExists .compiled => 11
  | .fileMissing _ => 12
  | .fileAccess _ => 13
  | .fileFound _ _ _ => 14
  | .recompileUnpacked => 15
  | .recompileDownloaded => 15
  | .checkFailed => 15
  | .upToDate => 16
  | .recompile => 17
  | .downloading => 18
  | .downloadFailed => 19
  | .notUpdated => 20
  | .downloaded => 21
  | .unpackFailed => 22
  | .unpacked => 23
  | .startParse => 24
  | .saveStart => 25
  | .indexed _ _ => 26
  | .optimizing => 27
  | .saving => 28
  | .finishing => 29
  | .closeIndex => 30
  | .saveError => 31
  | .removeError => 32
  | .saved => 33
  | .compileFailed => 34
  | .opening => 35
  | .createInstance => 36
  | .loadData => 37
  | .loadFinished => 38
  | .loadError => 39
  | .loaded => 40

theorem marks_apart : ∀ i < 41, ∀ j < 41, i ≠ j →
    (marks.getD i []).take (marks.getD j []).length ≠ (marks.getD j []).take (marks.getD i []).length := by decide +kernel

theorem apart_append {p q a b : Str} (h : p.take q.length ≠ q.take p.length) : p ++ a ≠ q ++ b := by
  intro e
  apply h
  have := congrArg (List.take (min p.length q.length)) e
  rw [List.take_append_of_le_length (Nat.min_le_left _ _), List.take_append_of_le_length (Nat.min_le_right _ _)] at this
  rcases Nat.le_total p.length q.length with hl | hl
  · rw [Nat.min_eq_left hl, List.take_of_length_le (Nat.le_refl _)] at this
    rw [List.take_of_length_le hl]
    exact this
  · rw [Nat.min_eq_right hl, List.take_of_length_le (Nat.le_refl q.length)] at this
    rw [List.take_of_length_le (l := q) hl]
    exact this

theorem text_mark (dataPath x : Str) (l : LogLine) : ∃ t, l.text dataPath x = marks.getD l.form [] ++ t := by
  have r5 : str "remote http://opencorpora.org/files/export/dict/dict.opcorpora.xml.bz2: error: " =
      str "remote " ++ (remoteURL ++ str ": error: ") := by decide +kernel
  have r6 : str "remote http://opencorpora.org/files/export/dict/dict.opcorpora.xml.bz2: status: " =
      str "remote " ++ (remoteURL ++ str ": status: ") := by decide +kernel
  have r7 : str "remote Last-Modified: [" = str "remote " ++ (str "Last-Modified" ++ str ": [") := by decide +kernel
  have r8 : str "remote Last-Modified: missed, assume no update required" =
      str "remote " ++ (str "Last-Modified" ++ str ": missed, assume no update required") := by decide +kernel
  cases l with
  | remoteError => exact ⟨x, by show str "remote " ++ _ = str "remote http://opencorpora.org/files/export/dict/dict.opcorpora.xml.bz2: error: " ++ x; rw [r5]; simp⟩
  | remoteStatus n => exact ⟨itoa n, by show str "remote " ++ _ = str "remote http://opencorpora.org/files/export/dict/dict.opcorpora.xml.bz2: status: " ++ itoa n; rw [r6]; simp⟩
  | remoteTime lm => exact ⟨x ++ str "]", by show str "remote " ++ _ = str "remote Last-Modified: [" ++ (x ++ str "]"); rw [r7]; simp⟩
  | remoteNoTime => exact ⟨[], by show str "remote " ++ _ = str "remote Last-Modified: missed, assume no update required" ++ []; rw [r8]; simp⟩
  | checkExists f => cases f <;> exact ⟨[], (List.append_nil _).symm⟩
  | _ => exact ⟨_, rfl⟩

theorem form_lt (l : LogLine) : l.form < 41 := by
  cases l with
  | checkExists f => cases f <;> decide
  | _ => exact of_decide_eq_true rfl

theorem same_form {dataPath x x' : Str} {l l' : LogLine} (h : l.text dataPath x = l'.text dataPath x') : l.form = l'.form := by
  by_contra hk
  obtain ⟨t, ht⟩ := text_mark dataPath x l
  obtain ⟨t', ht'⟩ := text_mark dataPath x' l'
  rw [ht, ht'] at h
  exact apart_append (marks_apart _ (form_lt l) _ (form_lt l') hk) h

theorem shown_inj {dataPath u v : Str} {f g : FName} (h : f.shown dataPath ++ u = g.shown dataPath ++ v)
    (hu : u = [] ∨ ∃ u', u = 0x3a :: u') (hv : v = [] ∨ ∃ v', v = 0x3a :: v') : f = g ∧ u = v := by
  obtain ⟨base, h1, h2, h3⟩ := shown_base dataPath
  have name : ∀ f : FName, ∃ n : Str, f.shown dataPath = base ++ n ∧ (0x3a : UInt8) ∉ n ∧
      n = match f with
        | .archive => str "dict.xml.bz2"
        | .xml => str "dict.xml"
        | .compiled => str "opencorpora.dat" := by
    intro f
    cases f
    · exact ⟨_, h1, by decide, rfl⟩
    · exact ⟨_, h2, by decide, rfl⟩
    · exact ⟨_, h3, by decide, rfl⟩
  obtain ⟨n, e1, c1, d1⟩ := name f
  obtain ⟨m, e2, c2, d2⟩ := name g
  rw [e1, e2, List.append_assoc, List.append_assoc] at h
  have h' := List.append_cancel_left h
  have hnm : n = m ∧ u = v := by
    have hh : ∀ w : Str, (w = [] ∨ ∃ w', w = 0x3a :: w') → ∃ r, w ++ [0x3a] = 0x3a :: r := by
      rintro w (rfl | ⟨w', rfl⟩)
      · exact ⟨[], rfl⟩
      · exact ⟨w' ++ [0x3a], rfl⟩
    obtain ⟨r, hr⟩ := hh u hu
    obtain ⟨r', hr'⟩ := hh v hv
    have h2 : n ++ 0x3a :: r = m ++ 0x3a :: r' := by
      rw [← hr, ← hr', ← List.append_assoc, ← List.append_assoc, h']
    obtain ⟨rfl, -⟩ := stop_split c1 c2 h2
    exact ⟨rfl, List.append_cancel_left h'⟩
  refine ⟨?_, hnm.2⟩
  have := d1.symm.trans (hnm.1.trans d2)
  cases f <;> cases g <;> first | rfl | exact absurd this (by decide)

/-- A number at the end, after a space. -/
theorem number_end {a b : Str} {n m : Nat} (h : a ++ (str ": size " ++ itoa n) = b ++ (str ": size " ++ itoa m)) :
    a = b ∧ n = m := by
  have hs : ∀ k : Nat, str ": size " ++ itoa k = str ": size" ++ 0x20 :: itoa k := fun _ => rfl
  rw [hs, hs] at h
  have h' := congrArg List.reverse h
  simp only [List.reverse_append, List.reverse_cons, List.append_assoc, List.singleton_append] at h'
  obtain ⟨e1, e2⟩ := stop_split (by simpa using itoa_noSpace n) (by simpa using itoa_noSpace m) h'
  exact ⟨List.reverse_inj.1 (List.append_cancel_left e2), itoa_inj (List.reverse_inj.1 e1)⟩

/-- Two messages with the same text: the same message, or both say that the check failed. -/
theorem same_text {dataPath x x' : Str} {l l' : LogLine} (h : l.text dataPath x = l'.text dataPath x') :
    LogLine.readable (l, x) = LogLine.readable (l', x') ∨ (l.form = 15 ∧ l'.form = 15) := by
  have hf := same_form h
  cases l with
  | checkExists f =>
    cases f <;> cases l' <;> first
      | exact absurd hf (of_decide_eq_false rfl)
      | (rename_i g; cases g <;> first | exact absurd hf (of_decide_eq_false rfl) | exact .inl rfl)
  | checkFile f =>
    cases l' <;> first
      | exact absurd hf (of_decide_eq_false rfl)
      | (rename_i g; cases g <;> exact absurd hf (of_decide_eq_false rfl))
      | skip
    rename_i g
    have h' : f.shown dataPath = g.shown dataPath := List.append_cancel_left h
    have := (shown_inj (f := f) (g := g) (u := []) (v := []) (by rw [h']) (.inl rfl) (.inl rfl)).1
    subst this
    exact .inl rfl
  | fileMissing f =>
    cases l' <;> first
      | exact absurd hf (of_decide_eq_false rfl)
      | (rename_i g; cases g <;> exact absurd hf (of_decide_eq_false rfl))
      | skip
    rename_i g
    have h' : f.shown dataPath = g.shown dataPath := List.append_cancel_left h
    have := (shown_inj (f := f) (g := g) (u := []) (v := []) (by rw [h']) (.inl rfl) (.inl rfl)).1
    subst this
    exact .inl rfl
  | fileAccess f =>
    cases l' <;> first
      | exact absurd hf (of_decide_eq_false rfl)
      | (rename_i g; cases g <;> exact absurd hf (of_decide_eq_false rfl))
      | skip
    rename_i g
    have h' : f.shown dataPath ++ (str ": " ++ x) = g.shown dataPath ++ (str ": " ++ x') := List.append_cancel_left h
    obtain ⟨rfl, h2⟩ := shown_inj h' (.inr ⟨_, rfl⟩) (.inr ⟨_, rfl⟩)
    obtain rfl := List.append_cancel_left h2
    exact .inl rfl
  | fileFound f t n =>
    cases l' <;> first
      | exact absurd hf (of_decide_eq_false rfl)
      | (rename_i g; cases g <;> exact absurd hf (of_decide_eq_false rfl))
      | skip
    rename_i g t' m
    have h' : f.shown dataPath ++ (str ": modified " ++ (x ++ (str ": size " ++ itoa n))) =
      g.shown dataPath ++ (str ": modified " ++ (x' ++ (str ": size " ++ itoa m))) := List.append_cancel_left h
    obtain ⟨rfl, h2⟩ := shown_inj h' (.inr ⟨_, rfl⟩) (.inr ⟨_, rfl⟩)
    obtain ⟨rfl, rfl⟩ := number_end (List.append_cancel_left h2)
    exact .inl rfl
  | remoteStatus n =>
    cases l' <;> first
      | exact absurd hf (of_decide_eq_false rfl)
      | (rename_i g; cases g <;> exact absurd hf (of_decide_eq_false rfl))
      | skip
    rename_i m
    have h' : itoa n = itoa m := List.append_cancel_left (List.append_cancel_left (List.append_cancel_left h))
    obtain rfl := itoa_inj h'
    exact .inl rfl
  | remoteError =>
    cases l' <;> first
      | exact absurd hf (of_decide_eq_false rfl)
      | (rename_i g; cases g <;> exact absurd hf (of_decide_eq_false rfl))
      | skip
    have h' : x = x' := List.append_cancel_left (List.append_cancel_left (List.append_cancel_left h))
    subst h'
    exact .inl rfl
  | remoteTime lm =>
    cases l' <;> first
      | exact absurd hf (of_decide_eq_false rfl)
      | (rename_i g; cases g <;> exact absurd hf (of_decide_eq_false rfl))
      | skip
    have h' : x ++ str "]" = x' ++ str "]" :=
      List.append_cancel_left (List.append_cancel_left (List.append_cancel_left h))
    obtain rfl := List.append_cancel_right h'
    exact .inl rfl
  | indexed a b =>
    cases l' <;> first
      | exact absurd hf (of_decide_eq_false rfl)
      | (rename_i g; cases g <;> exact absurd hf (of_decide_eq_false rfl))
      | skip
    rename_i a' b'
    have h' : itoa a ++ 0x20 :: (str "words " ++ (itoa b ++ str " nodes")) =
        itoa a' ++ 0x20 :: (str "words " ++ (itoa b' ++ str " nodes")) := List.append_cancel_left h
    obtain ⟨e1, e2⟩ := stop_split (itoa_noSpace a) (itoa_noSpace a') h'
    obtain rfl := itoa_inj e1
    obtain rfl := itoa_inj (List.append_cancel_right (List.append_cancel_left e2))
    exact .inl rfl
  | _ =>
    cases l' <;> first
      | exact absurd hf (of_decide_eq_false rfl)
      | (rename_i g; cases g <;> exact absurd hf (of_decide_eq_false rfl))
      | exact .inr ⟨rfl, rfl⟩
      | exact .inl rfl
      | (obtain rfl := List.append_cancel_left h; exact .inl rfl)

theorem form_failed {l : LogLine} (hl : l.form = 15) :
    l = .recompileUnpacked ∨ l = .recompileDownloaded ∨ l = .checkFailed := by
  cases l with
  | recompileUnpacked => exact .inl rfl
  | recompileDownloaded => exact .inr (.inl rfl)
  | checkFailed => exact .inr (.inr rfl)
  | checkExists f => cases f <;> exact absurd hl (of_decide_eq_false rfl)
  | _ => exact absurd hl (of_decide_eq_false rfl)

/-- The messages about a failed check show the error at the same place; what follows tells them apart. -/
theorem same_failed {dataPath x : Str} {l l' : LogLine} (hf : l.form = 15) (hf' : l'.form = 15)
    (h : l.text dataPath x = l'.text dataPath x) : l = l' := by
  have hlen := congrArg List.length h
  rcases form_failed hf with rfl | rfl | rfl <;> rcases form_failed hf' with rfl | rfl | rfl <;>
    first
      | rfl
      | (simp only [LogLine.text, List.length_append] at hlen
         have e1 : (str ", force recompile using previous unpacked file").length = 46 := by decide +kernel
         have e2 : (str ", force recompile using previous downloaded file").length = 48 := by decide +kernel
         omega)

theorem map_eq_map_of {α β γ : Type} {f : α → β} {g : α → γ} : ∀ {A B : List α}, A.map f = B.map f →
    (∀ a ∈ A, ∀ b ∈ B, f a = f b → g a = g b) → A.map g = B.map g
  | [], [], _, _ => rfl
  | [], _ :: _, h, _ => nomatch h
  | _ :: _, [], h, _ => nomatch h
  | a :: A, b :: B, h, H => by
    simp only [List.map_cons, List.cons.injEq] at h ⊢
    exact ⟨H a (.head _) b (.head _) h.1,
      map_eq_map_of h.2 fun a ha b hb => H a (.tail _ ha) b (.tail _ hb)⟩

/-- A failed check says why. -/
theorem failed_why {env : Env} {w : World} (h : (isUpdateRequired env w).1 = .err) :
    .remoteError ∈ requiredLog env w ∨ ∃ s, .remoteStatus s ∈ requiredLog env w := by
  unfold isUpdateRequired at h
  unfold requiredLog
  have key : ∀ (s : StatAns) (n : Nat), compareTimes s (env.head n) = .err →
      .remoteError ∈ (match env.head n with
        | .fail => [LogLine.remoteError]
        | .answer status lm =>
          if status ≠ 200 then [.remoteStatus status]
          else match lm with
            | .absent => [.remoteNoTime]
            | lm => [.remoteTime lm]) ∨
      ∃ s, .remoteStatus s ∈ (match env.head n with
        | .fail => [LogLine.remoteError]
        | .answer status lm =>
          if status ≠ 200 then [.remoteStatus status]
          else match lm with
            | .absent => [.remoteNoTime]
            | lm => [.remoteTime lm]) := by
    intro s n hc
    cases hh : env.head n with
    | fail => exact .inl (by simp)
    | answer st lm =>
      rw [hh] at hc
      by_cases h2 : st = 200
      · subst h2
        exfalso
        cases lm with
        | absent => simp [compareTimes] at hc
        | unreadable => simp [compareTimes] at hc
        | time t => cases s <;> simp [compareTimes] at hc
      · exact .inr ⟨st, by simp [h2]⟩
  cases e : statFile env .archive w with
  | mk s w1 =>
    rw [e] at h
    cases s with
    | missing => simp at h
    | other =>
      rcases key .other w1.n h with h | ⟨s, h⟩
      · exact .inl (.tail _ (.tail _ (.tail _ h)))
      · exact .inr ⟨s, .tail _ (.tail _ (.tail _ h))⟩
    | found m =>
      rcases key (.found m) w1.n h with h | ⟨s, h⟩
      · exact .inl (.tail _ (.tail _ (.tail _ h)))
      · exact .inr ⟨s, .tail _ (.tail _ (.tail _ h))⟩

/-- The last message is not a debug message, nor is a check the last thing done. -/
def EndsAloud (log : List LogLine) : Prop := ∃ l, log.getLast? = some l ∧ l.level ≠ .debug ∧ l ≠ .checkRequired

theorem EndsAloud.append {pre log : List LogLine} (h : EndsAloud log) : EndsAloud (pre ++ log) := by
  obtain ⟨l, h1, h2⟩ := h
  exact ⟨l, by rw [List.getLast?_append, h1]; rfl, h2⟩

theorem compile_aloud (env : Env) (w : World) : EndsAloud (compileLog env w) := by
  unfold compileLog
  cases e : parseUpdate env w with
  | mk r w1 =>
    cases r with
    | ok u =>
      simp only [List.append_nil]
      rcases parse_cases env w with ⟨-, h⟩ | ⟨d, s, -, -, -, h, -, h2⟩
      · rw [e] at h; cases h
      · rw [h]
        refine ⟨.saved, ?_, by simp [LogLine.level], by simp⟩
        have := save_last (h2.1 (by rw [e]))
        rw [List.getLast?_cons, this]
        rfl
    | err => exact EndsAloud.append ⟨.compileFailed, rfl, by simp [LogLine.level], by simp⟩
    | panic => exact EndsAloud.append ⟨.compileFailed, rfl, by simp [LogLine.level], by simp⟩

theorem unpack_aloud (cfg : LoaderCfg) (env : Env) (w : World) : EndsAloud (unpackLog cfg env w) := by
  unfold unpackLog
  cases e : unpackUpdate cfg env w with
  | mk r w1 =>
    cases r with
    | ok u => exact EndsAloud.append (pre := [.unpacked]) (compile_aloud env _)
    | err => exact ⟨.unpackFailed, rfl, by simp [LogLine.level], by simp⟩
    | panic => exact ⟨.unpackFailed, rfl, by simp [LogLine.level], by simp⟩

theorem download_aloud (cfg : LoaderCfg) (env : Env) (w : World) (h : (stepDownload cfg env w).1 ≠ .panic) :
    EndsAloud (downloadLog cfg env w) := by
  unfold stepDownload at h
  unfold downloadLog
  apply EndsAloud.append
  cases e : downloadUpdate cfg env w with
  | mk r w1 =>
    rw [e] at h
    cases r with
    | ok b =>
      cases b with
      | true => exact EndsAloud.append (pre := [.downloaded]) (unpack_aloud cfg env _)
      | false => exact ⟨.notUpdated, rfl, by simp [LogLine.level], by simp⟩
    | err => exact ⟨.downloadFailed, rfl, by simp [LogLine.level], by simp⟩
    | panic => exact absurd rfl h

theorem decide_aloud (c : Option Bool) (a b d : Bool) : EndsAloud (decideLog c a b d) := by
  rcases c with _ | _ | _ <;> cases a <;> cases b <;> cases d <;> exact ⟨_, rfl, by decide, by decide⟩

theorem update_aloud (cfg : LoaderCfg) (env : Env) (force : Bool) (w : World) (h : (update cfg env force w).1 ≠ .panic) :
    EndsAloud (updateLog cfg env force w) := by
  unfold update at h
  unfold updateLog
  have go : ∀ (c : Option Bool) (dl un : Bool) (w3 : World) (pre : List LogLine),
      (match decideUpdate c force dl un with
        | .compile => stepCompile env w3
        | .unpack => stepUnpack cfg env w3
        | .download => stepDownload cfg env w3
        | .ret true => (LRes.ok (), w3)
        | .ret false => (.err, w3)).1 ≠ .panic →
      EndsAloud (pre ++ decideLog c force dl un ++ match decideUpdate c force dl un with
        | .compile => compileLog env w3
        | .unpack => unpackLog cfg env w3
        | .download => downloadLog cfg env w3
        | .ret _ => []) := by
    intro c dl un w3 pre hnp
    cases hd : decideUpdate c force dl un with
    | compile => exact (compile_aloud env w3).append
    | unpack => exact (unpack_aloud cfg env w3).append
    | download =>
      rw [hd] at hnp
      exact (download_aloud cfg env w3 hnp).append
    | ret b =>
      simp only [List.append_nil]
      exact (decide_aloud _ _ _ _).append
  cases e1 : isUpdateRequired env w with
  | mk r w1 =>
    rw [e1] at h
    cases e2 : fileExists env .archive w1 with
    | mk dl w2 =>
      cases e3 : fileExists env .xml w2 with
      | mk un w3 =>
        cases r with
        | panic => exact absurd rfl h
        | err =>
          simp only [e2, e3] at h ⊢
          exact EndsAloud.append (pre := .checkUpdates :: requiredLog env w) (go none dl un w3 _ h)
        | ok b =>
          simp only [e2, e3] at h ⊢
          exact EndsAloud.append (pre := .checkUpdates :: requiredLog env w) (go (some b) dl un w3 _ h)

theorem timeless_level (l : LogLine) : l.timeless.level = l.level := by cases l <;> rfl

theorem timeless_tells (l : LogLine) : l.timeless.tells = l.tells := by cases l <;> rfl

theorem timeless_saved {l : LogLine} : l.timeless = .saved ↔ l = .saved := by cases l <;> simp [LogLine.timeless]

theorem tells_loud {l : LogLine} (h : l.level = .debug) : l.tells = none := by
  cases l <;> first | rfl | (simp [LogLine.level] at h)

/-- What of a log is heard, without times. -/
def heardLines (keep : LogLevel → Bool) (log : List LogLine) : List LogLine :=
  (log.filter fun l => keep l.level).map LogLine.timeless

theorem heard_lines (keep : LogLevel → Bool) (A : List (LogLine × Str)) :
    ((heard keep A).map LogLine.readable).map Prod.fst = heardLines keep (A.map Prod.fst) := by
  unfold heard heardLines
  rw [List.filter_map, List.map_map, List.map_map]
  rfl

theorem heardLines_last {keep : LogLevel → Bool} (hk : ∀ v, v ≠ .debug → keep v = true) {log : List LogLine}
    (h : EndsAloud log) : (heardLines keep log).getLast? = log.getLast?.map LogLine.timeless := by
  obtain ⟨l, h1, h2, -⟩ := h
  obtain ⟨pre, rfl⟩ := List.getLast?_eq_some_iff.1 h1
  unfold heardLines
  rw [List.filter_append, List.map_append]
  have : [l].filter (fun l => keep l.level) = [l] := by simp [hk _ h2]
  rw [this]
  simp

theorem heardLines_steps {keep : LogLevel → Bool} (hk : ∀ v, v ≠ .debug → keep v = true) {log : List LogLine}
    (h : EndsAloud log) : toldSteps (heardLines keep log) = toldSteps log := by
  unfold toldSteps
  congr 1
  · unfold heardLines
    rw [List.filterMap_map]
    have hf : LogLine.tells ∘ LogLine.timeless = LogLine.tells := funext timeless_tells
    rw [hf]
    clear h
    induction log with
    | nil => rfl
    | cons l log ih =>
      rw [List.filter_cons]
      split
      · rw [List.filterMap_cons, List.filterMap_cons, ih]
      · rename_i hn
        have : l.level = .debug := by
          by_contra hd
          exact hn (hk _ hd)
        rw [List.filterMap_cons, tells_loud this, ih]
  · rw [heardLines_last hk h]
    obtain ⟨l, h1, h2⟩ := h
    rw [h1]
    simp only [Option.map_some, Option.some.injEq, timeless_saved]

theorem heardLines_ends {keep : LogLevel → Bool} (hk : ∀ v, v ≠ .debug → keep v = true) {log : List LogLine}
    (h : EndsAloud log) : EndsInError (heardLines keep log) ↔ EndsInError log := by
  unfold EndsInError
  rw [heardLines_last hk h]
  obtain ⟨l, h1, -⟩ := h
  rw [h1]
  simp [timeless_level]

theorem heardLines_mem {keep : LogLevel → Bool} {log : List LogLine} {l : LogLine} (hk : keep l.level = true)
    (hl : ∀ m : LogLine, m.timeless = l ↔ m = l) : l ∈ heardLines keep log ↔ l ∈ log := by
  unfold heardLines
  rw [List.mem_map]
  constructor
  · rintro ⟨m, hm, h⟩
    rw [(hl m).1 h] at hm
    exact (List.mem_filter.1 hm).1
  · intro h
    exact ⟨l, List.mem_filter.2 ⟨h, hk⟩, (hl l).2 rfl⟩

theorem heardLines_size {keep : LogLevel → Bool} {log : List LogLine} (hk : keep .debug = true) (f : FName) (size : Nat) :
    .fileFound f 0 size ∈ heardLines keep log ↔ ∃ m, .fileFound f m size ∈ log := by
  unfold heardLines
  rw [List.mem_map]
  constructor
  · rintro ⟨m, hm, h⟩
    cases m <;> simp only [LogLine.timeless, reduceCtorEq, LogLine.fileFound.injEq] at h
    obtain ⟨rfl, -, rfl⟩ := h
    exact ⟨_, (List.mem_filter.1 hm).1⟩
  · rintro ⟨m, h⟩
    exact ⟨_, List.mem_filter.2 ⟨h, hk⟩, rfl⟩

theorem unpack_no_panic (cfg : LoaderCfg) (env : Env) (w : World) : (unpackUpdate cfg env w).1 ≠ .panic := by
  unfold unpackUpdate
  repeat' split
  all_goals simp

theorem step_no_panic (cfg : LoaderCfg) (env : Env) (w : World) :
    (stepCompile env w).1 ≠ .panic ∧ (stepUnpack cfg env w).1 ≠ .panic := by
  have hc : ∀ w, (stepCompile env w).1 ≠ .panic := by
    intro w
    have := parse_no_panic env w
    unfold stepCompile
    cases e : parseUpdate env w with
    | mk r w1 =>
      rw [e] at this
      cases r with
      | ok u => simp
      | err => simp
      | panic => exact absurd rfl this
  refine ⟨hc w, ?_⟩
  have := unpack_no_panic cfg env w
  unfold stepUnpack
  cases e : unpackUpdate cfg env w with
  | mk r w1 =>
    rw [e] at this
    cases r with
    | ok u => exact hc _
    | err => simp
    | panic => exact absurd rfl this

/-- After its last message that is not a debug message, the log ends with a check. -/
def EndsChecking (log : List LogLine) : Prop := ∃ pre post, log = pre ++ .checkRequired :: post ∧ ∀ l ∈ post, l.level = .debug

theorem EndsChecking.append {pre log : List LogLine} (h : EndsChecking log) : EndsChecking (pre ++ log) := by
  obtain ⟨p, q, rfl, h2⟩ := h
  exact ⟨pre ++ p, q, by simp, h2⟩

theorem required_panic {env : Env} {w : World} (h : (isUpdateRequired env w).1 = .panic) :
    EndsChecking (requiredLog env w) := by
  unfold isUpdateRequired at h
  refine ⟨[], _, rfl, ?_⟩
  cases e : statFile env .archive w with
  | mk s w1 =>
    rw [e] at h
    have key : compareTimes s (env.head w1.n) = .panic → ∀ l ∈ (match env.head w1.n with
        | .fail => [LogLine.remoteError]
        | .answer status lm =>
          if status ≠ 200 then [.remoteStatus status]
          else match lm with
            | .absent => [.remoteNoTime]
            | lm => [.remoteTime lm]), l.level = .debug := by
      intro hc
      cases hh : env.head w1.n with
      | fail => rw [hh] at hc; simp [compareTimes] at hc
      | answer st lm =>
        rw [hh] at hc
        by_cases h2 : st = 200
        · subst h2
          cases lm <;> simp [LogLine.level]
        · simp [compareTimes, h2] at hc
    cases s with
    | missing => simp at h
    | other =>
      intro l hl
      rcases hl with _ | ⟨_, _ | ⟨_, hl⟩⟩
      · rfl
      · rfl
      · exact key h l hl
    | found m =>
      intro l hl
      rcases hl with _ | ⟨_, _ | ⟨_, hl⟩⟩
      · rfl
      · rfl
      · exact key h l hl

/-- A panic comes from a check, the first or that of `DownloadUpdate`. -/
theorem update_panic {cfg : LoaderCfg} {env : Env} {force : Bool} {w : World} (h : (update cfg env force w).1 = .panic) :
    EndsChecking (updateLog cfg env force w) ∧
    (((isUpdateRequired env w).1 = .panic ∧ (update cfg env force w).2.ev = w.ev ++ []) ∨
     ((isUpdateRequired env w).1 = .ok true ∧ (update cfg env force w).2.ev = w.ev ++ [.downloaded false])) := by
  have hs := required_same env w
  unfold update at h ⊢
  unfold updateLog
  cases e1 : isUpdateRequired env w with
  | mk r w1 =>
    rw [e1] at h hs
    have x2 := exists_same env .archive w1
    cases e2 : fileExists env .archive w1 with
    | mk dl w2 =>
      have x3 := exists_same env .xml w2
      cases e3 : fileExists env .xml w2 with
      | mk un w3 =>
        rw [e2] at x2
        rw [e3] at x3
        simp only at x2 x3
        subst x2
        subst x3
        have go : ∀ c : Option Bool, (match decideUpdate c force dl un with
            | .compile => stepCompile env w1.tick.tick
            | .unpack => stepUnpack cfg env w1.tick.tick
            | .download => stepDownload cfg env w1.tick.tick
            | .ret true => (LRes.ok (), w1.tick.tick)
            | .ret false => (.err, w1.tick.tick)).1 = .panic →
            c = some true ∧ (stepDownload cfg env w1.tick.tick).1 = .panic := by
          intro c hc
          cases hd : decideUpdate c force dl un with
          | compile => rw [hd] at hc; exact absurd hc (step_no_panic cfg env _).1
          | unpack => rw [hd] at hc; exact absurd hc (step_no_panic cfg env _).2
          | ret b => rw [hd] at hc; cases b <;> simp at hc
          | download =>
            rw [hd] at hc
            refine ⟨?_, hc⟩
            rcases c with _ | _ | _
            · cases force <;> cases dl <;> cases un <;> simp [decideUpdate] at hd
            · cases force <;> simp [decideUpdate] at hd
            · rfl
        cases r with
        | panic =>
          refine ⟨?_, .inl ⟨rfl, by simpa using hs.2.2⟩⟩
          simp only [List.append_nil]
          exact EndsChecking.append (pre := [.checkUpdates]) (required_panic (by rw [e1]))
        | err =>
          simp only [e2, e3] at h
          exact nomatch (go none h).1
        | ok b =>
          simp only [e2, e3] at h ⊢
          obtain ⟨hb, hp⟩ := go (some b) h
          obtain rfl := Option.some.inj hb
          have hp2 : (isUpdateRequired env w1.tick.tick).1 = .panic ∧
              stepDownload cfg env w1.tick.tick =
                (.panic, (isUpdateRequired env w1.tick.tick).2.note (.downloaded false)) ∧
              downloadUpdate cfg env w1.tick.tick = (.panic, (isUpdateRequired env w1.tick.tick).2) := by
            have hd : (downloadUpdate cfg env w1.tick.tick).1 = .panic := by
              unfold stepDownload at hp
              cases e : downloadUpdate cfg env w1.tick.tick with
              | mk r v =>
                rw [e] at hp
                cases r with
                | panic => rfl
                | err => simp at hp
                | ok b =>
                  cases b with
                  | true => exact absurd hp (step_no_panic cfg env _).2
                  | false => simp at hp
            have hd2 : (isUpdateRequired env w1.tick.tick).1 = .panic := by
              unfold downloadUpdate at hd
              cases e : isUpdateRequired env w1.tick.tick with
              | mk r v =>
                rw [e] at hd
                cases r with
                | panic => rfl
                | err => simp at hd
                | ok b =>
                  exfalso
                  cases b with
                  | false => simp at hd
                  | true =>
                    simp only at hd
                    revert hd
                    repeat' split
                    all_goals simp
            have hd3 : downloadUpdate cfg env w1.tick.tick = (.panic, (isUpdateRequired env w1.tick.tick).2) := by
              unfold downloadUpdate
              cases e : isUpdateRequired env w1.tick.tick with
              | mk r v =>
                rw [e] at hd2
                simp only at hd2
                subst hd2
                rfl
            refine ⟨hd2, ?_, hd3⟩
            unfold stepDownload
            rw [hd3]
          have hs2 := required_same env w1.tick.tick
          refine ⟨?_, .inr ⟨rfl, ?_⟩⟩
          · refine EndsChecking.append (pre := .checkUpdates :: requiredLog env w) ?_
            simp only [decideUpdate]
            unfold downloadLog
            rw [hp2.2.2]
            simp only [List.append_nil]
            exact (required_panic hp2.1).append
          · simp only [decideUpdate]
            rw [hp2.2.1]
            show (isUpdateRequired env w1.tick.tick).2.ev ++ [_] = _
            rw [hs2.2.2]
            show w1.ev ++ _ = _
            rw [hs.2.2]

theorem heardLines_loud {keep : LogLevel → Bool} (hk : ∀ v, v ≠ .debug → keep v = true) (log : List LogLine) :
    heardLines (fun v => decide (v ≠ .debug)) log = (heardLines keep log).filter fun l => decide (l.level ≠ .debug) := by
  unfold heardLines
  rw [List.filter_map, List.filter_filter]
  congr 1
  apply List.filter_congr
  intro l _
  simp only [Function.comp, timeless_level]
  by_cases h : l.level = .debug
  · simp [h]
  · simp [h, hk _ h]

/-- Whether an update panicked can be heard. -/
theorem heardLines_checking {log : List LogLine} (h : EndsChecking log) :
    (heardLines (fun v => decide (v ≠ .debug)) log).getLast? = some .checkRequired := by
  obtain ⟨pre, post, rfl, hd⟩ := h
  unfold heardLines
  have : (post.filter fun l => decide (l.level ≠ .debug)) = [] := by
    rw [List.filter_eq_nil_iff]
    intro l hl
    simp [hd l hl]
  rw [List.filter_append, List.filter_cons, this]
  simp [LogLine.level, LogLine.timeless]

theorem heardLines_aloud {log : List LogLine} (h : EndsAloud log) :
    (heardLines (fun v => decide (v ≠ .debug)) log).getLast? ≠ some .checkRequired := by
  rw [heardLines_last (by intro v hv; exact decide_eq_true hv) h]
  obtain ⟨l, h1, -, h2⟩ := h
  rw [h1]
  cases l <;> simp [LogLine.timeless] at h2 ⊢

end Verif
