import Verif.Lemmas.Canonical
import Verif.Props.Reload

/-!
# C64, C65, C66 — files and indexes correspond
-/

namespace Verif

/-! ## C64 — saving a loaded index -/

theorem writeName_stored (n : Str) : writeName (storedName n) = writeName n := by
  unfold storedName
  split
  · rename_i h
    rcases h with rfl | rfl <;> rfl
  · rfl

theorem writeTags_stored (l : List Tag) : writeTags (l.map storedTag) = writeTags l := by
  unfold writeTags
  rw [List.length_map]
  congr 1
  induction l with
  | nil => rfl
  | cons t l ih =>
    show Wr.seq (writeTag (storedTag t)) (Wr.all writeTag (l.map storedTag)) = Wr.seq (writeTag t) (Wr.all writeTag l)
    rw [ih]
    congr 1
    unfold writeTag storedTag
    rw [writeName_stored, writeName_stored]

/-- C64: load the file of any index within the limits of the format (into any receiver): saving the result gives the
same file again, byte for byte. -/
theorem C64 (into ix : Index) (hl : ix.InLimits) (hs : ix.save.err = none) :
    ∃ r, into.load ix.save.bytes = .ok (r, []) ∧ r.save = ix.save := by
  have h := RT_load into hl ((save_err ix).1 hs) []
  rw [List.append_nil] at h
  refine ⟨_, h, ?_⟩
  unfold Index.loaded
  obtain ⟨r1, r2, r3, r4⟩ := rebuild_sections { into with
    tags := ix.tags.map storedTag, tagSets := ix.tagSets, collectionIdx := ix.collectionIdx, items := ix.items.trim }
  unfold Index.save
  rw [r1, r2, r3, r4]
  simp only [writeTags_stored]
  congr 4
  unfold writeItems Items.trim
  simp only [List.take_take, Nat.min_self]

/-- What was loaded — from any file, however produced — can be saved and loaded again, and that gives the same index
back, with all its contents. No assumption about capacity is needed. -/
theorem C64_any_file (r : Index) (file rest : Str) (h : Index.new.load file = .ok (r, rest)) :
    r.save.err = none ∧ ∀ t, Index.new.load (r.save.bytes ++ t) = .ok (r, t) := by
  obtain ⟨k, names, -, -, -, hsave, hr, hk, hit, htags⟩ := load_parts h
  have hlim := load_limits h
  have hn : r.NamesOK := fun t ht => ⟨.inr (htags t ht).1, .inr (htags t ht).2.2.1⟩
  have hst : r.tags.map storedTag = r.tags := PlainTags.stored fun t ht =>
    ⟨(htags t ht).2.2.1, (htags t ht).2.2.2, (htags t ht).1, (htags t ht).2.1⟩
  have htrim : r.items.trim = r.items := by
    unfold Items.trim
    rw [← hit, List.take_length]
  have hld : Index.loaded Index.new r = r := by
    unfold Index.loaded
    rw [hst, htrim]
    exact hr.symm
  have := RT_load Index.new hlim hn
  rw [hld] at this
  exact ⟨(save_err r).2 hn, this⟩

/-- How the code writes a stored file again: the only bytes that can differ are tag names spelled `"----"`, which come
back as four spaces. In particular the length is the same. -/
theorem C64_rewritten (into r : Index) (file rest : Str) (h : into.load file = .ok (r, rest)) :
    ∃ (k : UInt8) (names : List Str) (tail : Str), names.length = 2 * k.toNat ∧ (∀ b ∈ names, b.length = 4) ∧
      file = str "TD" ++ 0 :: k :: (names.flatten ++ (tail ++ rest)) ∧
      r.save.bytes = str "TD" ++ 0 :: k ::
        ((names.map fun b => if b = str "----" then str "    " else b).flatten ++ tail) := by
  obtain ⟨k, names, hl, h4, hf, hsave, -⟩ := load_parts h
  refine ⟨k, names, prefixTI ++ 0 :: ((writeTagSetIndex r.tagSets).bytes ++ (prefixCD ++
    0 :: ((writeVariantsIndex r.collectionIdx).bytes ++ (prefixID ++ 0 :: (writeItems r.items).bytes)))), hl, h4, ?_, ?_⟩
  · rw [hf]; show prefixTD ++ _ = prefixTD ++ _; simp
  · rw [hsave]; rfl

/-- Two dictionaries with the same file answer alike. -/
theorem C64_injective {h h' : List Op} {ix ix' : Index} (r : Run h ix) (r' : Run h' ix') (hl : ix.InLimits)
    (hl' : ix'.InLimits) (ht : PlainTags ix.tags) (ht' : PlainTags ix'.tags) (he : ix.save.bytes = ix'.save.bytes) :
    SameAnswersExceptNul ix ix' := by
  obtain ⟨-, jx, h1, h2, -⟩ := C17 r hl ht
  obtain ⟨-, jx', h1', h2', -⟩ := C17 r' hl' ht'
  rw [he, h1'] at h1
  obtain ⟨rfl, -⟩ := Prod.mk.inj (Out.ok.inj h1)
  exact { fetch := fun id rs hid => (h2'.fetch id rs hid).symm.trans (h2.fetch id rs hid)
          fetchItem := fun id rs hid => (h2'.fetchItem id rs hid).symm.trans (h2.fetchItem id rs hid)
          get := fun id => (h2'.get id).symm.trans (h2.get id)
          word := fun id => (h2'.word id).symm.trans (h2.word id)
          tagSets := fun id => (h2'.tagSets id).symm.trans (h2.tagSets id)
          children := fun id rr hid => (h2'.children id rr hid).symm.trans (h2.children id rr hid)
          tags := h2'.tags.symm.trans h2.tags
          nodesCount := h2'.nodesCount.symm.trans h2.nodesCount
          wordsCount := h2'.wordsCount.symm.trans h2.wordsCount }

/-! ## C65 — foreign files -/

/-- C65: a file that does not start with the marker of the format is refused with an error. -/
theorem C65 (into : Index) (file : Str) (h : ¬ str "TD" ++ [0] <+: file) : ∃ e, into.load file = .err e := by
  rcases NoCrash_load into file with ⟨⟨r, rest⟩, hx⟩ | h'
  · obtain ⟨k, names, -, -, hf, -⟩ := load_parts hx
    refine absurd ?_ h
    rw [hf]
    exact List.prefix_append _ _
  · exact h'

/-- C65 for all four markers: whatever loads consists of the four sections, each behind its marker, in this order. -/
theorem C65_markers (into r : Index) (file rest : Str) (h : into.load file = .ok (r, rest)) :
    ∃ tags sets readings nodes, file = str "TD" ++ [0] ++ tags ++ (str "TI" ++ [0]) ++ sets ++ (str "CD" ++ [0]) ++
      readings ++ (str "ID" ++ [0]) ++ nodes ++ rest := by
  obtain ⟨k, names, -, -, hf, -⟩ := load_parts h
  refine ⟨k :: names.flatten, (writeTagSetIndex r.tagSets).bytes, (writeVariantsIndex r.collectionIdx).bytes,
    (writeItems r.items).bytes, ?_⟩
  rw [hf]
  show prefixTD ++ _ = prefixTD ++ [0] ++ _ ++ (prefixTI ++ [0]) ++ _ ++ (prefixCD ++ [0]) ++ _ ++ (prefixID ++ [0]) ++ _ ++ _
  simp

example : ¬ str "TD" ++ [0] <+: str "<?xml version" := by decide
example : ¬ str "TD" ++ [0] <+: ([] : Str) := by decide

/-! ## C66 — whatever is saved can be loaded -/

/-- C66 under the limits of the format: what is saved without an error is loaded without an error, with the same
answers (`C17`) and the same bytes (`C64`). Missing: indexes beyond the limits, see `not_C66`. -/
theorem C66_partial (into ix : Index) (hl : ix.InLimits) (hs : ix.save.err = none) :
    ∃ r, into.load ix.save.bytes = .ok (r, []) ∧ r.save = ix.save := C64 into ix hl hs

/-- A multiple of 256 tags: the file says "no tags", and the reader takes the first tag for a section marker. -/
theorem load_fails_256 (into ix : Index) (hs : ix.save.err = none) (hm : ix.tags.length % 256 = 0) (t : Tag)
    (l : List Tag) (ht : ix.tags = t :: l) (h4 : t.parent.length = 4) (h0 : (0 : UInt8) ∉ t.parent) :
    ∃ e, into.load ix.save.bytes = .err e := by
  rcases NoCrash_load into ix.save.bytes with ⟨⟨r, rest⟩, hx⟩ | h'
  · exfalso
    have hn := (save_err ix).1 hs t (by rw [ht]; exact List.mem_cons_self ..)
    obtain ⟨k, names, hl, -, hf, -⟩ := load_parts hx
    have hp : ∃ b, (writeName t.parent).err = none ∧ (writeName t.parent).bytes = b ∧ b.length = 4 ∧ (0 : UInt8) ∉ b := by
      refine ⟨_, (writeName_err _).2 hn.1, rfl, ?_⟩
      unfold writeName marshalName
      by_cases he : t.parent = emptyTagName
      · rw [if_pos (.inr he)]; decide
      · rw [if_neg (by rw [not_or]; exact ⟨by omega, he⟩), if_neg (by simpa using h4)]
        exact ⟨h4, h0⟩
    obtain ⟨b, e0, e1, e2, e3⟩ := hp
    have hb : ∃ tail, ix.save.bytes = prefixTD ++ 0 :: 0 :: (b ++ tail) := by
      have a0 : (writeTags ix.tags).err = none := by
        unfold writeTags; rw [Wr.seq_err, Wr.all_err]
        exact ⟨rfl, fun u hu => (writeTag_err u).2 ((save_err ix).1 hs u hu)⟩
      have a1 : (Wr.seq (writeStringZ prefixTD) (writeTags ix.tags)).err = none := by
        rw [Wr.seq_err]; exact ⟨rfl, a0⟩
      have hu : UInt8.ofNat ix.tags.length = 0 := by
        apply UInt8.toNat_inj.1
        rw [UInt8.toNat_ofNat']
        exact hm
      unfold Index.save
      rw [Wr.seq_bytes a1, Wr.seq_bytes rfl]
      unfold writeTags
      rw [Wr.seq_bytes rfl, hu, ht]
      show ∃ tail, (writeStringZ prefixTD).bytes ++ ((writeU8 0).bytes ++
        (Wr.seq (writeTag t) (Wr.all writeTag l)).bytes) ++ _ = _
      rw [Wr.seq_bytes ((writeTag_err t).2 hn)]
      unfold writeTag
      rw [Wr.seq_bytes e0, e1]
      exact ⟨_, by simp [writeStringZ, writeU8, Wr.put]; rfl⟩
    obtain ⟨tail, hb⟩ := hb
    rw [hf] at hb
    have hb := List.append_cancel_left hb
    simp only [List.cons.injEq, true_and] at hb
    obtain ⟨rfl, hb⟩ := hb
    have : names = [] := List.length_eq_zero_iff.1 hl
    subst this
    match b, e2, e3 with
    | [x, y, z, w], _, e3 =>
      simp [prefixTI] at hb
      obtain ⟨rfl, rfl, h3, -⟩ := hb
      subst h3
      simp at e3
  · exact h'

/-- 256 different names of four letters. -/
def names256 : List Str := (List.range 256).map fun n => [65, 66, UInt8.ofNat (65 + n / 16), UInt8.ofNat (65 + n % 16)]

/-- An index with tags and nothing else. -/
def tagged (tags : List Tag) : Index := { Index.new with tags := tags }

/-- Registering different tags, up to 256 of them. -/
theorem tags_run (L : List Str) (hn : L.Nodup) (hl : L.length ≤ 256) :
    Run (L.map fun n => .tagID n []) (tagged (L.map (newTag []))) ∧
    dictOf (L.map fun n => .tagID n []) = { Dict.empty with tags := L.map (newTag []) } := by
  induction L using list_reverse_induction with
  | nil => exact ⟨Run.nil, rfl⟩
  | snoc L n ih =>
    rw [List.length_append] at hl
    rw [List.nodup_append] at hn
    obtain ⟨h1, -, h3⟩ := hn
    obtain ⟨r, hd⟩ := ih h1 (by simp at hl; omega)
    have hnot : n ∉ L := fun h => h3 n h n (List.mem_singleton.2 rfl) rfl
    have hf : tagsFind (L.map (newTag [])) n = none := by
      unfold tagsFind
      rw [Option.map_eq_none_iff, List.findIdx?_eq_none_iff]
      intro t ht
      obtain ⟨m, hm, rfl⟩ := List.mem_map.1 ht
      simp only [newTag, decide_eq_false_iff_not]
      rintro rfl
      exact hnot hm
    have hd' : dictOf ((L ++ [n]).map fun n => .tagID n []) = { Dict.empty with tags := (L ++ [n]).map (newTag []) } := by
      rw [List.map_append]
      show dictOf (_ ++ [Op.tagID n []]) = _
      rw [dictOf_append, hd]
      simp only [Op.spec]
      rw [if_neg, List.map_append]
      · rfl
      · unfold Dict.hasTag
        simp only [List.any_eq_true, not_exists, not_and]
        intro t ht
        obtain ⟨m, hm, rfl⟩ := List.mem_map.1 ht
        simp only [newTag, beq_iff_eq]
        rintro rfl
        exact hnot hm
    have hex : Op.exec (tagged (L.map (newTag []))) (.tagID n []) =
        (tagged ((L ++ [n]).map (newTag []))) := by
      show ((tagged (L.map (newTag []))).tagID n []).1 = _
      unfold Index.tagID tagsIndex tagged
      simp only [hf, List.map_append]
      rfl
    refine ⟨?_, hd'⟩
    have hfit : Fits (Op.exec (tagged (L.map (newTag []))) (.tagID n []))
        (dictOf ((L.map fun n => .tagID n []) ++ [.tagID n []])) := by
      have : (L.map fun n => Op.tagID n []) ++ [.tagID n []] = (L ++ [n]).map fun n => .tagID n [] := by simp
      rw [this, hd', hex]
      constructor
      · show 1 < 4294967296; decide
      · simpa using hl
      · show 0 ≤ 65536; decide
      · exact fun t ht => (nomatch ht)
      · show 0 ≤ 65535; decide
      · exact fun t ht => (nomatch ht)
    have := Run.step (.tagID n []) r trivial hfit
    rw [hex] at this
    simpa using this

theorem tagged_tags (l : List Tag) : (tagged l).tags = l := rfl
theorem names256_length : names256.length = 256 := by simp [names256]
theorem names256_cons : names256 = [65, 66, 65, 65] :: names256.tail := by
  unfold names256
  rw [List.range_succ_eq_map, List.map_cons, List.tail_cons]
  have : ([65, 66, UInt8.ofNat (65 + 0 / 16), UInt8.ofNat (65 + 0 % 16)] : Str) = [65, 66, 65, 65] := by decide
  rw [this]

theorem names256_nodup : names256.Nodup := by
  refine List.Nodup.map_on ?_ List.nodup_range
  intro a ha b hb h
  simp only [List.cons.injEq, and_true, true_and] at h
  obtain ⟨h1, h2⟩ := h
  have h1 := congrArg UInt8.toNat h1
  have h2 := congrArg UInt8.toNat h2
  rw [UInt8.toNat_ofNat', UInt8.toNat_ofNat'] at h1 h2
  rw [List.mem_range] at ha hb
  omega

/-- C66 fails: 256 tags are accepted (their ids are the bytes 0 to 255), saving reports no error, and the file cannot
be loaded: the number of tags is written in one byte. -/
theorem not_C66 : ∃ h ix, Run h ix ∧ ix.tags.length = 256 ∧ PlainTags ix.tags ∧ ix.save.err = none ∧
    ∃ e, Index.new.load ix.save.bytes = .err e := by
  obtain ⟨r, -⟩ := tags_run names256 names256_nodup (by simp [names256])
  have hp : PlainTags (names256.map (newTag [])) := by
    intro t ht
    obtain ⟨n, hn, rfl⟩ := List.mem_map.1 ht
    obtain ⟨k, -, rfl⟩ := List.mem_map.1 hn
    refine ⟨rfl, ?_, rfl, by show emptyTagName ≠ fourSpaces; decide⟩
    show [65, 66, _, _] ≠ [32, 32, 32, 32]
    simp
  have hs : (tagged (names256.map (newTag []))).save.err = none := by
    rw [save_err]
    exact fun t ht => ⟨.inr (hp t ht).2.2.1, .inr (hp t ht).1⟩
  refine ⟨_, _, r, by rw [tagged_tags, List.length_map, names256_length], hp, hs, ?_⟩
  have hl : (tagged (names256.map (newTag []))).tags.length % 256 = 0 := by
    rw [tagged_tags, List.length_map, names256_length]
  have hc : (tagged (names256.map (newTag []))).tags = newTag [] [65, 66, 65, 65] :: names256.tail.map (newTag []) := by
    rw [tagged_tags, ← List.map_cons, ← names256_cons]
  exact load_fails_256 Index.new _ hs hl _ _ hc (by decide) (by decide)

end Verif
