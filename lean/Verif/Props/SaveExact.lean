import Verif.Props.Resave
import Verif.Lemmas.Layout

/-!
# C66 — the number of tags a file can hold, exactly

The number of tags is written in one byte. Beyond 255 the file says `length % 256`, and the reader takes the tag after
those for the marker of the next section: the file is refused, whatever else is in the index.
-/

namespace Verif

/-- The eight bytes of a stored tag begin with the four bytes of its parent. -/
theorem writeTag_parent (t : Tag) (h : (writeTag t).err = none) (h0 : (0 : UInt8) ∉ t.parent) :
    ∃ b n, (writeTag t).bytes = b ++ n ∧ b.length = 4 ∧ n.length = 4 ∧ (0 : UInt8) ∉ b := by
  have key : ∀ s : Str, NameOK s → (writeName s).bytes.length = 4 ∧
      ((0 : UInt8) ∉ s → (0 : UInt8) ∉ (writeName s).bytes) := by
    intro s hs
    unfold writeName marshalName
    by_cases he : s = []
    · subst he; decide
    · rcases hs with hs | hs
      · exact absurd hs he
      by_cases he : s = emptyTagName
      · rw [if_pos (.inr he)]; exact ⟨by decide, fun _ => by decide⟩
      · rw [if_neg (by rw [not_or]; exact ⟨by omega, he⟩), if_neg (by simpa using hs)]
        exact ⟨hs, id⟩
  obtain ⟨h1, h2⟩ := (writeTag_err t).1 h
  refine ⟨(writeName t.parent).bytes, (writeName t.name).bytes, ?_, (key _ h1).1, (key _ h2).1, (key _ h1).2 h0⟩
  unfold writeTag
  rw [Wr.seq_bytes ((writeName_err _).2 h1)]

theorem flatten_length4 (l : List Str) (h : ∀ b ∈ l, b.length = 4) : l.flatten.length = 4 * l.length := by
  induction l with
  | nil => rfl
  | cons a l ih =>
    rw [List.flatten_cons, List.length_append, ih fun b hb => h b (List.mem_cons_of_mem _ hb),
      h a (List.mem_cons_self ..), List.length_cons]
    omega

theorem writeTags_length8 (l : List Tag) (h : ∀ t ∈ l, (writeTag t).err = none) (h0 : ∀ t ∈ l, (0 : UInt8) ∉ t.parent) :
    (l.flatMap fun t => (writeTag t).bytes).length = 8 * l.length := by
  induction l with
  | nil => rfl
  | cons t l ih =>
    obtain ⟨b, n, e, e1, e2, -⟩ := writeTag_parent t (h t (List.mem_cons_self ..)) (h0 t (List.mem_cons_self ..))
    rw [List.flatMap_cons, List.length_append, ih (fun u hu => h u (List.mem_cons_of_mem _ hu))
      (fun u hu => h0 u (List.mem_cons_of_mem _ hu)), e, List.length_append, e1, e2, List.length_cons]
    omega

/-- More than 255 tags: the file is refused. -/
theorem load_fails_tags (into ix : Index) (hs : ix.save.err = none) (hm : 255 < ix.tags.length)
    (h0 : ∀ t ∈ ix.tags, (0 : UInt8) ∉ t.parent) : ∃ e, into.load ix.save.bytes = .err e := by
  rcases NoCrash_load into ix.save.bytes with ⟨⟨r, rest⟩, hx⟩ | h'
  · exfalso
    have hn : ∀ t ∈ ix.tags, (writeTag t).err = none := fun t ht => (writeTag_err t).2 ((save_err ix).1 hs t ht)
    obtain ⟨k, names, hl, h4, hf, -⟩ := load_parts hx
    have a0 : (writeTags ix.tags).err = none := by
      unfold writeTags; rw [Wr.seq_err, Wr.all_err]; exact ⟨rfl, hn⟩
    have a1 : (Wr.seq (writeStringZ prefixTD) (writeTags ix.tags)).err = none := by
      rw [Wr.seq_err]; exact ⟨rfl, a0⟩
    have hb : ∃ tail, ix.save.bytes = prefixTD ++ 0 :: UInt8.ofNat ix.tags.length ::
        ((ix.tags.flatMap fun t => (writeTag t).bytes) ++ tail) := by
      unfold Index.save
      rw [Wr.seq_bytes a1, Wr.seq_bytes rfl]
      unfold writeTags
      rw [Wr.seq_bytes rfl, Wr.all_bytes _ _ hn]
      exact ⟨_, by simp [writeStringZ, writeU8, Wr.put]; rfl⟩
    obtain ⟨tail, hb⟩ := hb
    rw [hf] at hb
    have hb := List.append_cancel_left hb
    simp only [List.cons.injEq, true_and] at hb
    obtain ⟨rfl, hbb⟩ := hb
    have hk : (UInt8.ofNat ix.tags.length).toNat = ix.tags.length % 256 := UInt8.toNat_ofNat'
    rw [hk] at hl
    have hlt : ix.tags.length % 256 < ix.tags.length := by omega
    have hsplit : ix.tags = ix.tags.take (ix.tags.length % 256) ++
        ix.tags[ix.tags.length % 256] :: ix.tags.drop (ix.tags.length % 256 + 1) := by
      rw [List.getElem_cons_drop hlt, List.take_append_drop]
    generalize hT : ix.tags[ix.tags.length % 256] = t at hsplit
    have htm : t ∈ ix.tags := hT ▸ List.getElem_mem hlt
    generalize hA : ix.tags.take (ix.tags.length % 256) = A at hsplit
    have hAl : A.length = ix.tags.length % 256 := by rw [← hA, List.length_take]; omega
    have hAm : ∀ u ∈ A, u ∈ ix.tags := fun u hu => List.mem_of_mem_take (hA ▸ hu)
    generalize ix.tags.drop (ix.tags.length % 256 + 1) = B at hsplit
    have hb2 : names.flatten ++ (prefixTI ++ 0 :: ((writeTagSetIndex r.tagSets).bytes ++ (prefixCD ++
        0 :: ((writeVariantsIndex r.collectionIdx).bytes ++ (prefixID ++ 0 :: ((writeItems r.items).bytes ++ rest)))))) =
        (A.flatMap fun t => (writeTag t).bytes) ++ ((writeTag t).bytes ++
          ((B.flatMap fun t => (writeTag t).bytes) ++ tail)) := by
      rw [hbb, hsplit]
      simp [List.flatMap_append]
    have hlen : names.flatten.length = (A.flatMap fun t => (writeTag t).bytes).length := by
      rw [flatten_length4 names h4, writeTags_length8 A (fun u hu => hn u (hAm u hu)) (fun u hu => h0 u (hAm u hu)),
        hAl, hl]
      omega
    have hb3 := (List.append_inj hb2 hlen).2
    obtain ⟨b, n, e, e2, -, e3⟩ := writeTag_parent t (hn t htm) (h0 t htm)
    rw [e] at hb3
    match b, e2, e3 with
    | [x, y, z, w], _, e3 =>
      simp [prefixTI] at hb3
      obtain ⟨rfl, rfl, h3, -⟩ := hb3
      subst h3
      simp at e3
  · exact h'

/-- C66, exactly, in the number of tags: for an index that is saved without an error, within the other limits of the
format and with no NUL byte in a parent name, the saved bytes can be loaded if and only if there are at most 255 tags.
When they can, the loaded index is saved to the same bytes. -/
theorem C66_tags_exact (into ix : Index) (hs : ix.save.err = none) (hl : ix.tags.length ≤ 255 → ix.InLimits)
    (h0 : ∀ t ∈ ix.tags, (0 : UInt8) ∉ t.parent) :
    (ix.tags.length ≤ 255 → ∃ r, into.load ix.save.bytes = .ok (r, []) ∧ r.save = ix.save) ∧
    (255 < ix.tags.length → ∃ e, into.load ix.save.bytes = .err e) :=
  ⟨fun h => C66_partial into ix (hl h) hs, fun h => load_fails_tags into ix hs h h0⟩

/-- Both sides occur: histories with 255 and with 256 tags. -/
example (k : Nat) (hk : k ≤ 256) : ∃ h ix, Run h ix ∧ ix.tags.length = k ∧ ix.save.err = none ∧
    (∀ t ∈ ix.tags, (0 : UInt8) ∉ t.parent) ∧ (ix.tags.length ≤ 255 → ix.InLimits) := by
  have hl : (names256.take k).length = k := by rw [List.length_take, names256_length]; omega
  obtain ⟨r, -⟩ := tags_run (names256.take k) (names256_nodup.sublist (List.take_sublist ..)) (by omega)
  refine ⟨_, _, r, by rw [tagged_tags, List.length_map, hl], ?_, ?_, ?_⟩
  · rw [save_err]
    intro t ht
    obtain ⟨n, hn, rfl⟩ := List.mem_map.1 ht
    obtain ⟨k, -, rfl⟩ := List.mem_map.1 (List.mem_of_mem_take hn)
    exact ⟨.inr rfl, .inr rfl⟩
  · intro t ht
    obtain ⟨n, hn, rfl⟩ := List.mem_map.1 ht
    show (0 : UInt8) ∉ emptyTagName
    decide
  · intro h
    exact ⟨h, by show 0 < _; decide, fun t ht => (nomatch ht), fun t ht => (nomatch ht), by show 0 ≤ 255; decide,
      fun t ht => (nomatch ht), fun t ht => (nomatch ht), by
        show Index.new.items.nextID.toNat ≤ Index.new.items.items.length; decide⟩

end Verif
