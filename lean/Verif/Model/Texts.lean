import Verif.Model.Node

/-!
# Model of the texts of tag sets, tables, collections and maps

`fmt` calls these methods for `%v` (`String`) and `%#v` (`GoString`). A map is given by an enumeration of its entries: Go
visits them in an arbitrary order.
-/

namespace Verif

/-- `strings.Join` with a comma. Used at internal/index/tagset_def.go:28, internal/index/tagset_table.go:26,
internal/index/variant_def.go:23, pkg/dag/map.go:29, 50, pkg/dag/tagset.go:17. -/
def joinComma : List Str → Str
  | [] => []
  | [a] => a
  | a :: b :: l => a ++ str "," ++ joinComma (b :: l)

/-- `strconv.FormatUint(n, 16)`. Used at internal/index/variant_def.go:20. -/
def hexText (n : Nat) : Str := (Nat.toDigits 16 n).map fun c => UInt8.ofNat c.toNat

/-- `TagSet.String` — internal/index/tagset_def.go:22-29 -/
def tagSetText (s : List UInt8) : Str := str "TS" ++ str "(" ++ joinComma (s.map fun t => itoa t.toNat) ++ str ")"

/-- `TagSetTable.String` — internal/index/tagset_table.go:20-27 -/
def tagSetTableText (t : List (List UInt8)) : Str :=
  str "TT" ++ str "(" ++ joinComma (t.zipIdx.map fun e => itoa e.2 ++ str ": " ++ tagSetText e.1) ++ str ")"

/-- `TagSetIDCollection.GoString` — internal/index/variant_def.go:17-24 -/
def collectionText (c : List TagSetID) : Str := str "[" ++ joinComma (c.map fun id => hexText id.toNat) ++ str "]"

/-- `TagSet.String` of the public package — pkg/dag/tagset.go:11-18; `Tag.String` — pkg/dag/tag.go:61-63 — and
`TagName.String` — pkg/dag/name.go:61-63 — are the name itself. -/
def readingText (t : List Tag) : Str := joinComma (t.map (·.name))

/-- `NodeMap.String` — pkg/dag/map.go:20-35: the entries in the order of the map iteration, with the texts of the nodes;
only their number from ten on. -/
def nodeMapText (entries : List (Rune × Str)) : Str :=
  str "NodeMap(" ++
    (if entries.length < 10 then joinComma (entries.map fun e => str "`" ++ encodeRune e.1 ++ str "`:" ++ e.2)
     else str "len()=" ++ itoa entries.length) ++ str ")"

/-- `IdMap.String` — pkg/dag/map.go:41-56 -/
def idMapText (entries : List (Rune × ID)) : Str :=
  str "IDMap(" ++
    (if entries.length < 10 then
      joinComma (entries.map fun e => str "`" ++ encodeRune e.1 ++ str "`:" ++ itoa e.2.toNat)
     else str "len()=" ++ itoa entries.length) ++ str ")"

/-- The lines of the children of a node in the interactive tool — cmd/opencorpora_test/main.go:311-327: one for each
entry, sorted (`sort.Strings` orders byte by byte). Runes are printed as signed numbers. -/
def childLines (entries : List (Rune × ID)) : List Str :=
  (sortAsc (entries.map fun e => encodeRune e.1 ++ str "[" ++
      (if 0 ≤ e.1.toInt then itoa e.1.toInt.toNat else str "-" ++ itoa (-e.1.toInt).toNat) ++ str "]: " ++
      itoa e.2.toNat)).map fun l => str "- " ++ l ++ str "\n"

end Verif
