import Verif.Model.Numbers

/-!
# Model of what the interactive tool prints for a node, as bytes

`fmt.Printf` is taken to write exactly the formatted bytes. The log messages are not part of this.
-/

namespace Verif

/-- `fmt` with `%02d` for a number that is not negative. Used at cmd/opencorpora_test/main.go:296. -/
def pad2 (n : Nat) : Str := List.replicate (2 - (itoa n).length) 0x30 ++ itoa n

/-- The line of one reading — cmd/opencorpora_test/main.go:292-296 -/
def readingLine (i : Nat) (t : List Tag) : Str :=
  str "\n- " ++ (pad2 i ++ (str ": (" ++ (joinComma (t.map (·.name)) ++ str ")")))

/-- The lines of the readings, joined with nothing in between — cmd/opencorpora_test/main.go:289-297, 305 -/
def readingLines : Nat → List (List Tag) → Str
  | _, [] => []
  | i, t :: L => readingLine i t ++ readingLines (i + 1) L

/-- The line(s) about the readings — cmd/opencorpora_test/main.go:302-309 -/
def variantsText (v : VariantID) (L : List (List Tag)) : Str :=
  if v ≠ 0 then
    str "Variants: " ++ (itoa v.toNat ++ (str "(0x" ++ (hexUpper v.toNat ++ (str "), " ++
      (itoa (variantTableNum v).toNat ++ (str " item(s): " ++ (readingLines 0 L ++ str "\n")))))))
  else str "Variants: --------\n"

/-- The lines about the children, for an order `entries` in which the map is visited —
cmd/opencorpora_test/main.go:311-327 -/
def childrenText (entries : List (Rune × ID)) : Str :=
  if entries.length > 0 then
    str "Children: " ++ (itoa entries.length ++ (str " items:\n" ++ (childLines entries).flatten))
  else str "Children: --------\n"

/-- What is printed for a node — cmd/opencorpora_test/main.go:299-327 -/
def nodeText (id : ID) (word : Str) (it : Item) (L : List (List Tag)) (entries : List (Rune × ID)) : Str :=
  str "Node:     " ++ (itoa id.toNat ++ (str "\n" ++ (str "Prefix:   " ++ (word ++ (str "\n" ++
    (str "Parent:   " ++ (itoa it.parent.toNat ++ (str "\n" ++
      (variantsText it.variants L ++ childrenText entries)))))))))

end Verif
