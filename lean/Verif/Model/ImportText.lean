import Verif.Model.ParserLog
import Verif.Model.OptimizeTold
import Verif.Model.Texts
import Verif.Model.Numbers
import Verif.Model.UpdateLog

/-!
# Model of the texts of the messages of the parser and of `Optimize`, as bytes

`fmt` is taken to format as documented: `%07d` fills up with zeros to seven digits; `%#08x` gives "0x" and then eight digits
(the zeros are filled in before the prefix is added); `%v` of a list without a `String` method separates by spaces. None of
the types of IDs has a `String` method. How the logger decorates a message is not part of this.
-/

namespace Verif

/-- A number with at least `k` digits: `%07d` — pkg/opencorpora/parser.go:294 — and `%08d` — internal/index/idx.go:557 -/
def zeroPad (k n : Nat) : Str := List.replicate (k - (itoa n).length) 0x30 ++ itoa n

/-- `%#08x` — pkg/opencorpora/parser.go:294, internal/index/idx.go:542, 557 -/
def hex8 (v : VariantID) : Str :=
  str "0x" ++ (List.replicate (8 - (hexText v.toNat).length) 0x30 ++ hexText v.toNat)

/-- The text of a message of the parser — pkg/opencorpora/parser.go:132, 153, 293-295. The tags are shown by
`CategoryList.String` — pkg/opencorpora/category_list.go:12-19. -/
def ParseLine.text : ParseLine → Str
  | .data path => str "= " ++ path
  | .closed path => str "< " ++ path
  | .word it form tags =>
    str "IDX+ I" ++ (zeroPad 7 it.id.toNat ++ (str " P" ++ (zeroPad 7 it.parent.toNat ++ (str " " ++ (hex8 it.variants ++
      (str " " ++ (form ++ (str " [" ++ (joinComma tags ++ str "] ")))))))))

/-- A message of the parser as it is given to the logger — pkg/opencorpora/parser.go:132, 153, 293: all are debug messages. -/
def ParseLine.bytes (l : ParseLine) : LogLevel × Str := (.debug, l.text)

/-- Texts separated by spaces, for `%v` of a list at internal/index/idx.go:536-537. -/
def joinSpace : List Str → Str
  | [] => []
  | [a] => a
  | a :: b :: l => a ++ str " " ++ joinSpace (b :: l)

/-- `%v` of a collection — internal/index/idx.go:536-537: `TagSetIDCollection` has `GoString` but no `String`. -/
def collectionPlain (c : Coll) : Str := str "[" ++ (joinSpace (c.map fun id => itoa id.toNat) ++ str "]")

/-- The text of a message of `Optimize` — internal/index/idx.go:492-573 -/
def OptLine.text : OptLine → Str
  | .check n => str "check " ++ (itoa n ++ str " known collections")
  | .lookup => str "lookup unused collections"
  | .eliminate n => str "eliminate " ++ (itoa n ++ str " unused collections")
  | .noUnused => str "no unused collections"
  | .oldDiffers id c => str "old subID " ++ (hexUpper id.toNat ++ (str " collection " ++ collectionPlain c))
  | .newDiffers id c => str "new subID " ++ (hexUpper id.toNat ++ (str " collection " ++ collectionPlain c))
  | .pair old new => str "IDX? O" ++ (hex8 old ++ (str " N" ++ hex8 new))
  | .toReplace n => str "have " ++ (itoa n ++ str " collectionID to replace in items")
  | .item id old oldList new newList =>
    str "IDX# I" ++ (zeroPad 8 id.toNat ++ (str " O" ++ (hex8 old ++ (str " OL" ++ (collectionText oldList ++
      (str " N" ++ (hex8 new ++ (str " NL" ++ collectionText newList))))))))
  | .updated n => itoa n ++ str " items VariantID updated"
  | .reduced before after => str "reduced collection from " ++ (itoa before ++ (str " to " ++ (itoa after ++ str " items")))
  | .tagSets n => str "has " ++ (itoa n ++ str " possible tag sets")

/-- The level of a message of `Optimize` — internal/index/idx.go:492, 503, 511, 513, 536-537, 542, 546, 556, 568-569, 573 -/
def OptLine.level : OptLine → LogLevel
  | .check _ => .info
  | .lookup => .debug
  | .eliminate _ => .debug
  | .noUnused => .debug
  | .oldDiffers _ _ => .error
  | .newDiffers _ _ => .error
  | .pair _ _ => .debug
  | .toReplace _ => .info
  | .item _ _ _ _ _ => .debug
  | .updated _ => .info
  | .reduced _ _ => .info
  | .tagSets _ => .info

/-- A message of `Optimize` as it is given to the logger — internal/index/idx.go:492-573 -/
def OptLine.bytes (l : OptLine) : LogLevel × Str := (l.level, l.text)

end Verif
