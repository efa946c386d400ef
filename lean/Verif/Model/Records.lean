import Verif.Model.Texts

/-!
# Model of the records of a dictionary: categories, forms, lemmas, grammemes

These types of `pkg/opencorpora` are public; a program may build them itself or have `encoding/xml` fill them. Lists of
pointers may hold nil.
-/

namespace Verif

/-- `CategoryList` — pkg/opencorpora/category_list.go:10; a `Category` is its tag name — category_item.go:8-10 -/
abbrev Categories := List (Option Str)

/-- `WordForm` — pkg/opencorpora/form_item.go:10-13 -/
structure FormRec where
  form : Str
  g : Categories
  deriving DecidableEq, Repr

/-- `Lemma` — pkg/opencorpora/lemma_item.go:11-20 -/
structure LemmaItem where
  id : Int
  rev : Int
  base : FormRec
  others : List (Option FormRec)
  deriving DecidableEq, Repr

/-- `Grammeme` — pkg/opencorpora/grammeme_item.go:8-17 -/
structure GrammemeRec where
  parent : Str
  name : Str
  «alias» : Str
  description : Str
  deriving DecidableEq, Repr

/-- A loop over pointers that calls a method with a value receiver, or reads a field, of each: nil panics. As at
pkg/opencorpora/category_list.go:14-16, 24-26, pkg/opencorpora/form_item.go:25-27, 34-38. -/
def eachDeref {α β : Type} (f : α → Out β) : List (Option α) → Out (List β)
  | [] => .ok []
  | none :: _ => .panic
  | some a :: l => (f a).bind fun b => (eachDeref f l).bind fun r => .ok (b :: r)

/-- `CategoryList.String` — pkg/opencorpora/category_list.go:12-19, `Category.String` — category_item.go:13-15 -/
def categoriesText (c : Categories) : Out Str := (eachDeref .ok c).bind fun l => .ok (joinComma l)

/-- `CategoryList.GrammemeNames` — pkg/opencorpora/category_list.go:22-29 -/
def grammemeNames (c : Categories) : Out (List Str) := eachDeref .ok c

/-- `WordForm.GetTagsFromSet` — pkg/opencorpora/form_item.go:32-40: the test for nil has an empty body. -/
def FormRec.tagsOf (x : FormRec) : Out (List Str) := eachDeref .ok x.g

/-- `WordForm.String` — pkg/opencorpora/form_item.go:23-29 -/
def FormRec.text (x : FormRec) : Out Str :=
  (eachDeref .ok x.g).bind fun l => .ok (str "WordForm(" ++ x.form ++ str "," ++ joinComma l ++ str ")")

/-- `fmt.Sprintf("%v", n)` for an `int`. Used at pkg/opencorpora/lemma_item.go:37. -/
def intText (n : Int) : Str := if 0 ≤ n then itoa n.toNat else str "-" ++ itoa (-n).toNat

/-- `Lemma.String` — pkg/opencorpora/lemma_item.go:32-38; no closing parenthesis is written. -/
def LemmaItem.text (x : LemmaItem) : Out Str :=
  (eachDeref FormRec.text x.others).bind fun l => x.base.text.bind fun b =>
    .ok (str "Lemma(" ++ intText x.id ++ str "," ++ intText x.rev ++ str "," ++ b ++ str ", " ++ joinComma l)

/-- The loop of `LemmaList.Search` — pkg/opencorpora/lemma_list.go:7-14 -/
def searchLoop (word : Str) : List (Option LemmaItem) → List LemmaItem → List LemmaItem
  | [], acc => acc
  | none :: l, acc => searchLoop word l acc
  | some x :: l, acc => if x.base.form = word then searchLoop word l (acc ++ [x]) else searchLoop word l acc

/-- `LemmaList.Search` — pkg/opencorpora/lemma_list.go:6-17, `Lemmata.Search` — lemmata.go:9-11 -/
def searchLemmas (l : List (Option LemmaItem)) (word : Str) : List LemmaItem := searchLoop word l []

/-- `Grammeme.Tag` — pkg/opencorpora/grammeme_item.go:24-26 -/
def GrammemeRec.tag (g : GrammemeRec) : Tag := newTag g.parent g.name

/-- `Grammeme.String` — pkg/opencorpora/grammeme_item.go:19-21 -/
def GrammemeRec.text (g : GrammemeRec) : Str :=
  str "Tag(" ++ g.name ++ str "/" ++ g.parent ++ str "," ++ g.alias ++ str "," ++ g.description ++ str ")"

/-- `Grammemes.String` — pkg/opencorpora/grammeme_dict.go:12-18 -/
def grammemesText (l : List (Option GrammemeRec)) : Out Str :=
  (eachDeref (fun g => .ok g.text) l).bind fun l => .ok (str "Grammemes(" ++ joinComma l ++ str ")")

end Verif
