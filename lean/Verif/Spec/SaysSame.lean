import Verif.Spec.Document

/-!
# Specification: documents with the same content

What may be changed in a document without changing what it says: comments, processing instructions and text outside the
names of grammemes, the order of attributes, attributes the format does not use for content, and the parts that are not
imported (aliases, descriptions, restrictions, link types, links).
-/

namespace Verif

/-- The path of the name of a grammeme: the only place where text counts. -/
def namePath : List Str := [str "dictionary", str "grammemes", str "grammeme", str "name"]

/-- The attributes that carry content. -/
def contentAttrs : List Str := [str "parent", str "t", str "v"]

/-- The parts that are not imported. -/
def skippedPaths : List (List Str) := [
  [str "dictionary", str "grammemes", str "grammeme", str "alias"],
  [str "dictionary", str "grammemes", str "grammeme", str "description"],
  [str "dictionary", str "restrictions"],
  [str "dictionary", str "link_types"],
  [str "dictionary", str "links"]]

/-- `SaysSame path xs ys`: below the elements `path`, `xs` and `ys` have the same content. -/
inductive SaysSame : List Str → List Xml → List Xml → Prop where
  | refl (p xs) : SaysSame p xs xs
  | symm {p xs ys} : SaysSame p xs ys → SaysSame p ys xs
  | trans {p xs ys zs} : SaysSame p xs ys → SaysSame p ys zs → SaysSame p xs zs
  /-- a change further on -/
  | later {p xs ys} (x : Xml) : SaysSame p xs ys → SaysSame p (x :: xs) (x :: ys)
  /-- a change inside an element -/
  | inside {p n as ks ks'} (xs : List Xml) : SaysSame (p ++ [n]) ks ks' →
      SaysSame p (.elem n as ks :: xs) (.elem n as ks' :: xs)
  /-- attributes in another order -/
  | order {p n as as'} (ks xs : List Xml) : as.Perm as' → (as.map (·.name)).Nodup →
      SaysSame p (.elem n as ks :: xs) (.elem n as' ks :: xs)
  /-- an attribute that carries no content -/
  | unused {p n} (a : XAttr) (as : List XAttr) (ks xs : List Xml) : a.name ∉ contentAttrs →
      SaysSame p (.elem n (a :: as) ks :: xs) (.elem n as ks :: xs)
  /-- a comment, processing instruction or directive outside names -/
  | comment {p} (xs : List Xml) : p ≠ namePath → SaysSame p (.other :: xs) xs
  /-- the same before or after the text of a name -/
  | before (d : Str) : SaysSame namePath [.other, .text d] [.text d]
  | after (d : Str) : SaysSame namePath [.text d, .other] [.text d]
  /-- text outside names -/
  | text {p} (d : Str) (xs : List Xml) : p ≠ namePath → SaysSame p (.text d :: xs) xs
  /-- a part that is not imported -/
  | skipped {p n} (as : List XAttr) (ks xs : List Xml) : p ++ [n] ∈ skippedPaths → SaysSame p (.elem n as ks :: xs) xs

end Verif
