import Verif.Model.Parser

/-!
# Specification: what an OpenCorpora document says

A document is a list of XML trees. What it says is read off the trees by element names, as an XPath expression would;
there is no state, no token and no path string.
-/

namespace Verif

/-- An XML tree. `other` is a comment, a processing instruction or a directive. -/
inductive Xml where
  | elem (name : Str) (attrs : List XAttr) (kids : List Xml)
  | text (data : Str)
  | other

mutual
/-- The tokens of a tree, as a decoder delivers them. -/
def Xml.tokens : Xml → List XTok
  | .elem n as ks => .start n as :: (Xml.tokensAll ks ++ [.stop n])
  | .text d => [.chars d]
  | .other => [.other]

/-- The tokens of several trees. -/
def Xml.tokensAll : List Xml → List XTok
  | [] => []
  | x :: xs => x.tokens ++ Xml.tokensAll xs
end

/-- The element paths of the format. -/
def formatPaths : List (List Str) := [
  [str "dictionary"],
  [str "dictionary", str "grammemes"],
  [str "dictionary", str "grammemes", str "grammeme"],
  [str "dictionary", str "grammemes", str "grammeme", str "name"],
  [str "dictionary", str "grammemes", str "grammeme", str "alias"],
  [str "dictionary", str "grammemes", str "grammeme", str "description"],
  [str "dictionary", str "restrictions"],
  [str "dictionary", str "restrictions", str "restr"],
  [str "dictionary", str "restrictions", str "restr", str "left"],
  [str "dictionary", str "restrictions", str "restr", str "right"],
  [str "dictionary", str "lemmata"],
  [str "dictionary", str "lemmata", str "lemma"],
  [str "dictionary", str "lemmata", str "lemma", str "l"],
  [str "dictionary", str "lemmata", str "lemma", str "l", str "g"],
  [str "dictionary", str "lemmata", str "lemma", str "f"],
  [str "dictionary", str "lemmata", str "lemma", str "f", str "g"],
  [str "dictionary", str "link_types"],
  [str "dictionary", str "link_types", str "type"],
  [str "dictionary", str "links"],
  [str "dictionary", str "links", str "link"]]

/-- Value of the first attribute with that name. -/
def attrOf (name : Str) : List XAttr → Option Str
  | [] => none
  | a :: as => if a.name = name then some a.value else attrOf name as

/-- The number a string of decimal digits denotes. -/
def decimal : Str → Nat
  | [] => 0
  | c :: cs => (c.toNat - 0x30) * 10 ^ cs.length + decimal cs

/-- At least one digit and nothing else. -/
def IsDigits (s : Str) : Prop := s ≠ [] ∧ ∀ c ∈ s, 0x30 ≤ c.toNat ∧ c.toNat ≤ 0x39

/-- A decimal integer, with or without a sign, that a 64-bit `int` holds. -/
def Int64Text : Str → Prop
  | 0x2d :: ds => IsDigits ds ∧ decimal ds ≤ 2 ^ 63
  | 0x2b :: ds => IsDigits ds ∧ decimal ds < 2 ^ 63
  | ds => IsDigits ds ∧ decimal ds < 2 ^ 63

instance (s : Str) : Decidable (IsDigits s) := by unfold IsDigits; infer_instance
instance (s : Str) : Decidable (Int64Text s) := by unfold Int64Text; split <;> infer_instance

/-- The attributes an element at a path must have. -/
def AttrsOK (floatOK : Str → Bool) (path : List Str) (attrs : List XAttr) : Prop :=
  if path = [str "dictionary"] then
    (∀ a ∈ attrs, a.name = str "version" → floatOK a.value = true) ∧
    (∀ a ∈ attrs, a.name = str "revision" → Int64Text a.value)
  else if path = [str "dictionary", str "grammemes", str "grammeme"] then
    ∃ v, attrOf (str "parent") attrs = some v
  else if path = [str "dictionary", str "lemmata", str "lemma"] then
    (∃ v, attrOf (str "id") attrs = some v ∧ Int64Text v) ∧
    (∃ v, attrOf (str "rev") attrs = some v ∧ Int64Text v)
  else if path = [str "dictionary", str "lemmata", str "lemma", str "l"] ∨
      path = [str "dictionary", str "lemmata", str "lemma", str "f"] then
    ∃ v, attrOf (str "t") attrs = some v
  else if path = [str "dictionary", str "lemmata", str "lemma", str "l", str "g"] ∨
      path = [str "dictionary", str "lemmata", str "lemma", str "f", str "g"] then
    ∃ v, attrOf (str "v") attrs = some v
  else True

mutual
/-- A tree of the format, found below the elements `path`. -/
def Xml.Valid (floatOK : Str → Bool) (path : List Str) : Xml → Prop
  | .elem n as ks => path ++ [n] ∈ formatPaths ∧ AttrsOK floatOK (path ++ [n]) as ∧
      Xml.ValidAll floatOK (path ++ [n]) ks
  | .text _ => True
  | .other => True

/-- Several trees of the format. -/
def Xml.ValidAll (floatOK : Str → Bool) (path : List Str) : List Xml → Prop
  | [] => True
  | x :: xs => x.Valid floatOK path ∧ Xml.ValidAll floatOK path xs
end

/-! The format can be checked. -/

instance {α : Type} (o : Option α) : Decidable (∃ v, o = some v) :=
  decidable_of_iff (o.isSome = true) Option.isSome_iff_exists

instance {α : Type} (o : Option α) (p : α → Prop) [DecidablePred p] : Decidable (∃ v, o = some v ∧ p v) :=
  match o with
  | none => isFalse (by simp)
  | some v => decidable_of_iff (p v) (by simp)

instance (fo : Str → Bool) (path : List Str) (attrs : List XAttr) : Decidable (AttrsOK fo path attrs) := by
  unfold AttrsOK; infer_instance

mutual
def Xml.decValid (fo : Str → Bool) (path : List Str) : (x : Xml) → Decidable (x.Valid fo path)
  | .elem n as ks =>
    have := Xml.decValidAll fo (path ++ [n]) ks
    decidable_of_iff (path ++ [n] ∈ formatPaths ∧ AttrsOK fo (path ++ [n]) as ∧ Xml.ValidAll fo (path ++ [n]) ks)
      (by rw [Xml.Valid])
  | .text _ => isTrue (by rw [Xml.Valid]; trivial)
  | .other => isTrue (by rw [Xml.Valid]; trivial)

def Xml.decValidAll (fo : Str → Bool) (path : List Str) : (xs : List Xml) → Decidable (Xml.ValidAll fo path xs)
  | [] => isTrue (by rw [Xml.ValidAll]; trivial)
  | x :: xs =>
    have := Xml.decValid fo path x
    have := Xml.decValidAll fo path xs
    decidable_of_iff (x.Valid fo path ∧ Xml.ValidAll fo path xs) (by rw [Xml.ValidAll])
end

instance (fo : Str → Bool) (path : List Str) (xs : List Xml) : Decidable (Xml.ValidAll fo path xs) :=
  Xml.decValidAll fo path xs

/-- The children with a given name: attributes and children. -/
def childrenNamed (name : Str) : List Xml → List (List XAttr × List Xml)
  | [] => []
  | .elem n as ks :: rest => if n = name then (as, ks) :: childrenNamed name rest else childrenNamed name rest
  | _ :: rest => childrenNamed name rest

/-- The pieces of text directly below. -/
def textsOf : List Xml → List Str
  | [] => []
  | .text d :: rest => d :: textsOf rest
  | _ :: rest => textsOf rest

/-- The tags given by the `g` children. -/
def tagsOf (ks : List Xml) : List Str := (childrenNamed (str "g") ks).map fun g => (attrOf (str "v") g.1).getD []

/-- What a document tells the index. -/
inductive Entry where
  /-- a grammeme: name and parent -/
  | grammeme (name parent : Str)
  /-- a lemma: for each form its spelling and its tags -/
  | lem (forms : List (Str × List Str))
  deriving DecidableEq

/-- A `grammeme` element: its name is the last piece of text inside its `name` children. -/
def grammemeEntry (as : List XAttr) (ks : List Xml) : Entry :=
  .grammeme (((childrenNamed (str "name") ks).flatMap fun n => textsOf n.2).getLast?.getD [])
    ((attrOf (str "parent") as).getD [])

/-- A `lemma` element: every `f` child is a form, tagged with the tags of the `l` children followed by its own. -/
def lemmaEntry (ks : List Xml) : Entry :=
  .lem ((childrenNamed (str "f") ks).map fun f =>
    ((attrOf (str "t") f.1).getD [], ((childrenNamed (str "l") ks).flatMap fun l => tagsOf l.2) ++ tagsOf f.2))

/-- The entries of a section of the dictionary. -/
def sectionEntries (name : Str) (ks : List Xml) : List Entry :=
  if name = str "grammemes" then (childrenNamed (str "grammeme") ks).map fun g => grammemeEntry g.1 g.2
  else if name = str "lemmata" then (childrenNamed (str "lemma") ks).map fun l => lemmaEntry l.2
  else []

/-- The entries of a tree below the dictionary. -/
def childEntries : Xml → List Entry
  | .elem n _ ks => sectionEntries n ks
  | _ => []

/-- The entries of a document in document order. -/
def entriesOf (doc : List Xml) : List Entry :=
  (childrenNamed (str "dictionary") doc).flatMap fun d => d.2.flatMap childEntries

/-- Add the forms of a lemma: the word, then the tags to its node; stop at the first error. -/
def addFormsSpec : Index → List (Str × List Str) → Index × Option PErr
  | ix, [] => (ix, none)
  | ix, (w, tags) :: rest =>
    match ix.addString w with
    | (ix, .ok id) => match ix.addTagSet id tags with
      | (ix, .ok ()) => addFormsSpec ix rest
      | (ix, .err e) => (ix, some (.index e))
      | (ix, _) => (ix, some .inner)
    | (ix, .err e) => (ix, some (.index e))
    | (ix, _) => (ix, some .inner)

/-- Process one entry; `none` is success. -/
def Entry.exec (ix : Index) : Entry → Index × Option PErr
  | .grammeme n p => ((ix.tagID n p).1, none)
  | .lem fs => addFormsSpec ix fs

/-- Process the entries in order, stopping at the first error. -/
def execEntries : Index → List Entry → Index × Option PErr
  | ix, [] => (ix, none)
  | ix, e :: es => match e.exec ix with
    | (ix, none) => execEntries ix es
    | (ix, some err) => (ix, some err)

/-- Number of lemmas. -/
def lemmaCount : List Entry → Nat
  | [] => 0
  | .lem _ :: es => lemmaCount es + 1
  | .grammeme _ _ :: es => lemmaCount es

/-- The entries up to and including the `m`-th lemma (all, if there are fewer). -/
def upToLemma : Nat → List Entry → List Entry
  | _, [] => []
  | m, .grammeme n p :: es => .grammeme n p :: upToLemma m es
  | 0, .lem _ :: _ => []
  | 1, .lem f :: _ => [.lem f]
  | m + 2, .lem f :: es => .lem f :: upToLemma (m + 1) es

/-- The elements open after a stream of tokens (outermost first), if start and end tokens match so far. -/
def openAfter : List Str → List XTok → Option (List Str)
  | st, [] => some st
  | st, .start n _ :: ts => openAfter (st ++ [n]) ts
  | st, .stop n :: ts => if st.getLast? = some n then openAfter st.dropLast ts else none
  | st, _ :: ts => openAfter st ts

/-- No element name contains a dot. -/
def NoDots (ts : List XTok) : Prop := ∀ n as, XTok.start n as ∈ ts → 0x2e ∉ n

end Verif
