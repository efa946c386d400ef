import Verif.Model.Index

/-!
# Model of the remaining methods of `Node` and `Item`
-/

namespace Verif

/-- `strconv.Itoa` of a non-negative number. Used at internal/index/node.go:92-97. -/
def itoa (n : Nat) : Str := str (toString n)

/-- `Item.String` — internal/index/item_def.go:73-79 -/
def Item.string (i : Item) : Str :=
  encodeRune i.letter ++ (itoa i.id.toNat ++ str "_" ++ itoa i.parent.toNat ++ str "_" ++ itoa i.variants.toNat)

namespace Index

/-- `Node.Item` — internal/index/node.go:19-21; indexing the storage out of range is a panic. -/
def nodeItem (ix : Index) (id : ID) : Out Item :=
  match ix.items.items[id.toNat]? with
  | some it => .ok it
  | none => .panic

/-- `Node.String` — internal/index/node.go:92-97. `w[:len(w)-1]` of an empty `w` and a field of a nil item are
panics; `item.String()[1:]` is in range because an item's text is never empty. Both slices count bytes. -/
def nodeString (ix : Index) (id : ID) : Out Str :=
  (ix.word id).bind fun w =>
    if w.length = 0 then .panic
    else match ix.items.get id with
      | none => .panic
      | some it => .ok (str "Node(" ++ w.take (w.length - 1) ++ str "[" ++ encodeRune it.letter ++ str "]" ++
          it.string.drop 1 ++ str ")")

end Index

end Verif
