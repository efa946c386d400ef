import Verif.Model.HeapIndex

/-!
# What a caller can reach through an answer

`Tags` (internal/index/idx.go:32-34) returns the index's own slice of tags, `GetChildrenIDMap` (314-321) its own map,
`TagSetIndex` (483-485) and `Variants` (577-579) slices it keeps; `Node.TagSets` (internal/index/node.go:24-50) returns
new slices. Here the arrays of tags are references too, and a session consists of calls and of the caller's own
assignments to the answers.
-/

namespace Verif

/-- An index whose tags are a reference, and the slices of tags its caller holds — internal/index/idx.go:22-33; the
field `tags` of `hx.ix` is not used. -/
structure Session where
  hx : HIndex
  arrays : Heap Tag
  tags : Slice
  held : List Slice

/-- One step of a session: a call, or an assignment of the caller. For internal/index/idx.go:32-34, 244-579. -/
inductive Act where
  /-- any call that may change the index -/
  | call (op : Op)
  /-- `TagSets()` of a node; the caller keeps the slices of the answer -/
  | readings (id : ID)
  /-- `Tags()`; the caller keeps the slice -/
  | tags
  /-- `held[k][i] = t` -/
  | store (k i : Nat) (t : Tag)
  /-- `held[k] = append(held[k], t)`, which is also what `held[k].Index` does for a new tag -/
  | push (k : Nat) (t : Tag)
  /-- `GetChildrenIDMap(id)[r] = c` -/
  | setChild (id : ID) (r : Rune) (c : ID)
  /-- `ts, _ := TagSetIndex().Get(id); ts[i] = v` -/
  | setTagID (id : TagSetID) (i : Nat) (v : UInt8)
  /-- `c, _ := Variants(id); c[i] = v` -/
  | setReading (id : VariantID) (i : Nat) (v : TagSetID)

namespace Session

/-- `New` — internal/index/idx.go:37-47 with `dag.NewIndex` — pkg/dag/idx.go:29-41 -/
def new : Session := { hx := HIndex.new, arrays := [[]], tags := ⟨0, 0⟩, held := [] }

/-- The index with the tags in place. For internal/index/idx.go:22-33. -/
def plain (s : Session) : HIndex := { s.hx with ix := { s.hx.ix with tags := s.arrays.read s.tags } }

/-- The index with values in place of all references. For internal/index/idx.go:22-33. -/
def value (s : Session) : Index := s.plain.value

/-- A call — internal/index/idx.go:220-240, 244-574. `TagID` (465-467, pkg/dag/idx.go:100-115) appends to the slice of
tags, loading makes a new one (pkg/dag/idx.go:46-62), the others only read it. -/
def call (grow : Growth Tag) (s : Session) : Op → Session
  | .tagID name parent =>
    match tagsFind (s.arrays.read s.tags) name with
    | some _ => s
    | none =>
      let r := s.arrays.append grow { parent := [], name := [] } s.tags [newTag parent name]
      { s with arrays := r.1, tags := r.2 }
  | .reload =>
    if s.value.save.err = none then
      match Index.new.load s.value.save.bytes with
      | .ok (ix', _) =>
        let r := s.arrays.makeWith ix'.tags
        { s with hx := HIndex.ofValue ix', arrays := r.1, tags := r.2 }
      | _ => s
    else s
  | op => { s with hx := s.plain.exec op }

/-- One step — internal/index/idx.go:32-34, 244-579, internal/index/node.go:24-50. An assignment outside a slice is a
panic in Go; here nothing happens. -/
def act (grow : Growth Tag) (s : Session) : Act → Session
  | .call op => s.call grow op
  | .readings id => match s.value.tagSetsOf id with
    | .ok L =>
      let r := HIndex.allocTable s.arrays L
      { s with arrays := r.1, held := s.held ++ r.2 }
    | _ => s
  | .tags => { s with held := s.held ++ [s.tags] }
  | .store k i t => match s.held[k]? with
    | some sl => { s with arrays := s.arrays.write sl ((s.arrays.read sl).set i t) }
    | none => s
  | .push k t => match s.held[k]? with
    | some sl =>
      let r := s.arrays.append grow { parent := [], name := [] } sl [t]
      { s with arrays := r.1, held := s.held.set k r.2 }
    | none => s
  | .setChild id r c =>
    let ix := (s.hx.ix.getChildrenIDMap id).1
    { s with hx := { s.hx with ix := { ix with childrenMap := Index.setChild ix.childrenMap id r c } } }
  | .setTagID id i v =>
    match s.hx.tagSets[(tagSetTableNumber id).toNat]?.bind (·[(tagSetSubID id).toNat]?) with
    | some sl => { s with hx := { s.hx with sets := s.hx.sets.write sl ((s.hx.sets.read sl).set i v) } }
    | none => s
  | .setReading id i v => match hCollGet s.hx.colls s.hx.collectionIdx id with
    | some (h, sl) => { s with hx := { s.hx with colls := h.write sl ((h.read sl).set i v) } }
    | none => s

/-- A whole session on a new index. For internal/index/idx.go:32-34, 244-579. -/
def run (grow : Growth Tag) (acts : List Act) : Session := acts.foldl (act grow) new

end Session

end Verif
