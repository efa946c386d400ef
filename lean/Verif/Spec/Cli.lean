import Verif.Model.Cli

/-!
# Sessions with the interactive tool, and the lines it does not survive
-/

namespace Verif

/-- The lines the tool does not survive. -/
inductive Crashes (lib : Lib) (ix : Index) (line : Str) : Prop
  /-- `tag -1` -/
  | tag (c a : Str) (n : Int) : c = str "tag" ∨ c = str "t" → splitSpaces line = [c, a] → atoi a = some n → n < 0 →
      Crashes lib ix line
  /-- `set table -1` -/
  | table (c a : Str) (n : Int) : c = str "set" ∨ c = str "s" → splitSpaces line = [c, str "table", a] →
      atoi a = some n → n < 0 → Crashes lib ix line
  /-- `var` with the number of a collection that does not exist -/
  | var (c a : Str) (rest : List Str) (v : UInt32) : c = str "var" ∨ c = str "v" →
      splitSpaces line = c :: a :: rest → lib.parseUint a = some v → 1 ≤ (upper16 v).toNat →
      (ix.collectionIdx.getD ((upper16 v).toNat - 1) []).length ≤ (lower16 v).toNat → Crashes lib ix line
  /-- `node 0`, and the negative numbers whose low 32 bits are zero -/
  | node (c a : Str) (n : Int) : c = str "node" ∨ c = str "n" → splitSpaces line = [c, a] → atoi a = some n →
      n ≤ 0 → n % 4294967296 = 0 → n < ix.nodesCount → Crashes lib ix line
  /-- `node` with a string that is found at the root -/
  | nodeNul (c a : Str) : c = str "node" ∨ c = str "n" → splitSpaces line = [c, a] → atoi a = none →
      (ix.fetchString a).2 = .ok 0 → Crashes lib ix line
  /-- the search for a string that is found at the root -/
  | search : (splitSpaces line).headD [] ∉ commands → (ix.fetchString line).2 = .ok 0 → Crashes lib ix line

/-- A session: the lines are processed one after the other; what follows the end of the tool is not processed. -/
def session (lib : Lib) (disk : Option Index) : Index → List Str → List (Out Reply)
  | _, [] => []
  | ix, line :: rest =>
    match processInput lib disk ix line with
    | (_, .ok (.exit c)) => [.ok (.exit c)]
    | (ix, .ok r) => .ok r :: session lib disk ix rest
    | (_, e) => [e]

end Verif
