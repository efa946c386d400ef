import Verif.Model.ToolLog
import Verif.Spec.IntLit
import Verif.Spec.Dictionary

/-!
# What the log of the interactive tool is to tell about a line typed

`ToolAnswer` is what the user wants to know; `LogSays log a` describes, independently of how the program builds its messages, the
logs from which the answer `a` can be read.
-/

namespace Verif

/-- The answer to a line. -/
inductive ToolAnswer where
  /-- the word is found; the names of the tags of its readings -/
  | readings (names : List (List Str))
  /-- the word is found and has no reading -/
  | empty
  | notFound
  | tagCount (n : Nat)
  | tag (number : Nat) (name parent : Str)
  /-- how many sets are in each of the tables of tag sets -/
  | tables (sizes : List Nat)
  /-- the sets in one table, as numbers of tags -/
  | table (sets : List TagSet)
  | nodesCount (n : Nat)
  /-- the command failed -/
  | failed
  | reloaded
  | exiting
  /-- the answer is on the standard output (a node, a set or a collection) -/
  | printed

/-- The answer a reply gives. -/
def Reply.answer : Reply → ToolAnswer
  | .readings L => .readings (L.map fun t => t.map (·.name))
  | .empty => .empty
  | .notFound => .notFound
  | .tagCount n => .tagCount n
  | .tag i t => .tag i t.name t.parent
  | .tables sizes => .tables sizes
  | .table sets => .table sets
  | .tagSet _ => .printed
  | .variants _ => .printed
  | .nodesCount n => .nodesCount n
  | .node _ _ _ _ _ => .printed
  | .message => .failed
  | .reloaded => .reloaded
  | .exit _ => .exiting

/-- No message is an error message. -/
def NoErrors (log : List (LogLevel × Str)) : Prop := ∀ m ∈ log, m.1 ≠ .error

/-- The logs that say what the answer is. -/
inductive LogSays : List (LogLevel × Str) → ToolAnswer → Prop
  /-- one line for each reading, with its position and the names of its tags -/
  | readings (log : List (LogLevel × Str)) (L : List (List Str)) (hne : L ≠ []) (hl : log.length = L.length)
      (h : ∀ i names, L[i]? = some names →
        ∃ eta, log[i]? = some (.info, str "< " ++ (pad2 i ++ (str ": " ++ (joinComma names ++ (str ", eta " ++ eta)))))) :
      LogSays log (.readings L)
  | empty (eta : Str) : LogSays [(.info, str "< empty, eta " ++ eta)] .empty
  | notFound (reason eta : Str) : LogSays [(.info, str "< index: " ++ (reason ++ (str ", eta " ++ eta)))] .notFound
  | tagCount (n : Nat) : LogSays [(.info, str "tag.count: " ++ itoa n)] (.tagCount n)
  /-- the number is shown in decimal, perhaps with a sign or leading zeros -/
  | tag (number : Str) (i : Nat) (name parent : Str) (h : SignedDecimal number i) (hf : FitsInt i) :
      LogSays [(.info, str "tag[" ++ (number ++ (str "] " ++ (name ++ (str "(" ++ (parent ++ str ")"))))))] (.tag i name parent)
  | tables (sizes : List Nat) (items : List Str) (hl : items.length = sizes.length)
      (h : ∀ i n, sizes[i]? = some n → items[i]? = some (pad2 i ++ (str "(" ++ (itoa n ++ str ")")))) :
      LogSays [(.info, str "set.tables: total " ++ itoa sizes.length),
        (.info, str "set.tables: " ++ joinWith (str ", ") items)] (.tables sizes)
  | table (i : Nat) (sets : List TagSet) :
      LogSays [(.info, str "set.tables: " ++ (itoa i ++ (str ": " ++ joinWith (str ", ") (sets.map tagSetText))))] (.table sets)
  | nodesCount (n : Nat) : LogSays [(.info, str "node.count: total " ++ itoa n)] (.nodesCount n)
  /-- the last message, and no other, is an error message -/
  | failed (log : List (LogLevel × Str)) (text : Str) (h : NoErrors log) : LogSays (log ++ [(.error, text)]) .failed
  | reloaded : LogSays [(.info, str "reloading index")] .reloaded
  | exiting : LogSays [(.info, str "exiting")] .exiting
  | node (text : Str) : LogSays [(.debug, str "node " ++ text)] .printed
  | set (typed : Str) (rest : List (LogLevel × Str)) (hs : (0x20 : UInt8) ∉ typed) (ht : typed ≠ str "tables") (h : NoErrors rest) :
      LogSays ((.info, str "set." ++ (typed ++ (str ": looking tag set " ++ typed))) :: rest) .printed
  | var (typed : Str) (rest : List (LogLevel × Str)) (h : NoErrors rest) :
      LogSays ((.info, str "looking for var " ++ typed) :: rest) .printed

/-- The command a line is about, written out; a search has none. -/
def commandName (line : Str) : Str :=
  let w := (splitSpaces line).headD []
  if w = str "tag" ∨ w = str "t" then str "tag"
  else if w = str "set" ∨ w = str "s" then str "set"
  else if w = str "node" ∨ w = str "n" then str "node"
  else if w = str "var" ∨ w = str "v" then str "var"
  else []

/-- The text is a number that fits into an `int`. -/
def IsNumber (s : Str) (z : Int) : Prop := SignedDecimal s z ∧ FitsInt z

/-- What there is to complain about in a line, split at the spaces, and the message. -/
inductive Complaint (lib : Lib) (ix : Index) : List Str → Str → Prop
  | tagItems (c : Str) (l : List Str) (hc : c = str "tag" ∨ c = str "t") (hl : l.length ≠ 1) :
      Complaint lib ix (c :: l) (str "tag: expected 2 items")
  /-- no number, and no tag has this name -/
  | tagName (c arg : Str) (hc : c = str "tag" ∨ c = str "t") (ha : arg ≠ str "count") (hz : ∀ z, ¬ IsNumber arg z)
      (ht : ∀ t ∈ ix.tags, lib.equalFold t.name arg = false) :
      Complaint lib ix [c, arg] (str "tag: expected int id: `" ++ (arg ++ str "`"))
  | tagNumber (c arg : Str) (z : Int) (hc : c = str "tag" ∨ c = str "t") (hz : IsNumber arg z) (ht : ix.tags.length ≤ z) :
      Complaint lib ix [c, arg] (str "tag: no such tag id: `" ++ (arg ++ str "`"))
  | setItems (c : Str) (hc : c = str "set" ∨ c = str "s") : Complaint lib ix [c] (str "set: at least 2 items required")
  | tableItems (c : Str) (l : List Str) (hc : c = str "set" ∨ c = str "s") (hl : l.length ≠ 1) :
      Complaint lib ix (c :: str "table" :: l) (str "set.table: 3 items required")
  | tableNoNumber (c arg : Str) (hc : c = str "set" ∨ c = str "s") (hz : ∀ z, ¬ IsNumber arg z) :
      Complaint lib ix [c, str "table", arg] (str "set.table: `" ++ (arg ++ str "`: int ID required"))
  | tableNumber (c arg : Str) (z : Int) (hc : c = str "set" ∨ c = str "s") (hz : IsNumber arg z) (ht : ix.tagSets.length ≤ z) :
      Complaint lib ix [c, str "table", arg] (str "set.table: `" ++ (intText z ++ str "`: no such set table"))
  | setNoNumber (c arg : Str) (l : List Str) (hc : c = str "set" ∨ c = str "s") (h1 : arg ≠ str "tables") (h2 : arg ≠ str "table")
      (hz : lib.parseInt arg = none) :
      Complaint lib ix (c :: arg :: l) (str "set." ++ (arg ++ str ": expected int or hex set number"))
  | setNumber (c arg : Str) (l : List Str) (z : Int) (hc : c = str "set" ∨ c = str "s") (h1 : arg ≠ str "tables")
      (h2 : arg ≠ str "table") (hz : lib.parseInt arg = some z) (hs : ix.tagSets.get (toU32 z) = none) :
      Complaint lib ix (c :: arg :: l) (str "set." ++ (arg ++ str ": tag set not found"))
  | varItems (c : Str) (hc : c = str "var" ∨ c = str "v") : Complaint lib ix [c] (str "set: at least 2 items required")
  | varNoNumber (c arg : Str) (l : List Str) (hc : c = str "var" ∨ c = str "v") (hz : lib.parseUint arg = none) :
      Complaint lib ix (c :: arg :: l) (str "var.id: `" ++ (arg ++ str "`: expected id var"))
  | nodeItems (c : Str) (hc : c = str "node" ∨ c = str "n") : Complaint lib ix [c] (str "set: at least 2 items required")
  | nodeMany (c arg : Str) (l : List Str) (hc : c = str "node" ∨ c = str "n") (ha : arg ≠ str "count") (hl : l ≠ []) :
      Complaint lib ix (c :: arg :: l) (str "node.info: 2 items required")
  /-- no number, and no known text -/
  | nodeText (c arg : Str) (hc : c = str "node" ∨ c = str "n") (ha : arg ≠ str "count") (hz : ∀ z, ¬ IsNumber arg z)
      (e : Err) (hf : (ix.fetchItemFromParent 0 (decodeRunes arg)).2 = .err e) :
      Complaint lib ix [c, arg] (str "node.info: `" ++ (arg ++ str "`: not found"))
  | nodeNumber (c arg : Str) (z : Int) (hc : c = str "node" ∨ c = str "n") (hz : IsNumber arg z) (hn : ix.nodesCount ≤ z) :
      Complaint lib ix [c, arg] (str "node.info: `" ++ (arg ++ str "`: no such node"))
  /-- a negative number counts modulo 2³² -/
  | nodeNegative (c arg : Str) (z : Int) (hc : c = str "node" ∨ c = str "n") (hz : IsNumber arg z) (hn : z < ix.nodesCount)
      (hg : ∀ id, ix.get (toU32 z) ≠ .ok id) :
      Complaint lib ix [c, arg] (str "node.info: `" ++ (arg ++ (str "`: get node: index: no such node: " ++ itoa (toU32 z).toNat)))

/-- An index made by any history of calls, whose tags have names of four bytes. -/
def FourByteIndex (ix : Index) : Prop := ∃ h, Run h ix ∧ ∀ t ∈ ix.tags, t.name.length = 4

/-- The answers to the lines of a session, up to its end; a line that crashes the tool has none, a failed reload is the last. -/
def sessionAnswers (lib : Lib) (ix : Index) : List TypedLine → List ToolAnswer
  | [] => []
  | e :: rest =>
    match processInput lib e.disk ix e.line with
    | (_, .ok (.exit 0)) => [.exiting]
    | (_, .ok (.exit _)) => [.failed]
    | (ix', .ok r) => r.answer :: sessionAnswers lib ix' rest
    | (ix', .err _) => .failed :: sessionAnswers lib ix' rest
    | (_, .panic) => []
    | (_, .diverge) => []

end Verif
