import Verif.Model.WholeLog
import Verif.Model.ImportText

/-! # Specification: the parts of a log -/

namespace Verif

/-- The lines of the logger "loader". -/
def loaderPart (log : List WholeLine) : List LogLine :=
  log.filterMap fun | .loader l => some l | _ => none

/-- The lines of the logger "parser". -/
def parserPart (log : List WholeLine) : List ParseLine :=
  log.filterMap fun | .parser l => some l | _ => none

/-- The lines of the logger "optimize". -/
def optimizePart (log : List WholeLine) : List OptLine :=
  log.filterMap fun | .optimize l => some l | _ => none

/-- The log consists of the blocks `a`, `b`, `c` of the loader; between the first two there is what the parser logs, between
the last two what `Optimize` logs. The parser logs nothing unless `a` ends with "start parse", and `Optimize` nothing unless
`b` ends with "optimize index"; neither message is logged a second time. -/
structure Blocks3 (log : List WholeLine) (a b c : List LogLine) : Prop where
  all : log = a.map .loader ++ (parserPart log).map .parser ++ b.map .loader ++ (optimizePart log).map .optimize ++
    c.map .loader
  parsing : parserPart log ≠ [] → a.getLast? = some .startParse
  optimizing : optimizePart log ≠ [] → b.getLast? = some .optimizing
  once : .startParse ∉ b ++ c
  once' : .optimizing ∉ a ++ c

end Verif
