import Verif.Model.Result
import Verif.Model.Compare

/-! Model of the lists of functions printed by `report_symbol_stat` with `--show-errors` (result.py 200-212). -/

set_option autoImplicit false

namespace DK

/-- The names of inner results of a kind, sorted, result.py 203-205, 209-211. -/
def listKind (r : Res) (k : Kind) : List Str := ((sortItems r.inner).filter fun x => x.2.kind = k).map (·.1)

/-- The part of the report below the numbers: a heading and the list below it, if there is something to report, result.py
201-206, 207-212 (empty lines are left out). -/
def errorReport (r : Res) : List (Str × List Str) :=
  (if (symbolStat r).unknown > 0 then [(str! "Functions that are unknown: ", listKind r .unknown)] else []) ++
  (if (symbolStat r).errors > 0 then [(str! "Functions whose comparison ended with an error: ", listKind r .error)] else [])

end DK
