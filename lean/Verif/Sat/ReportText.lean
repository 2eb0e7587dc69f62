import Verif.Sat.LoggerText
import Verif.Sat.Report
/-
Model of the text of `_log_report(with_assignments=False)` (simplesat/sat/policy/policy_logger.py), as printed by scripts/solve.py.
-/
namespace Verif.Sat
open Verif Verif.Dimacs Verif.Solve

/-- The text of a part of the report: `"{:>4} {}{} - {}{}"` with no changes, and `"BACKTRACKED\n"`; policy_logger.py:76-80, 92-95.
The values at the first question are not reported without assignments (policy_logger.py:66). -/
def lineText (pkg : Int → Shown) : Line → List Char
  | .values _ => []
  | .suggestion i required installed id _ =>
    padLeft 4 (intText (i : Int)) ++ ' ' :: (if required then 'R' else ' ') :: (if installed then 'I' else ' ') ::
      ' ' :: '-' :: ' ' :: prettyPkgId pkg id
  | .backtracked => ['B', 'A', 'C', 'K', 'T', 'R', 'A', 'C', 'K', 'E', 'D', '\n']

/-- `_log_report(with_assignments=False)`; policy_logger.py:54-98 -/
def Log.reportText {K M : Type} [LinearOrder K] [DecidableEq M] (pkg : Int → Shown) (key : Int → K) (name : Int → M) (log : Log) :
    List Char := joinWith ['\n'] ((log.report key name false).map (lineText pkg))

end Verif.Sat
