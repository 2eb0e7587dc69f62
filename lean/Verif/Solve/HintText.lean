import Verif.Solve.Unsat
/-
Model of the text of a SatisfiabilityErrorWithHint: `hint_pretty_string` (simplesat/errors.py) and `_Job.__str__`
(simplesat/request.py).
-/
namespace Verif.Solve
open Verif Verif.Pkg

variable {N U : Type}

/-- `kind.name`; request.py:9-15 -/
def kindText : JobKind → List Char
  | .install => "install".toList
  | .remove => "remove".toList
  | .softUpdate => "soft_update".toList
  | .hardUpdate => "hard_update".toList
  | .upgrade => "upgrade".toList

/-- `str(job)`; request.py:31-32 -/
def jobText (T : Texts N U) (j : Job N U) : List Char :=
  kindText j.kind ++ ' ' :: (match j.requirement with
    | some r => T.requirement r
    | none => "None".toList)

/-- `hint_pretty_string`; errors.py:63-70 -/
def hintText (T : Texts N U) (jobs : List (Job N U)) : List Char :=
  "The following jobs are conflicting:".toList ++ '\n' ::
    joinWith ['\n'] (jobs.map (fun j => "    ".toList ++ jobText T j))

end Verif.Solve
