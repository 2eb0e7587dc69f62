import Verif.Text.Parser
import Verif.Solve.Named
import Mathlib.Data.List.Lex
import Mathlib.Data.Char
/-
How the solver reads the names and versions of packages: it writes them into strings and parses these.
-/
set_option linter.style.haveILetI false
namespace Verif.Text
open Verif Verif.Pkg Verif.Rules Verif.Solve CharTable

variable [CharTable] {U : Type} [LinearOrder U] [VersionText U]

/-- `cls._from_string(name)`, by a scanner, which knows only the classes of ASCII; requirement.py:126-156 -/
def nameReader (cls : ReqClass) : Reader Str U := fun s =>
  match (letI := asciiTable; fromString cls s : Except PErr (Requirement (Option Str) U)) with
  | .error e => .error e
  | .ok r => .ok (r.name.map (fun n => ⟨r.cls, n, r.constraints⟩))

/-- The readers of the code. The string of `pinned` is never blank, so that the requirement has a name;
rules_generator.py:367, transaction.py:163, dependency_solver.py:36-38, 534-537, compute_dependencies.py:77-78 -/
def textReaders : Readers Str U where
  conflict := nameReader .conflict
  install := nameReader .install
  pinned := fun n v =>
    match nameReader .install (n ++ ' ' :: '=' :: '=' :: ' ' :: VersionText.toStr v) with
    | .error e => .error e
    | .ok none => .error .assertion
    | .ok (some r) => .ok r
  full := fun n v => fromPackageString .install (n ++ '-' :: VersionText.toStr v)

end Verif.Text
