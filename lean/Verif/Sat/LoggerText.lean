import Verif.Props.Histogram
import Verif.Solve.DimacsLemmas
/-
Model of the texts of simplesat/sat/policy/policy_logger.py: `_log_pretty_pkg_id` and the second component of `_log_histogram`.
-/
namespace Verif.Sat
open Verif Verif.Dimacs Verif.Solve

/-- `"{:{fill}<w}".format(s)` -/
def padRight (fill : Char) (w : Nat) (s : List Char) : List Char := s ++ List.replicate (w - s.length) fill

/-- `"{:>w}".format(s)`, also `"{:w}".format(n)` for a number -/
def padLeft (w : Nat) (s : List Char) : List Char := List.replicate (w - s.length) ' ' ++ s

/-- What is read of a package: `name`, `str(version)`, and the name of its repository, if it has the attribute -/
structure Shown where
  name : List Char
  version : List Char
  repository : Option (List Char)

/-- `_log_pretty_pkg_id(pkg_id)` for an id of the pool (`id_to_package` raises for others); policy_logger.py:44-52. An empty
`fill` is the same as a blank. -/
def prettyPkgId (pkg : Int → Shown) (id : Int) : List Char :=
  let package := pkg id
  let nameVer := package.name ++ ' ' :: package.version
  let fill := if id % 2 ≠ 0 then '.' else ' '
  let repo := package.repository.getD "installed".toList
  padRight fill 30 nameVer ++ ' ' :: (padLeft 3 (intText id) ++ ' ' :: repo)

/-- a line of the histogram; policy_logger.py:38 -/
def histogramLine (pkg : Int → Shown) (kv : Int × Nat) : List Char :=
  padLeft 25 (prettyPkgId pkg kv.1) ++ ' ' :: padLeft 5 (intText (kv.2 : Int))

/-- The second component of `_log_histogram()`; policy_logger.py:37-42 -/
def Log.histogramText (pkg : Int → Shown) (log : Log) : List Char :=
  joinWith ['\n'] (log.mostCommon.map (histogramLine pkg))

end Verif.Sat
