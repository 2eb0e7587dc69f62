import Verif.Sat.Logger
/-
Model of `_log_report` (simplesat/sat/policy/policy_logger.py): the story of a search that the policy logger tells. The lines
are data here; how they are laid out (widths, fill characters) is not modelled.
-/
namespace Verif.Sat
open Verif

/-- The parts of the report: the values at the first question; a suggestion with its number, the marks R and I, the package and
the changes up to the next question; the word BACKTRACKED. policy_logger.py:64-97 -/
inductive Line where
  | values (l : List (Int × Bool))
  | suggestion (i : Nat) (required installed : Bool) (id : Int) (changes : List (Int × Change))
  | backtracked

/-- `getattr(policy, '_installed_ids', ())`: no policy of the library has this attribute; policy_logger.py:13,
undetermined_clause_policy.py:17-34, policy.py:24-38 -/
def installedIdsAttribute : Option (List Int) := none

/-- `_log_installed` after `add_requirements(required)`; policy_logger.py:13, 28-31 -/
def Log.installed (log : Log) : List Int := ((installedIdsAttribute).getD []).filter (fun x => decide (x ∉ log.required))

section
variable {K M : Type} [LinearOrder K] [DecidableEq M]

/-- The loop of `_log_report`: the suggestion number `i`, with the changes logged at the next question; at the last one
IndexError is raised and caught before anything is reported. policy_logger.py:76-97. `key` gives name and version of a package,
`name` its name (all ids are those of packages of the pool; `id_to_package` raises for others). -/
def reportFrom (key : Int → K) (name : Int → M) (log : Log) (withAssignments : Bool) : Nat → List Int → List Line
  | _, [] => []
  | i, sugg :: rest =>
    (match log.changes[i + 1]? with
      | none => []
      | some items =>
        let sorted := sortBy (fun e => key e.1) items
        let changes := if withAssignments then sorted.filter (fun e => decide (name e.1 ≠ name sugg)) else []
        .suggestion i (decide (sugg ∈ log.required)) (decide (sugg ∈ log.installed)) sugg changes ::
          (if sorted.any (fun e => decide (e.2.2 = none)) then [.backtracked] else [])) ++
      reportFrom key name log withAssignments (i + 1) rest

/-- `_log_report(with_assignments)`; policy_logger.py:54-98 -/
def Log.report (key : Int → K) (name : Int → M) (log : Log) (withAssignments : Bool) : List Line :=
  (match log.changes, withAssignments with
    | c :: _, true => [.values (c.filterMap (fun e => e.2.2.map (fun b => (e.1, b))))]
    | _, _ => []) ++
    reportFrom key name log withAssignments 0 (log.suggestions.map iabs)

end
end Verif.Sat
