import Verif.Sat.PolicyModel
import Verif.PySort
/-
Model of simplesat/sat/policy/policy_logger.py (class PolicyLogger): the wrapper around a decision policy that keeps a log
of the search. The texts of the lines are in Sat/LoggerText; the order of the
lines of `_log_histogram` is in Props/Histogram, `_log_report` in Sat/Report.
-/
namespace Verif.Sat
open Verif

/-- The fields `_log_required`, `_log_suggestions` and `_log_assignment_changes`; policy_logger.py:17-19. (`_log_installed` is
always empty: no policy has an attribute `_installed_ids`. The pool and the arguments are not modelled.) -/
structure Log where
  required : List Int
  suggestions : List Int
  changes : List (List (Int × Change))

/-- The log of a new PolicyLogger; policy_logger.py:10-19 -/
def Log.empty : Log :=
  { required := []
    suggestions := []
    changes := [] }

/-- `PolicyLogger.add_requirements`, its effect on the log; policy_logger.py:28-31 -/
def Log.addRequirements (log : Log) (ids : List Int) : Log := { log with required := log.required ++ ids }

/-- `PolicyLogger.get_next_package_id` around the policy `pol`; policy_logger.py:21-26. (If the wrapped policy raises, the
changelog has been logged already; the search stops and the log of that last question is not modelled.) -/
def loggedPolicy {σ : Type} (pol : Policy σ) : Policy (σ × Log) where
  next st a cs :=
    match pol.next st.1 a.getChangelog.1 cs with
    | .error e => .error e
    | .ok (st', a', p) =>
      .ok ((st', { st.2 with
        suggestions := st.2.suggestions ++ [p]
        changes := st.2.changes ++ [a.getChangelog.2] }), a'.consumeChangelog.1, p)

/-- The policy without its logger: `UndeterminedClausePolicy`; undetermined_clause_policy.py:36-64 -/
def rawPolicy {V : Type} [LinearOrder V] (ver : Int → Option V) (order : Nat → List Int → List Int) : Policy PolState where
  next st a cs := nextPackage ver order st a cs

/-- `counter[x] += 1` for a Counter in insertion order -/
def bump (x : Int) : List (Int × Nat) → List (Int × Nat)
  | [] => [(x, 1)]
  | kv :: t => if kv.1 = x then (x, kv.2 + 1) :: t else kv :: bump x t

/-- `Counter(map(abs, self._log_suggestions))`, the first component of `_log_histogram()`; policy_logger.py:33-36 -/
def Log.histogram (log : Log) : List (Int × Nat) := (log.suggestions.map iabs).foldl (fun c x => bump x c) []

end Verif.Sat
