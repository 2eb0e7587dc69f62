import Verif.Sat.Model
import Mathlib.Order.Defs.LinearOrder
/-
Model of simplesat/sat/policy/*.py.
-/
namespace Verif.Sat
open Verif

/-- `DefaultPolicy.get_next_package_id`: the first undecided variable in the order of
`AssignmentSet.items()`; `next()` on an exhausted generator is StopIteration. policy/policy.py:40-47. -/
def defaultPolicy : Policy Unit where
  next _ a _ := match a.items.find? (fun kv => kv.2.isNone) with
    | some (k, _) => .ok ((), a, k)
    | none => .error .stopIteration

/-- Fields of UndeterminedClausePolicy; policy/undetermined_clause_policy.py:17-31.
`prefer` is `_prefer_installed_pkg_ids`. The three sets are duplicate-free lists; `tick` counts the calls, so that the
iteration order of Python sets (see `bestCandidate`) may change from call to call. -/
structure PolState where
  prefer : List Int
  requirements : List Int
  decisionSet : List Int
  allIds : List Int
  tick : Nat

/-- `max(ids, key=version)` once the first element is known: the first maximal element in iteration order.
`ver` is `pkg_id_to_version(pool, ·)`, `none` being the KeyError of an unknown id; policy/policy.py:6-7. -/
def maxByFrom {V : Type} [LinearOrder V] (ver : Int → Option V) : List Int → Int × V → Except Err Int
  | [], b => .ok b.1
  | x :: xs, b => match ver x with
    | none => .error .keyError
    | some v => if b.2 < v then maxByFrom ver xs (x, v) else maxByFrom ver xs b

/-- `max(ids, key=version)`, `None` for an empty set; undetermined_clause_policy.py:80-83. -/
def maxBy {V : Type} [LinearOrder V] (ver : Int → Option V) : List Int → Except Err (Option Int)
  | [] => .ok none
  | x :: xs => match ver x with
    | none => .error .keyError
    | some v => (maxByFrom ver xs (x, v)).map some

/-- `_without_assigned`; undetermined_clause_policy.py:66-67. -/
def withoutAssigned (ids : List Int) (a : ASet) : List Int := ids.filter (fun p => decide (p ∉ a.assigned))

/-- `_best_sorted_candidate`; undetermined_clause_policy.py:69-72. -/
def bestSorted (ids : List Int) (a : ASet) : Option Int := ids.find? (fun p => decide (p ∉ a.assigned))

/-- `_best_candidate` without its `update` side effect; undetermined_clause_policy.py:74-83. `order` gives the
iteration order of the set of candidates. -/
def bestCandidate {V : Type} [LinearOrder V] (ver : Int → Option V) (order : List Int → List Int)
    (ids : List Int) (a : ASet) : Except Err (Option Int) :=
  maxBy ver (order (withoutAssigned ids a))

/-- `_refresh_decision_set`; undetermined_clause_policy.py:85-102. -/
def refresh (st : PolState) (a : ASet) (cs : List Clause) : PolState × ASet :=
  let a := a.consumeChangelog.1
  let allIds := supdate st.prefer (fromkeys (cs.flatMap (fun c => c.lits.map iabs)))
  let unsat := cs.filter (fun c => !(c.lits.any (fun l => decide (a.value l = some true))))
  let dec := fromkeys (unsat.flatMap (fun c => c.lits.map iabs))
  ({ st with
    allIds := allIds
    decisionSet := dec.filter (fun p => decide (p ∉ a.assigned)) }, a)

/-- The final check of `get_next_package_id`; undetermined_clause_policy.py:61-64. If no candidate was found
`None` is returned and the solver's `enqueue` raises TypeError on `abs(None)` (minisat.py:414); the model raises it
here. -/
def checkChoice (st : PolState) (a : ASet) : Option Int → Except Err (PolState × ASet × Int)
  | none => .error .typeError
  | some p => if a.value p = none then .ok (st, a, p) else .error .assertion

/-- The last two attempts, after a refresh; undetermined_clause_policy.py:54-59. -/
def pickAfterRefresh {V : Type} [LinearOrder V] (ver : Int → Option V) (order : List Int → List Int)
    (st : PolState) (a : ASet) : Except Err (PolState × ASet × Int) :=
  match bestCandidate ver order st.decisionSet a with
  | .error e => .error e
  | .ok (some p) => checkChoice st a (some p)
  | .ok none =>
    match bestCandidate ver order st.allIds a with
    | .error e => .error e
    | .ok c => checkChoice st a c

/-- The sequence of attempts; undetermined_clause_policy.py:42-59. -/
def pick {V : Type} [LinearOrder V] (ver : Int → Option V) (order : List Int → List Int)
    (st : PolState) (a : ASet) (cs : List Clause) : Except Err (PolState × ASet × Int) :=
  match bestSorted st.prefer a with
  | some p => checkChoice st a (some p)
  | none =>
    match bestCandidate ver order st.requirements a with
    | .error e => .error e
    | .ok (some p) => checkChoice st a (some p)
    | .ok none =>
      match bestCandidate ver order st.decisionSet a with
      | .error e => .error e
      | .ok (some p) => checkChoice { st with decisionSet := withoutAssigned st.decisionSet a } a (some p)
      | .ok none =>
        let r := refresh { st with decisionSet := withoutAssigned st.decisionSet a } a cs
        pickAfterRefresh ver order r.1 r.2

/-- `UndeterminedClausePolicy.get_next_package_id`; undetermined_clause_policy.py:36-64. -/
def nextPackage {V : Type} [LinearOrder V] (ver : Int → Option V) (order : Nat → List Int → List Int)
    (st : PolState) (a : ASet) (cs : List Clause) : Except Err (PolState × ASet × Int) :=
  let r := if a.newKeys ≠ [] then refresh st a cs else (st, a)
  pick ver (order st.tick) { r.1 with tick := st.tick + 1 } r.2 cs

/-- `PolicyLogger.get_next_package_id` around it: the package policy used by DependencySolver
(`InstalledFirstPolicy`); policy/policy_logger.py:21-26. Only the effects on the assignment set and on the wrapped
policy are modelled, not the logs. -/
def packagePolicy {V : Type} [LinearOrder V] (ver : Int → Option V) (order : Nat → List Int → List Int) :
    Policy PolState where
  next st a cs :=
    match nextPackage ver order st a.getChangelog.1 cs with
    | .error e => .error e
    | .ok (st, a, p) => .ok (st, a.consumeChangelog.1, p)

/-- `UndeterminedClausePolicy.__init__` followed by `add_requirements`; undetermined_clause_policy.py:17-34.
`prefer` must be given already sorted by version. -/
def PolState.start (prefer requirements : List Int) : PolState :=
  { prefer := prefer
    requirements := fromkeys requirements
    decisionSet := []
    allIds := []
    tick := 0 }

end Verif.Sat
