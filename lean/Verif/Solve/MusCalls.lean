import Verif.Solve.Session
/-
Calls of the callback of `minimal_unsatisfiable_subset` (simplesat/dependency_solver.py:228-306) are counted with the version of
`Solve/Session.lean`, in which the callback may have effects: here the effect is that its argument is noted.
-/
namespace Verif.Solve
open Verif Verif.Pkg Verif.Rules

section
variable {α ε : Type}

/-- a callback without effects, whose calls are counted -/
def logged (f : List α → Except ε Bool) : List α → List (List α) → Except ε Bool × List (List α) := fun l log => (f l, log ++ [l])

end

section
variable {N S U : Type} [LinearOrder N] [DecidableEq S] [LinearOrder U] [Syntax S U]

/-- `solve_with_hint(request)`, with the requests for which `solve` is called, in this order; dependency_solver.py:421-463 -/
def DependencySolver.solveWithHintCalls (s : DependencySolver N S U) (o : Orders) (o' : List (Job N U) → Orders)
    (q : Request N U) : Except (SErr N U) (Transaction N S U) × List (Request N U) :=
  match s.solve o q with
  | .ok t => (.ok t, [q])
  | .error (.sat (.satisfiability u)) =>
    let q' := convertUpgrade q s.remote s.installed
    let r := minimalUnsatisfiableSubsetEff (logged (hintCallback s o' q'.modifiers)) (q'.jobs.length + 1) q'.jobs []
    (match r.1 with
      | .error .unexpectedlySatisfiable => .error .unexpectedlySatisfiable
      | .error (.cb e) => .error e
      | .error .outOfFuel => .error (.pkg .outOfFuel)
      | .ok jobs => .error (.hint u jobs),
      q :: r.2.map (fun jobs => ⟨q'.modifiers, jobs⟩))
  | .error e => (.error e, [q])

end
end Verif.Solve
