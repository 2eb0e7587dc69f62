import Verif.Solve.Model
/-
Several calls of `solve` at the same time (threads, or a call from within another one) with one pool: model of the order in which
dependency_solver.py:373-419 writes and reads `pool.modifiers`. Everything else in the pool is only read by `solve`.

Simplification: a thread is interrupted only between the phases of `solve`: the assignment to `pool.modifiers`, the generation of the
rules, the search, and pruning with the construction of the transaction. (Within a phase a switch could only be observed through
`pool.modifiers` as well.)
-/
namespace Verif.Solve
open Verif Verif.Pkg Verif.Rules

variable {N S U : Type} [LinearOrder N] [DecidableEq S] [LinearOrder U] [Syntax S U]

/-- How far a call of `solve` has come -/
inductive Stage (N S U : Type) where
  /-- before dependency_solver.py:391 -/
  | start
  /-- after dependency_solver.py:396 -/
  | ready
  /-- after dependency_solver.py:401, with what `_create_rules_and_initialize_policy` returned -/
  | ruled (st : Setup N S U)
  /-- after dependency_solver.py:405, with the solution -/
  | searched (st : Setup N S U) (a : ASet)
  /-- the call has returned or raised -/
  | done (r : Except (SErr N U) (Transaction N S U))

/-- A call of `solve` by a thread -/
structure SolveCall (N S U : Type) where
  solver : DependencySolver N S U
  orders : Orders
  request : Request N U

/-- the request after `_convert_upgrade_request_if_needed`; dependency_solver.py:391-393 -/
def SolveCall.converted (c : SolveCall N S U) : Request N U := convertUpgrade c.request c.solver.remote c.solver.installed

/-- what the call writes into the pool; dependency_solver.py:395-396 -/
def SolveCall.modifiers (c : SolveCall N S U) : Option (Modifiers N) := activeModifiers c.converted.modifiers

/-- the pool with the modifiers that are in it now -/
def SolveCall.pool (c : SolveCall N S U) (m : Option (Modifiers N)) : Pool N S U :=
  { c.solver.pool with
    modifiers := m }

/-- One phase of a call, when `m` is in `pool.modifiers`; dependency_solver.py:391-419 -/
def SolveCall.step (c : SolveCall N S U) (m : Option (Modifiers N)) : Stage N S U → Option (Modifiers N) × Stage N S U
  | .start => (c.modifiers, .ready)
  | .ready => (m, match createRules c.solver c.orders (c.pool m) c.converted with
    | .error e => .done (.error (.pkg e))
    | .ok st => .ruled st)
  | .ruled st => (m, match search c.orders (c.pool m) st with
    | .error e => .done (.error (.sat e))
    | .ok a => .searched st a)
  | .searched st a => (m, .done (liftP (finish c.solver c.orders (c.pool m) st.requirementIds a)))
  | .done r => (m, .done r)

/-- `pool.modifiers`, and how far each call is -/
structure SharedWorld (N S U : Type) where
  modifiers : Option (Modifiers N)
  stage : Nat → Stage N S U

/-- Nobody has begun -/
def SharedWorld.start (m : Option (Modifiers N)) : SharedWorld N S U := ⟨m, fun _ => .start⟩

/-- Thread `i` runs up to its next switch -/
def SharedWorld.step (calls : Nat → SolveCall N S U) (w : SharedWorld N S U) (i : Nat) : SharedWorld N S U :=
  let r := (calls i).step w.modifiers (w.stage i)
  ⟨r.1, fset w.stage i r.2⟩

/-- The threads run in the order of the schedule -/
def SharedWorld.run (calls : Nat → SolveCall N S U) (w : SharedWorld N S U) (schedule : List Nat) : SharedWorld N S U := schedule.foldl (SharedWorld.step calls) w

end Verif.Solve
