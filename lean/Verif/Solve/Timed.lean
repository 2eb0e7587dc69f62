import Verif.Solve.Model
/-
The timers of a DependencySolver: simplesat/utils/timed_context.py, and `solve` with the three `with` statements of
dependency_solver.py:397-405. The clock (`default_timer`) is a sequence of readings.
-/
namespace Verif.Solve
open Verif Verif.Pkg Verif.Rules

/-- The attribute `elapsed`: None, NaN or a number (the type of times is that of integers here: nothing but subtraction and
order is used); timed_context.py:11, 18 -/
inductive Elapsed where
  | none
  | nan
  | num (t : Int)
deriving DecidableEq

/-- A timed_context. `start` is missing before it is entered; timed_context.py:9-15 -/
structure Timer where
  description : String
  start : Option Int
  elapsed : Elapsed
deriving DecidableEq

/-- `timed_context(description)`; timed_context.py:9-11 -/
def Timer.new (description : String) : Timer := ⟨description, none, .nan⟩

/-- `__enter__`, when the clock reads `t`; timed_context.py:13-15 -/
def Timer.enter (x : Timer) (t : Int) : Timer := { x with start := some t }

/-- `__exit__`, when the clock reads `t`. (A timer that was not entered raises AttributeError, which cannot happen in a
`with` statement; it is left as it is here.) timed_context.py:17-18 -/
def Timer.exit (x : Timer) (t : Int) : Timer :=
  match x.start with
  | some s => { x with elapsed := .num (t - s) }
  | none => x

/-- `str(timer)`, where `fmt` formats a number or NaN; timed_context.py:20-23 -/
def Timer.str (fmt : Elapsed → String) (x : Timer) : String :=
  if x.elapsed = .none then "Context " ++ x.description ++ " has not been run"
  else "ELAPSED : " ++ x.description ++ " : " ++ fmt x.elapsed

/-- `with timer: result = body`: `__exit__` is called also if the body raises, and returns None, so that the exception
goes on; timed_context.py:13-18 -/
def Timer.within {ε α : Type} (x : Timer) (before after : Int) (body : Except ε α) : Except ε α × Timer :=
  (body, (x.enter before).exit after)

/-- `_last_rules_time`, `_last_solver_init_time`, `_last_solve_time`; dependency_solver.py:366-368 -/
structure Timers where
  rules : Timer
  init : Timer
  solve : Timer
deriving DecidableEq

/-- The timers of a new solver; dependency_solver.py:366-368 -/
def Timers.new : Timers := ⟨.new "Generate Rules", .new "Solver Init", .new "SAT Solve"⟩

variable {N S U : Type} [LinearOrder N] [DecidableEq S] [LinearOrder U] [Syntax S U]

/-- `solve(request)` with its timers; the clock readings of a call are numbered in the order in which they can be made:
`clock 0` and `clock 1` are those of the first `with`, and so on. (Those of "Find Requirements", minisat.py:60, are made in
between and are not used here.) dependency_solver.py:373-419 -/
def DependencySolver.solveTimed (s : DependencySolver N S U) (o : Orders) (q : Request N U) (clock : Nat → Int)
    (t : Timers) : Except (SErr N U) (Transaction N S U) × Timers :=
  let q := convertUpgrade q s.remote s.installed
  let pool := s.solvePool q
  let r := t.rules.within (clock 0) (clock 1) (createRules s o pool q)
  let t := { t with rules := r.2 }
  match r.1 with
  | .error e => (liftP (.error e), t)
  | .ok st =>
    let G := st.gen.rules.map Rule.literals
    let reqs := st.requirementIds.map (fun (i : Nat) => (i : Int))
    let r := t.init.within (clock 2) (clock 3) (Sat.Solver.fromRules G)
    let t := { t with init := r.2 }
    match r.1 with
    | .error e => (liftS (.error e), t)
    | .ok sat =>
      let r := t.solve.within (clock 4) (clock 5) (sat.search (Sat.packagePolicy (idVersion pool) o.policy)
        (searchFuel G st.prefer reqs) (Sat.PolState.start st.prefer reqs))
      let t := { t with solve := r.2 }
      match r.1 with
      | .error (e, _) => (liftS (.error e), t)
      | .ok (_, a) => (liftP (finish s o pool st.requirementIds a), t)

/-- calls of `solve` one after the other, each with its clock readings: the timers afterwards -/
def DependencySolver.solvesTimed (s : DependencySolver N S U) :
    List (Orders × Request N U × (Nat → Int)) → Timers → Timers
  | [], t => t
  | (o, q, clock) :: calls, t => s.solvesTimed calls (s.solveTimed o q clock t).2

end Verif.Solve
