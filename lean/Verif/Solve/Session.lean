import Verif.Solve.Model
/-
A session: a sequence of calls on one DependencySolver and the objects it holds (its pool, the list of remote
repositories, the installed repository and the two flags are all kept by reference and may be changed by the user between
the calls; dependency_solver.py:355-371).
-/
namespace Verif.Solve
open Verif Verif.Pkg

variable {N S U : Type} [LinearOrder N] [DecidableEq S] [LinearOrder U] [Syntax S U]

/-! ### The methods with their effect on the solver

`DependencySolver.solve` of the model is a function of the state of the solver. Here the state that it leaves behind is
part of the result, and `solve_with_hint` runs its callbacks one after the other on the same solver. -/

/-- `solve(request)` with its effect: the modifiers of the pool are written (dependency_solver.py:395-396) before anything
can fail, and nothing else is. -/
def DependencySolver.solveEff (s : DependencySolver N S U) (o : Orders) (q : Request N U) :
    Except (SErr N U) (Transaction N S U) × DependencySolver N S U :=
  (s.solve o q,
    { s with
      pool := s.solvePool (convertUpgrade q s.remote s.installed) })

/-- the `callback` of `solve_with_hint`, with its effect; dependency_solver.py:452-460 -/
def hintCallbackEff (o : List (Job N U) → Orders) (m : Modifiers N) (jobs : List (Job N U))
    (s : DependencySolver N S U) : Except (SErr N U) Bool × DependencySolver N S U :=
  match s.solveEff (o jobs) ⟨m, jobs⟩ with
  | (.ok _, s') => (.ok true, s')
  | (.error (.sat (.satisfiability _)), s') => (.ok false, s')
  | (.error e, s') => (.error e, s')

/-- `minimal_unsat(clauses, include)` with a callback that has effects; dependency_solver.py:280-304 -/
def minimalUnsatEff {α ε σ : Type} (callback : List α → σ → Except ε Bool × σ) :
    Nat → List α → List α → σ → Except (MusErr ε) (List α) × σ
  | 0, _, _, s => (.error .outOfFuel, s)
  | fuel + 1, clauses, incl, s =>
    if clauses.length = 1 then (.ok clauses, s)
    else
      let A := (split clauses).1
      let B := (split clauses).2
      match callback (A ++ incl) s with
      | (.error e, s) => (.error (.cb e), s)
      | (.ok false, s) => minimalUnsatEff callback fuel A incl s
      | (.ok true, s) =>
        match callback (B ++ incl) s with
        | (.error e, s) => (.error (.cb e), s)
        | (.ok false, s) => minimalUnsatEff callback fuel B incl s
        | (.ok true, s) =>
          match minimalUnsatEff callback fuel A (B ++ incl) s with
          | (.error e, s) => (.error e, s)
          | (.ok astar, s) =>
            match minimalUnsatEff callback fuel B (astar ++ incl) s with
            | (.error e, s) => (.error e, s)
            | (.ok bstar, s) => (.ok (astar ++ bstar), s)

/-- `minimal_unsatisfiable_subset(clauses, callback)` with a callback that has effects; dependency_solver.py:228-306 -/
def minimalUnsatisfiableSubsetEff {α ε σ : Type} (callback : List α → σ → Except ε Bool × σ) (fuel : Nat)
    (clauses : List α) (s : σ) : Except (MusErr ε) (List α) × σ :=
  match callback clauses s with
  | (.error e, s) => (.error (.cb e), s)
  | (.ok true, s) => (.error .unexpectedlySatisfiable, s)
  | (.ok false, s) => minimalUnsatEff callback fuel clauses [] s

/-- `solve_with_hint(request)` with its effect; dependency_solver.py:421-463 -/
def DependencySolver.solveWithHintEff (s : DependencySolver N S U) (o : Orders) (o' : List (Job N U) → Orders)
    (q : Request N U) : Except (SErr N U) (Transaction N S U) × DependencySolver N S U :=
  match s.solveEff o q with
  | (.ok t, s) => (.ok t, s)
  | (.error (.sat (.satisfiability u)), s) =>
    let q' := convertUpgrade q s.remote s.installed
    match minimalUnsatisfiableSubsetEff (hintCallbackEff o' q'.modifiers) (q'.jobs.length + 1) q'.jobs s with
    | (.error .unexpectedlySatisfiable, s) => (.error .unexpectedlySatisfiable, s)
    | (.error (.cb e), s) => (.error e, s)
    | (.error .outOfFuel, s) => (.error (.pkg .outOfFuel), s)
    | (.ok jobs, s) => (.error (.hint u jobs), s)
  | (.error e, s) => (.error e, s)

/-! ### Sessions -/

/-- One call of the user. -/
inductive Event (N S U : Type) where
  /-- `solver.solve(request)` -/
  | solve (o : Orders) (q : Request N U)
  /-- `solver.solve_with_hint(request)` -/
  | solveWithHint (o : Orders) (o' : List (Job N U) → Orders) (q : Request N U)
  /-- `pool.add_repository(repository)` -/
  | addRepository (r : Repository N S U)
  /-- `pool.modifiers = modifiers` -/
  | setModifiers (m : Option (Modifiers N))
  /-- `remote_repositories.append(repository)` -/
  | addRemote (r : Repository N S U)
  /-- `installed_repository.add_package(package)` -/
  | addInstalled (p : Package N S U)
  /-- `solver.use_pruning = ...; solver.strict = ...` -/
  | setFlags (usePruning strict : Bool)

/-- Is this call one of the two that solve a request? -/
def Event.isSolve : Event N S U → Bool
  | .solve _ _ => true
  | .solveWithHint _ _ _ => true
  | _ => false

/-- What a call gives back. -/
inductive Answer (N S U : Type) where
  | none
  /-- the transaction, or the exception of `solve` and `solve_with_hint` -/
  | solved (r : Except (SErr N U) (Transaction N S U))
  /-- `add_repository` raised -/
  | raised (e : PErr)

/-- One call: the state it leaves behind, and its answer. `add_repository` that raises leaves a pool that is partly
filled (pool.py:39-59). -/
def Event.step (s : DependencySolver N S U) : Event N S U → DependencySolver N S U × Answer N S U
  | .solve o q => ((s.solveEff o q).2, .solved (s.solveEff o q).1)
  | .solveWithHint o o' q => ((s.solveWithHintEff o o' q).2, .solved (s.solveWithHintEff o o' q).1)
  | .addRepository r => match s.pool.addPackages r.iter with
    | (pool, none) => ({ s with pool := pool }, .none)
    | (pool, some e) => ({ s with pool := pool }, .raised e)
  | .setModifiers m =>
    ({ s with
       pool := { s.pool with modifiers := m } }, .none)
  | .addRemote r => ({ s with remote := s.remote ++ [r] }, .none)
  | .addInstalled p => ({ s with installed := s.installed.addPackage p }, .none)
  | .setFlags a b =>
    ({ s with
       usePruning := a
       strict := b }, .none)

/-- A sequence of calls: the state at the end, and the answers in order. -/
def runEvents : List (Event N S U) → DependencySolver N S U → DependencySolver N S U × List (Answer N S U)
  | [], s => (s, [])
  | e :: es, s =>
    let r := e.step s
    let r' := runEvents es r.1
    (r'.1, r.2 :: r'.2)

end Verif.Solve
