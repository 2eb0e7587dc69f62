/-
Model of `minimal_unsatisfiable_subset`, simplesat/dependency_solver.py:228-306.
-/
namespace Verif.Solve

/-- Outcome of a call that does not return. `cb e`: the callback raised `e`. -/
inductive MusErr (ε : Type) where
  | unexpectedlySatisfiable
  | cb (e : ε)
  | outOfFuel
deriving DecidableEq

variable {α ε : Type}

/-- `split(s)`; dependency_solver.py:272-278. -/
def split (s : List α) : List α × List α := (s.take (s.length / 2), s.drop (s.length / 2))

/-- `minimal_unsat(clauses, include)`; dependency_solver.py:280-304. The fuel bounds the depth of the recursion. -/
def minimalUnsat (callback : List α → Except ε Bool) : Nat → List α → List α → Except (MusErr ε) (List α)
  | 0, _, _ => .error .outOfFuel
  | fuel + 1, clauses, incl =>
    if clauses.length = 1 then .ok clauses
    else
      let A := (split clauses).1
      let B := (split clauses).2
      match callback (A ++ incl) with
      | .error e => .error (.cb e)
      | .ok false => minimalUnsat callback fuel A incl
      | .ok true =>
        match callback (B ++ incl) with
        | .error e => .error (.cb e)
        | .ok false => minimalUnsat callback fuel B incl
        | .ok true =>
          match minimalUnsat callback fuel A (B ++ incl) with
          | .error e => .error e
          | .ok astar =>
            match minimalUnsat callback fuel B (astar ++ incl) with
            | .error e => .error e
            | .ok bstar => .ok (astar ++ bstar)

/-- `minimal_unsatisfiable_subset(clauses, callback)`; dependency_solver.py:228-306. A call on n clauses recurses to
depth at most n (each half of a list of two or more elements is shorter). -/
def minimalUnsatisfiableSubset (callback : List α → Except ε Bool) (fuel : Nat) (clauses : List α) :
    Except (MusErr ε) (List α) :=
  match callback clauses with
  | .error e => .error (.cb e)
  | .ok true => .error .unexpectedlySatisfiable
  | .ok false => minimalUnsat callback fuel clauses []

end Verif.Solve
