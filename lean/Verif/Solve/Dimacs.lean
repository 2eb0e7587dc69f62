import Verif.Solve.Model
import Verif.Solve.Unsat
/-
Model of scripts/scenario_to_dimacs.py: a request is turned into a SAT problem in the DIMACS format for an external solver,
and the answer of that solver into a transaction.

Texts are lists of characters; the texts of names and of versions are parameters. The command line, the subprocess and the
printing of `main` are not modelled.
-/
namespace Verif.Solve
open Verif Verif.Pkg Verif.Graph Verif.Rules

variable {N S U : Type} [LinearOrder N] [DecidableEq S] [LinearOrder U] [Syntax S U]

/-- `str(i)` -/
def intText (i : Int) : List Char := (toString i).toList

/-- `' '.join([str(l) for l in c.lits] + ["0"])`; scenario_to_dimacs.py:26-27 -/
def dimacsClause (lits : List Int) : List Char := joinWith [' '] (lits.map intText ++ [['0']])

/-- `clauses_to_dimacs(clauses)`; scenario_to_dimacs.py:21-28. The clauses are given by their literals. The number of
variables is the number of different ids. -/
def clausesToDimacs (clauses : List (List Int)) : List (List Char) :=
  let allIds := fromkeys (clauses.flatMap (fun c => c.map iabs))
  ("p cnf ".toList ++ intText allIds.length ++ ' ' :: intText clauses.length) :: clauses.map dimacsClause

/-! `json.dumps`, with its default `ensure_ascii=True` -/

/-- `"\\u{0:04x}".format(n)`, json/encoder.py (Python's library) -/
def jsonHex (n : Nat) : List Char :=
  '\\' :: 'u' :: [(n / 4096 % 16).digitChar, (n / 256 % 16).digitChar, (n / 16 % 16).digitChar, (n % 16).digitChar]

/-- one character of a JSON string, json/encoder.py (Python's library) -/
def jsonChar (c : Char) : List Char :=
  if c = '"' then ['\\', '"']
  else if c = '\\' then ['\\', '\\']
  else if c = '\n' then ['\\', 'n']
  else if c = '\r' then ['\\', 'r']
  else if c = '\t' then ['\\', 't']
  else if c = '\x0c' then ['\\', 'f']
  else if c = '\x08' then ['\\', 'b']
  else if 32 ≤ c.toNat ∧ c.toNat ≤ 126 then [c]
  else if c.toNat < 65536 then jsonHex c.toNat
  else jsonHex (55296 + (c.toNat - 65536) / 1024) ++ jsonHex (56320 + (c.toNat - 65536) % 1024)

/-- a JSON string -/
def jsonString (s : List Char) : List Char := '"' :: (s.flatMap jsonChar ++ ['"'])

/-- one item of the dictionary: the id, as a string, and "name version"; scenario_to_dimacs.py:52-55 -/
def dimacsKeyItem (T : Texts N U) (e : Nat × Package N S U) : List Char :=
  jsonString (intText e.1) ++ ':' :: ' ' :: jsonString (T.name e.2.name ++ ' ' :: T.version e.2.version)

/-- `to_dimacs(pool, clauses)`; scenario_to_dimacs.py:48-57 -/
def toDimacs (T : Texts N U) (pool : Pool N S U) (clauses : List (List Int)) : List (List Char) :=
  "c KEY".toList :: ("c {".toList ++ joinWith [',', ' '] (pool.idToPackage.map (dimacsKeyItem T)) ++ ['}']) ::
    clausesToDimacs clauses

/-- What is given to the external solver: `'\n'.join(to_dimacs(pool, solver.clauses))`; scenario_to_dimacs.py:97 -/
def dimacsText (T : Texts N U) (pool : Pool N S U) (clauses : List (List Int)) : List Char :=
  joinWith ['\n'] (toDimacs T pool clauses)

/-- The clauses of a SAT solver, `[c.lits for c in solver.clauses]` -/
def clauseLists (sv : Sat.Solver) : List (List Int) := sv.clauses.map sv.litsOf

/-- The SAT solver that `solve` makes for a request, and the requirement ids; dependency_solver.py:392-403. The pool is then
`s.solvePool q`. -/
def DependencySolver.satSolver (s : DependencySolver N S U) (o : Orders) (q : Request N U) :
    Except (SErr N U) (Sat.Solver × List Nat) :=
  match createRules s o (s.solvePool q) (convertUpgrade q s.remote s.installed) with
  | .error e => .error (.pkg e)
  | .ok st => match Sat.Solver.fromRules (st.gen.rules.map Rule.literals) with
    | .error e => .error (.sat e)
    | .ok sv => .ok (sv, st.requirementIds)

/-- `initialize(request, remote_repositories, installed_repository)`; scenario_to_dimacs.py:31-45. The pool is made, and the
policy (undetermined_clause_policy.py:18-36). Then `DependencySolver` is called with a keyword argument `policy`, which it does
not have (dependency_solver.py:355-356): TypeError. -/
def dimacsInitialize (remote : List (Repository N S U)) (installed : Repository N S U) :
    Except PErr (Pool N S U × Sat.Solver × List Nat) :=
  match Pool.addRepositories (remote ++ [installed]) (Pool.empty none) with
  | (_, some e) => .error e
  | (pool, none) => match mapE pool.packageId installed.iter with
    | .error e => .error e
    | .ok _ => .error .typeError

/-- `from_dimacs_solution(pool, installed_repository, requirement_ids, solution_ids)`; scenario_to_dimacs.py:60-71. The set
`solution_ids` is given as a list, in the order of its iteration. -/
def fromDimacsSolution (o : Orders) (pool : Pool N S U) (installed : Repository N S U) (requirementIds : List Nat)
    (solution : List Int) : Except PErr (Transaction N S U) := do
  let ids ← mapE pool.packageId installed.iter
  let installedMap := o.installed (fromkeys ids)
  let decisions ← connectedPackages o pool solution (supdate installedMap requirementIds)
  mkTransaction pool decisions installedMap

end Verif.Solve
