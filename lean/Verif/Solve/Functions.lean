import Verif.Solve.Model
import Mathlib.Data.Prod.Lex
/-
Model of the functions of simplesat/dependency_solver.py that work on a list of packages and a list of requirements.

`sorted(..., key=lambda p: p._key)` compares constraint tuples, which are tuples of tuples of strings. Their order is a
parameter: `rank` embeds lists of constraint tuples into some linear order.
-/
namespace Verif.Solve
open Verif Verif.Pkg Verif.Graph Verif.Rules

variable {N S U K : Type} [LinearOrder N] [DecidableEq S] [LinearOrder U] [Syntax S U] [LinearOrder K]

/-- `Pool(repositories, modifiers=modifiers)`, which may raise; pool.py:24-37 -/
def mkPool (rs : List (Repository N S U)) (m : Option (Modifiers N)) : Except PErr (Pool N S U) :=
  match Pool.addRepositories rs (Pool.empty m) with
  | (pool, none) => .ok pool
  | (_, some e) => .error e

/-- `requirements_from_packages(packages)`; dependency_solver.py:22-38. The requirement parsed from the text "name-version"
is taken to be `Requirement.exactly` (`Solve/Named.lean` parses it). -/
def requirementsFromPackages (ps : List (Package N S U)) : List (Requirement N U) :=
  ps.map (fun p => Requirement.exactly .install p.name p.version)

/-- `listed_packages.update(packages)`: of equal packages a set keeps the first one; dependency_solver.py:64 -/
def addNew (acc ps : List (Package N S U)) : List (Package N S U) :=
  ps.foldl (fun acc p => if acc.any (fun q => p.same q) then acc else acc ++ [p]) acc

/-- The loop over the requirements; dependency_solver.py:62-64 -/
def listProviders (pool : Pool N S U) : List (Requirement N U) → List (Package N S U) →
    Except PErr (List (Package N S U))
  | [], acc => .ok acc
  | r :: rs, acc => match pool.whatProvides r true with
    | .error e => .error e
    | .ok ps => listProviders pool rs (addNew acc ps)

/-- The keys of the packages can be compared: a RepositoryInfo has no order, so the keys of two packages that differ only
in their repository cannot be compared; nor can the key of a PackageMetadata, whose first component is a string, be compared
with the key of a RepositoryPackageMetadata, whose first component is a tuple; package.py:112, 169. -/
def comparable (l : List (Package N S U)) : Bool :=
  l.all (fun p => l.all (fun q => decide (p.repo.isSome = q.repo.isSome ∧
    (p.name = q.name ∧ p.version = q.version ∧ p.installRequires = q.installRequires ∧ p.conflicts = q.conflicts →
      p.repo = q.repo))))

/-- The order of the keys of packages that can be compared; package.py:112 -/
def sortKey (rank : List (CTuple N S) → K) (p : Package N S U) : N ×ₗ (Version U ×ₗ (K ×ₗ K)) :=
  toLex (p.name, toLex (p.version, toLex (rank p.installRequires, rank p.conflicts)))

/-- `packages_from_requirements(packages, requirements, modifiers)`; dependency_solver.py:41-65. If some of the keys cannot
be compared, then sorting compares two of those (two that are next to each other in the result must be compared) and raises
TypeError. The keys are different, so the order in which the set is iterated does not matter. -/
def packagesFromRequirements (rank : List (CTuple N S) → K) (ps : List (Package N S U)) (reqs : List (Requirement N U))
    (m : Option (Modifiers N)) : Except PErr (List (Package N S U)) :=
  match mkPool [Repository.ofList ps] m with
  | .error e => .error e
  | .ok pool => match listProviders pool reqs [] with
    | .error e => .error e
    | .ok l => if comparable l then .ok (sortBy (sortKey rank) l) else .error .typeError

/-- `for requirement in requirements: request.install(requirement)`; dependency_solver.py:141-142, 179-180 -/
def installAll : List (Requirement N U) → Request N U → Except PErr (Request N U)
  | [], q => .ok q
  | r :: rs, q => match q.addJob (some r) .install with
    | .error e => .error e
    | .ok q => installAll rs q

/-- `DependencySolver(pool, repositories, [])`; dependency_solver.py:147, 183. (The installed repository is an empty list,
of which only iteration and membership are used: an empty repository.) -/
def freshSolver (rs : List (Repository N S U)) (pool : Pool N S U) : DependencySolver N S U :=
  { pool := pool
    remote := rs
    installed := Repository.ofList []
    usePruning := true
    strict := false }

/-- `requirements_are_satisfiable(packages, requirements, modifiers)`: the field `is_satisfiable` of the result; the message
is not modelled; dependency_solver.py:120-152. (The result is a pair, so as a condition it is always true.) -/
def requirementsAreSatisfiable (o : Orders) (ps : List (Package N S U)) (reqs : List (Requirement N U))
    (m : Option (Modifiers N)) : Except (SErr N U) Bool :=
  let m := m.getD Modifiers.empty
  match installAll reqs ⟨m, []⟩ with
  | .error e => .error (.pkg e)
  | .ok q => match mkPool [Repository.ofList ps] (some m) with
    | .error e => .error (.pkg e)
    | .ok pool => match (freshSolver [Repository.ofList ps] pool).solve o q with
      | .ok _ => .ok true
      | .error (.sat (.satisfiability _)) => .ok false
      | .error e => .error e

/-- `packages_are_consistent(packages, modifiers)`; dependency_solver.py:68-91 -/
def packagesAreConsistent (o : Orders) (ps : List (Package N S U)) (m : Option (Modifiers N)) : Except (SErr N U) Bool :=
  requirementsAreSatisfiable o ps (requirementsFromPackages ps) m

/-- `requirements_are_complete(packages, requirements, modifiers)`; dependency_solver.py:94-117 -/
def requirementsAreComplete (rank : List (CTuple N S) → K) (o : Orders) (ps : List (Package N S U))
    (reqs : List (Requirement N U)) (m : Option (Modifiers N)) : Except (SErr N U) Bool :=
  match packagesFromRequirements rank ps reqs m with
  | .error e => .error (.pkg e)
  | .ok ps' => requirementsAreSatisfiable o ps' reqs m

/-- the packages of the operations, all of which must be installs; dependency_solver.py:188-193 -/
def installedPackages : List (Op N S U) → Except PErr (List (Package N S U))
  | [] => .ok []
  | .install p :: ops => match installedPackages ops with
    | .error e => .error e
    | .ok ps => .ok (p :: ps)
  | _ :: _ => .error .assertion

/-- `satisfy_requirements(packages, requirements, modifiers)`; dependency_solver.py:155-193. Without modifiers the validator
of Request raises TypeError, for None is not a ConstraintModifiers; request.py:64-65. -/
def satisfyRequirements (o : Orders) (ps : List (Package N S U)) (reqs : List (Requirement N U))
    (m : Option (Modifiers N)) : Except (SErr N U) (List (Package N S U)) :=
  match m with
  | none => .error (.pkg .typeError)
  | some m => match installAll reqs ⟨m, []⟩ with
    | .error e => .error (.pkg e)
    | .ok q => match mkPool [Repository.ofList ps] (some m) with
      | .error e => .error (.pkg e)
      | .ok pool => match (freshSolver [Repository.ofList ps] pool).solve o q with
        | .error e => .error e
        | .ok t => liftP (installedPackages t.operations)

/-- the packages that meet a dependency of one of the packages, the argument of `chain.from_iterable`;
dependency_solver.py:214-218 -/
def dependencyCandidates (pool : Pool N S U) : List (CTuple N S) → Except PErr (List (Package N S U))
  | [] => .ok []
  | t :: ts => match fromConstraints .install t with
    | .error e => .error e
    | .ok r => match pool.whatProvides r true with
      | .error e => .error e
      | .ok ps => match dependencyCandidates pool ts with
        | .error e => .error e
        | .ok qs => .ok (ps ++ qs)

/-- `simplify_requirements(packages, requirements)`; dependency_solver.py:196-225 -/
def simplifyRequirements (rank : List (CTuple N S) → K) (ps : List (Package N S U)) (reqs : List (Requirement N U)) :
    Except PErr (List (Requirement N U)) :=
  match packagesFromRequirements rank ps reqs none with
  | .error e => .error e
  | .ok needed => match mkPool [Repository.ofList ps] none with
    | .error e => .error e
    | .ok pool => match dependencyCandidates pool (needed.flatMap Package.installRequires) with
      | .error e => .error e
      | .ok deps => .ok (requirementsFromPackages (needed.filter (fun p => !(deps.any (fun q => p.same q)))))

end Verif.Solve
