import Verif.Solve.Functions
/-
The functions of simplesat/dependency_solver.py on packages and requirements, given as any Python iterable: a container
(list, tuple, Repository), which can be read again and again, or an iterator (a generator, `map`, `iter(...)`), which is
empty once it was read. Each definition reads its arguments where the code does, and returns what is left of them. (After
an exception the arguments are given as if they had been read, although the code may not have come to it.)
-/
namespace Verif.Solve
open Verif Verif.Pkg Verif.Graph Verif.Rules

variable {N S U K : Type} [LinearOrder N] [DecidableEq S] [LinearOrder U] [Syntax S U] [LinearOrder K]

/-- A Python iterable of `α`, with what it delivers. -/
inductive Iterable (α : Type) where
  | container (l : List α)
  | iterator (l : List α)

/-- what a first reader gets -/
def Iterable.toList {α : Type} : Iterable α → List α
  | .container l => l
  | .iterator l => l

/-- `for x in iterable`, to the end: what is delivered, and the iterable afterwards. (In
dependency_solver.py:37, 61, 63, 141, 143, 179, 181, 213. `packages or []` of repository.py:44 is `packages` for every
iterator and for every container that is not empty.) -/
def Iterable.read {α : Type} : Iterable α → List α × Iterable α
  | .container l => (l, .container l)
  | .iterator l => (l, .iterator [])

/-- The arguments after a call. -/
structure Left (N S U : Type) where
  packages : Iterable (Package N S U)
  requirements : Iterable (Requirement N U)

/-- `requirements_from_packages(packages)`: reads the packages, returns a tuple; dependency_solver.py:22-38 -/
def requirementsFromPackagesI (ps : Iterable (Package N S U)) : List (Requirement N U) × Iterable (Package N S U) :=
  let r := ps.read
  (requirementsFromPackages r.1, r.2)

/-- `packages_from_requirements(packages, requirements, modifiers)`: reads the packages for its repository (line 61) and
then the requirements (line 63); dependency_solver.py:41-65 -/
def packagesFromRequirementsI (rank : List (CTuple N S) → K) (ps : Iterable (Package N S U))
    (reqs : Iterable (Requirement N U)) (m : Option (Modifiers N)) :
    Except PErr (List (Package N S U)) × Left N S U :=
  let p := ps.read
  let r := reqs.read
  (packagesFromRequirements rank p.1 r.1 m, ⟨p.2, r.2⟩)

/-- `requirements_are_satisfiable(packages, requirements, modifiers)`: reads the requirements (line 141) and then the
packages (line 143); dependency_solver.py:120-152 -/
def requirementsAreSatisfiableI (o : Orders) (ps : Iterable (Package N S U)) (reqs : Iterable (Requirement N U))
    (m : Option (Modifiers N)) : Except (SErr N U) Bool × Left N S U :=
  let r := reqs.read
  let p := ps.read
  (requirementsAreSatisfiable o p.1 r.1 m, ⟨p.2, r.2⟩)

/-- `packages_are_consistent(packages, modifiers)`: gives the packages to `requirements_from_packages` and to
`requirements_are_satisfiable`; dependency_solver.py:68-91 -/
def packagesAreConsistentI (o : Orders) (ps : Iterable (Package N S U)) (m : Option (Modifiers N)) :
    Except (SErr N U) Bool × Iterable (Package N S U) :=
  let r := requirementsFromPackagesI ps
  let s := requirementsAreSatisfiableI o r.2 (.container r.1) m
  (s.1, s.2.packages)

/-- `requirements_are_complete(packages, requirements, modifiers)`: gives the requirements to
`packages_from_requirements` and to `requirements_are_satisfiable`, and to the latter the tuple that the former
returned; dependency_solver.py:94-117 -/
def requirementsAreCompleteI (rank : List (CTuple N S) → K) (o : Orders) (ps : Iterable (Package N S U))
    (reqs : Iterable (Requirement N U)) (m : Option (Modifiers N)) : Except (SErr N U) Bool × Left N S U :=
  let r := packagesFromRequirementsI rank ps reqs m
  match r.1 with
  | .error e => (.error (.pkg e), r.2)
  | .ok listed =>
    let s := requirementsAreSatisfiableI o (.container listed) r.2.requirements m
    (s.1, ⟨r.2.packages, s.2.requirements⟩)

/-- `satisfy_requirements(packages, requirements, modifiers)`: reads the requirements (line 179) and then the packages
(line 181), if the modifiers are accepted; dependency_solver.py:155-193 -/
def satisfyRequirementsI (o : Orders) (ps : Iterable (Package N S U)) (reqs : Iterable (Requirement N U))
    (m : Option (Modifiers N)) : Except (SErr N U) (List (Package N S U)) × Left N S U :=
  match m with
  | none => (.error (.pkg .typeError), ⟨ps, reqs⟩)
  | some m =>
    let r := reqs.read
    let p := ps.read
    (satisfyRequirements o p.1 r.1 (some m), ⟨p.2, r.2⟩)

/-- The second half of `simplify_requirements`: the packages are read again for the pool (line 213);
dependency_solver.py:213-225 -/
def simplifyNeeded (ps : List (Package N S U)) (needed : List (Package N S U)) : Except PErr (List (Requirement N U)) :=
  match mkPool [Repository.ofList ps] none with
  | .error e => .error e
  | .ok pool => match dependencyCandidates pool (needed.flatMap Package.installRequires) with
    | .error e => .error e
    | .ok deps => .ok (requirementsFromPackages (needed.filter (fun p => !(deps.any (fun q => p.same q)))))

/-- `simplify_requirements(packages, requirements)`; dependency_solver.py:196-225 -/
def simplifyRequirementsI (rank : List (CTuple N S) → K) (ps : Iterable (Package N S U))
    (reqs : Iterable (Requirement N U)) : Except PErr (List (Requirement N U)) × Left N S U :=
  let r := packagesFromRequirementsI rank ps reqs none
  match r.1 with
  | .error e => (.error e, r.2)
  | .ok needed =>
    let p := r.2.packages.read
    (simplifyNeeded p.1 needed, ⟨p.2, r.2.requirements⟩)

end Verif.Solve
