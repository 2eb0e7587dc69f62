import Verif.Rules.Named
import Verif.Solve.Compute
/-
The solver with the texts of names and versions. In five places the code writes the name of a package, or its name and its
version, into a string and parses it: rules_generator.py:367, transaction.py:163, dependency_solver.py:36-38 and 534-537,
compute_dependencies.py:77-78. `Solve/Model.lean`, `Solve/Functions.lean` and `Solve/Compute.lean` take the requirement to be
the one for that name and version; below the readers are arguments. `Verif/Solve/NamedLemmas.lean` shows that the two agree
if the readers read names and versions as they are; `Verif/Text/Readers.lean` has the readers of the code.
-/
namespace Verif.Solve
open Verif Verif.Pkg Verif.Graph Verif.Rules

variable {N S U K : Type} [LinearOrder N] [DecidableEq S] [LinearOrder U] [Syntax S U] [LinearOrder K]

/-- How names and versions are read. -/
structure Readers (N U : Type) where
  /-- `ConflictRequirement._from_string(name)`; rules_generator.py:367 -/
  conflict : Reader N U
  /-- `InstallRequirement._from_string(name)`; transaction.py:163 -/
  install : Reader N U
  /-- `InstallRequirement._from_string("{} == {}".format(name, version))`; dependency_solver.py:534-537 -/
  pinned : N → Version U → Except PErr (Requirement N U)
  /-- `InstallRequirement.from_package_string("{0.name}-{0.version}".format(package))`; dependency_solver.py:36-38,
  compute_dependencies.py:77-78 -/
  full : N → Version U → Except PErr (Requirement N U)

/-- the loop that adds the jobs of an upgrade; dependency_solver.py:533-538 -/
def pinnedJobs (read : Readers N U) (p : Package N S U) : Except PErr (Job N U) :=
  match read.pinned p.name p.version with
  | .error e => .error e
  | .ok r => .ok ⟨some r, .install⟩

/-- `_convert_upgrade_request_if_needed`; dependency_solver.py:514-540 -/
def convertUpgradeN (read : Readers N U) (q : Request N U) (remote : List (Repository N S U)) (installed : Repository N S U) :
    Except PErr (Request N U) :=
  match q.jobs with
  | [j] =>
    if j.kind = .upgrade then
      let merged : Repository N S U := remote.foldl (fun m r => m.update r.iter) Repository.empty
      let latest := installed.iter.filterMap (fun p => (merged.findPackages p.name).getLast?)
      match mapE (pinnedJobs read) latest with
      | .error e => .error e
      | .ok jobs => .ok { q with jobs := jobs }
    else .ok q
  | _ => .ok q

/-- `_create_rules_and_initialize_policy`; dependency_solver.py:465-511 -/
def createRulesN (read : Readers N U) (s : DependencySolver N S U) (o : Orders) (pool : Pool N S U) (q : Request N U) :
    Except PErr (Setup N S U) := do
  let (ids, soft) ← jobIds pool s.installed q.jobs [] []
  let d ← installedDict pool s.installed.iter []
  let prefer ← preferIds pool o.prefer s.installed.iter soft
  let gen ← iterRulesN read.conflict s.strict pool q.jobs d
  .ok { requirementIds := ids
        gen := gen
        prefer := prefer
        installedDict := d }

/-- `_find_other_providers`; transaction.py:159-166 -/
def findOtherProvidersN (read : Readers N U) (pool : Pool N S U) (k : PKey N S U) : Except PErr (List (Package N S U)) :=
  match read.install k.name with
  | .error e => .error e
  | .ok none => .ok []
  | .ok (some r) => match pool.whatProvides r with
    | .error e => .error e
    | .ok ps => .ok (ps.filter (fun p => decide (p.key ≠ k)))

/-- `for pkg in reversed(tuple(pkg_to_ops.keys()))`; transaction.py:92-95 -/
def absorbAllN (read : Readers N U) (pool : Pool N S U) : List (PKey N S U) → Dict (PKey N S U) (List (Op N S U)) →
    Except PErr (Dict (PKey N S U) (List (Op N S U)))
  | [], d => .ok d
  | k :: ks, d =>
    if k ∈ dkeys d then
      match findOtherProvidersN read pool k with
      | .error e => .error e
      | .ok us => absorbAllN read pool ks (absorb k us d)
    else absorbAllN read pool ks d

/-- `_as_pretty_operations`; transaction.py:89-98 -/
def prettyOperationsN (read : Readers N U) (pool : Pool N S U) (ops : List (Op N S U)) : Except PErr (List (Op N S U)) :=
  let d := dictOf (ops.map (fun o => (o.package.key, [o])))
  match absorbAllN read pool (dkeys d).reverse d with
  | .error e => .error e
  | .ok d => mapE mergeOperations (d.map Prod.snd)

/-- `Transaction(pool, decisions, installed_package_ids)`; transaction.py:31-39 -/
def mkTransactionN (read : Readers N U) (pool : Pool N S U) (decisions : List Int) (installed : List Nat) :
    Except PErr (Transaction N S U) :=
  match localPackages pool installed with
  | .error e => .error e
  | .ok loc =>
    match safeOperations pool decisions installed loc with
    | .error e => .error e
    | .ok ops => match prettyOperationsN read pool ops with
      | .error e => .error e
      | .ok pretty => .ok ⟨ops, pretty⟩

/-- The part of `solve` after the search; dependency_solver.py:406-419 -/
def finishN (read : Readers N U) (s : DependencySolver N S U) (o : Orders) (pool : Pool N S U) (requirementIds : List Nat)
    (a : ASet) : Except PErr (Transaction N S U) := do
  let solution := solutionToIds a
  let ids ← mapE pool.packageId s.installed.iter
  let installed := o.installed (fromkeys ids)
  let decisions ←
    if s.usePruning then connectedPackages o pool solution (supdate requirementIds installed)
    else .ok solution
  mkTransactionN read pool decisions installed

/-- `solve(request)`; dependency_solver.py:373-419 -/
def DependencySolver.solveN (s : DependencySolver N S U) (read : Readers N U) (o : Orders) (q : Request N U) :
    Except (SErr N U) (Transaction N S U) := do
  let q ← liftP (convertUpgradeN read q s.remote s.installed)
  let pool := s.solvePool q
  let st ← liftP (createRulesN read s o pool q)
  let a ← liftS (search o pool st)
  liftP (finishN read s o pool st.requirementIds a)

/-- the `callback` of `solve_with_hint`; dependency_solver.py:452-460 -/
def hintCallbackN (s : DependencySolver N S U) (read : Readers N U) (o : List (Job N U) → Orders) (m : Modifiers N)
    (jobs : List (Job N U)) : Except (SErr N U) Bool :=
  match s.solveN read (o jobs) ⟨m, jobs⟩ with
  | .ok _ => .ok true
  | .error (.sat (.satisfiability _)) => .ok false
  | .error e => .error e

/-- `solve_with_hint(request)`; dependency_solver.py:421-463 -/
def DependencySolver.solveWithHintN (s : DependencySolver N S U) (read : Readers N U) (o : Orders)
    (o' : List (Job N U) → Orders) (q : Request N U) : Except (SErr N U) (Transaction N S U) :=
  match s.solveN read o q with
  | .ok t => .ok t
  | .error (.sat (.satisfiability u)) =>
    match convertUpgradeN read q s.remote s.installed with
    | .error e => .error (.pkg e)
    | .ok q' =>
      match minimalUnsatisfiableSubset (hintCallbackN s read o' q'.modifiers) (q'.jobs.length + 1) q'.jobs with
      | .error .unexpectedlySatisfiable => .error .unexpectedlySatisfiable
      | .error (.cb e) => .error e
      | .error .outOfFuel => .error (.pkg .outOfFuel)
      | .ok jobs => .error (.hint u jobs)
  | .error e => .error e

/-- `requirements_from_packages(packages)`; dependency_solver.py:22-38 -/
def requirementsFromPackagesN (read : Readers N U) (ps : List (Package N S U)) : Except PErr (List (Requirement N U)) :=
  mapE (fun p => read.full p.name p.version) ps

/-- `requirements_are_satisfiable(packages, requirements, modifiers)`; dependency_solver.py:120-152 -/
def requirementsAreSatisfiableN (read : Readers N U) (o : Orders) (ps : List (Package N S U)) (reqs : List (Requirement N U))
    (m : Option (Modifiers N)) : Except (SErr N U) Bool :=
  let m := m.getD Modifiers.empty
  match installAll reqs ⟨m, []⟩ with
  | .error e => .error (.pkg e)
  | .ok q => match mkPool [Repository.ofList ps] (some m) with
    | .error e => .error (.pkg e)
    | .ok pool => match (freshSolver [Repository.ofList ps] pool).solveN read o q with
      | .ok _ => .ok true
      | .error (.sat (.satisfiability _)) => .ok false
      | .error e => .error e

/-- `packages_are_consistent(packages, modifiers)`; dependency_solver.py:68-91 -/
def packagesAreConsistentN (read : Readers N U) (o : Orders) (ps : List (Package N S U)) (m : Option (Modifiers N)) :
    Except (SErr N U) Bool :=
  match requirementsFromPackagesN read ps with
  | .error e => .error (.pkg e)
  | .ok reqs => requirementsAreSatisfiableN read o ps reqs m

/-- `requirements_are_complete(packages, requirements, modifiers)`; dependency_solver.py:94-117 -/
def requirementsAreCompleteN (read : Readers N U) (rank : List (CTuple N S) → K) (o : Orders) (ps : List (Package N S U))
    (reqs : List (Requirement N U)) (m : Option (Modifiers N)) : Except (SErr N U) Bool :=
  match packagesFromRequirements rank ps reqs m with
  | .error e => .error (.pkg e)
  | .ok ps' => requirementsAreSatisfiableN read o ps' reqs m

/-- `satisfy_requirements(packages, requirements, modifiers)`; dependency_solver.py:155-193 -/
def satisfyRequirementsN (read : Readers N U) (o : Orders) (ps : List (Package N S U)) (reqs : List (Requirement N U))
    (m : Option (Modifiers N)) : Except (SErr N U) (List (Package N S U)) :=
  match m with
  | none => .error (.pkg .typeError)
  | some m => match installAll reqs ⟨m, []⟩ with
    | .error e => .error (.pkg e)
    | .ok q => match mkPool [Repository.ofList ps] (some m) with
      | .error e => .error (.pkg e)
      | .ok pool => match (freshSolver [Repository.ofList ps] pool).solveN read o q with
        | .error e => .error e
        | .ok t => liftP (installedPackages t.operations)

/-- `simplify_requirements(packages, requirements)`; dependency_solver.py:196-225 -/
def simplifyRequirementsN (read : Readers N U) (rank : List (CTuple N S) → K) (ps : List (Package N S U))
    (reqs : List (Requirement N U)) : Except PErr (List (Requirement N U)) :=
  match packagesFromRequirements rank ps reqs none with
  | .error e => .error e
  | .ok needed => match mkPool [Repository.ofList ps] none with
    | .error e => .error e
    | .ok pool => match dependencyCandidates pool (needed.flatMap Package.installRequires) with
      | .error e => .error e
      | .ok deps => requirementsFromPackagesN read (needed.filter (fun p => !(deps.any (fun q => p.same q))))

/-- The loop of `compute_leaf_packages`; compute_dependencies.py:76-82 -/
def leafLoopN (read : Readers N U) (pool : Pool N S U) (rev : Adj Int) : List (PKey N S U) → List (PKey N S U) →
    Except PErr (List (PKey N S U))
  | [], acc => .ok acc
  | k :: ks, acc => match read.full k.name k.version with
    | .error e => .error e
    | .ok r => match neighborsForRequirement pool (defaultLookup rev) r with
      | .error e => .error e
      | .ok deps => leafLoopN read pool rev ks (if deps.isEmpty then acc ++ [k] else acc)

/-- `compute_leaf_packages(repositories)`; compute_dependencies.py:59-84 -/
def computeLeafPackagesN (read : Readers N U) (o : SetOrder) (rs : List (Repository N S U)) :
    Except PErr (List (PKey N S U)) :=
  match mkPool rs none with
  | .error e => .error e
  | .ok pool => match neighborsInRepositories o pool false with
    | .error e => .error e
    | .ok neighbors => leafLoopN read pool (reverseMapping neighbors) (dkeys pool.packageToId) []

end Verif.Solve
