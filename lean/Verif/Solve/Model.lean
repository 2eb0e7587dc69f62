import Verif.Solve.Transaction
import Verif.Solve.Mus
import Verif.Rules.Model
import Verif.Sat.PolicyModel
import Verif.Sat.Setup
/-
Model of class DependencySolver and of the functions around it, simplesat/dependency_solver.py.
The timing contexts and the text of messages are not modelled.
-/
namespace Verif.Solve
open Verif Verif.Pkg Verif.Graph Verif.Rules

variable {N S U : Type} [LinearOrder N] [DecidableEq S] [LinearOrder U] [Syntax S U]

/-- Exceptions of the top level: those of the package layer, those of the SAT solver, and SatisfiabilityErrorWithHint. -/
inductive SErr (N U : Type) where
  | pkg (e : PErr)
  | sat (e : Sat.Err)
  | hint (u : Sat.UnsatInfo) (jobs : List (Job N U))
  | unexpectedlySatisfiable

def liftP {α : Type} : Except PErr α → Except (SErr N U) α
  | .error e => .error (.pkg e)
  | .ok a => .ok a

def liftS {α : Type} : Except Sat.Err α → Except (SErr N U) α
  | .error e => .error (.sat e)
  | .ok a => .ok a

/-- The iteration orders of Python sets, which the program does not determine: any. -/
structure Orders where
  /-- candidates of `max` in the policy; it may change from call to call -/
  policy : Nat → List Int → List Int
  policyPerm : ∀ n l, (policy n l).Perm l
  /-- `set(installed_repository) - ignore_installed_packages`; undetermined_clause_policy.py:24-28 -/
  prefer : List Nat → List Nat
  preferPerm : ∀ l, (prefer l).Perm l
  /-- `installed_package_ids`; dependency_solver.py:408-411 -/
  installed : List Nat → List Nat
  installedPerm : ∀ l, (installed l).Perm l
  /-- `solution_root_ids`; dependency_solver.py:571 -/
  roots : List Int → List Int
  rootsPerm : ∀ l, (roots l).Perm l
  /-- `set.pop` in `connected_nodes` -/
  pop : PopOrder Int

/-- Fields of DependencySolver; dependency_solver.py:355-371. (`remote_repositories` that is a Repository is refused by
`__init__`; here it is a list of repositories.) -/
structure DependencySolver (N S U : Type) where
  pool : Pool N S U
  remote : List (Repository N S U)
  installed : Repository N S U
  usePruning : Bool
  strict : Bool

/-- `_convert_upgrade_request_if_needed`; dependency_solver.py:514-540. The requirement parsed from the text
"name == version" is taken to be `Requirement.exactly` (`Solve/Named.lean` parses it). -/
def convertUpgrade (q : Request N U) (remote : List (Repository N S U)) (installed : Repository N S U) : Request N U :=
  match q.jobs with
  | [j] =>
    if j.kind = .upgrade then
      let merged : Repository N S U := remote.foldl (fun m r => m.update r.iter) Repository.empty
      let latest := installed.iter.filterMap (fun p => (merged.findPackages p.name).getLast?)
      { q with
        jobs := latest.map (fun p => ⟨some (Requirement.exactly .install p.name p.version), .install⟩) }
    else q
  | _ => q

/-- The `key` of `_create_rules_and_initialize_policy`; dependency_solver.py:487-488 -/
def hardKey (installed : Repository N S U) (p : Package N S U) : Except PErr (Version U × Bool) :=
  .ok (p.version, installed.contains p)

/-- The loop over the jobs: `all_requirement_ids` and `soft_update_packages`; dependency_solver.py:472-494. (A job
without requirement is an upgrade job, which fails the assertion.) -/
def jobIds (pool : Pool N S U) (installed : Repository N S U) :
    List (Job N U) → List Nat → List (Package N S U) → Except PErr (List Nat × List (Package N S U))
  | [], ids, soft => .ok (ids, soft)
  | j :: js, ids, soft =>
    if j.kind = .upgrade then .error .assertion
    else match j.requirement with
      | none => .error .typeError
      | some r => do
        let providers ← pool.whatProvides r false
        if providers.isEmpty then .error .noPackageFound
        else
          let kept ← if j.kind = .hardUpdate then (maxPkg (hardKey installed) providers).map (fun p => [p])
            else .ok providers
          let soft := if j.kind = .softUpdate then soft ++ providers.filter installed.contains else soft
          let more ← mapE pool.packageId kept
          jobIds pool installed js (ids ++ more) soft

/-- `installed_package_ids`, the OrderedDict; dependency_solver.py:496-499 -/
def installedDict (pool : Pool N S U) : List (Package N S U) → Dict Nat (Package N S U) →
    Except PErr (Dict Nat (Package N S U))
  | [], d => .ok d
  | p :: ps, d => do
    let i ← pool.packageId p
    installedDict pool ps (dset d i p)

/-- `pkg_id_to_version(pool, id)`; policy/policy.py:6-7. `none` is the exception for an unknown id. -/
def idVersion (pool : Pool N S U) (x : Int) : Option (Version U) :=
  if 0 < x then (dget pool.idToPackage x.natAbs).map Package.version else none

/-- `_prefer_installed_pkg_ids` of the policy: the ids of the installed packages that are not to be updated, in
increasing order of version; undetermined_clause_policy.py:23-28. (Equal packages have equal ids, so the set of packages
is represented by the set of ids.) -/
def preferIds (pool : Pool N S U) (order : List Nat → List Nat) (installed soft : List (Package N S U)) :
    Except PErr (List Int) := do
  let ids ← mapE pool.packageId (installed.filter (fun p => !(soft.any (fun q => p.same q))))
  let pairs ← mapE (fun i => match pool.idToPkg i with
    | .error e => .error e
    | .ok p => .ok (i, p.version)) (order (fromkeys ids))
  .ok ((sortBy Prod.snd pairs).map (fun iv => (iv.1 : Int)))

/-- What `_create_rules_and_initialize_policy` returns: the requirement ids, the rules (with the ids of the packages whose
rules were generated), and the preferred ids of the policy. -/
structure Setup (N S U : Type) where
  requirementIds : List Nat
  gen : Gen N U
  prefer : List Int
  installedDict : Dict Nat (Package N S U)

/-- `_create_rules_and_initialize_policy`; dependency_solver.py:465-511 -/
def createRules (s : DependencySolver N S U) (o : Orders) (pool : Pool N S U) (q : Request N U) :
    Except PErr (Setup N S U) := do
  let (ids, soft) ← jobIds pool s.installed q.jobs [] []
  let d ← installedDict pool s.installed.iter []
  let prefer ← preferIds pool o.prefer s.installed.iter soft
  let gen ← iterRules s.strict pool q.jobs d
  .ok { requirementIds := ids
        gen := gen
        prefer := prefer
        installedDict := d }

/-- a bound on the number of turns of the search (C03) -/
def searchFuel (G : List (List Int)) (prefer reqs : List Int) : Nat :=
  Sat.enoughFuel (Sat.varsOf G ++ (prefer ++ reqs)).length

/-- `MiniSATSolver.from_rules(rules, policy).search()` with the policy of the setup; dependency_solver.py:402-405 -/
def search (o : Orders) (pool : Pool N S U) (st : Setup N S U) : Except Sat.Err ASet :=
  let G := st.gen.rules.map Rule.literals
  let reqs := st.requirementIds.map (fun (i : Nat) => (i : Int))
  Sat.solveRules (Sat.packagePolicy (idVersion pool) o.policy) (searchFuel G st.prefer reqs)
    (Sat.PolState.start st.prefer reqs) G

/-- `_solution_to_ids`; dependency_solver.py:589-593. A variable without value counts as false. -/
def solutionToIds (a : ASet) : List Int :=
  sortBy iabs (a.items.map (fun kv => if kv.2 = some true then kv.1 else -kv.1))

/-! ### _connected_packages; dependency_solver.py:543-586 -/

/-- `get_names`; dependency_solver.py:549-551 -/
def getNames (pool : Pool N S U) (l : Int) : Except PErr (List N) :=
  match pool.idToPkg l.natAbs with
  | .error e => .error e
  | .ok p => .ok (p.provides.map Prod.fst)

/-- the items of `solution_name_to_id`; dependency_solver.py:555-560 -/
def nameItems (pool : Pool N S U) (l : Int) : Except PErr (List (N × Int)) :=
  match getNames pool l with
  | .error e => .error e
  | .ok ns => .ok (if 0 < l then ns.map (fun n => (n, l)) else [])

/-- the values of `solution_name_to_id` for the dependencies of a package; dependency_solver.py:571 -/
def depNeighbors (nameToId : Dict N Int) (t : CTuple N S) : Except PErr Int :=
  match dget nameToId t.1 with
  | none => .error .keyError
  | some i => .ok i

/-- `neighborfunc`; dependency_solver.py:567-572 -/
def neighborFunc (pool : Pool N S U) (nameToId : Dict N Int) (l : Int) : Except PErr (List Int) :=
  match (if 0 < l then pool.idToPkg l.natAbs else .error .valueError) with
  | .error e => .error e
  | .ok p => match mapE (depNeighbors nameToId) p.installRequires with
    | .error e => .error e
    | .ok ls => .ok (fromkeys ls)

/-- The loop over `solution_root_ids`; dependency_solver.py:576-580 -/
def includeAll (pop : PopOrder Int) (f : Int → Except PErr (List Int)) (fuel : Nat) :
    List Int → List Int → Except PErr (List Int)
  | [], visited => .ok visited
  | r :: rs, visited => match connectedNodes pop f fuel r visited with
    | none => .error .outOfFuel
    | some (.error e) => .error e
    | some (.ok nodes) => includeAll pop f fuel rs (supdate nodes visited)

/-- `_connected_packages(solution, root_ids, pool)`; dependency_solver.py:543-586. At most one node per solution literal
is ever queued. -/
def connectedPackages (o : Orders) (pool : Pool N S U) (solution : List Int) (rootIds : List Nat) :
    Except PErr (List Int) :=
  match mapE (fun (i : Nat) => getNames pool (i : Int)) rootIds with
  | .error e => .error e
  | .ok rootNames =>
    match mapE (nameItems pool) solution with
    | .error e => .error e
    | .ok items =>
      let nameToId := dictOf items.flatten
      let roots := fromkeys ((nameToId.filter (fun nl => decide (nl.1 ∈ rootNames.flatten))).map Prod.snd)
      match includeAll o.pop (neighborFunc pool nameToId) (solution.length + 2) (o.roots roots) [] with
      | .error e => .error e
      | .ok included =>
        if roots.all (fun r => decide (r ∈ included)) then
          .ok (supdate (solution.filter (fun l => decide (l.natAbs ∈ rootIds))) included)
        else .error .assertion

/-! ### DependencySolver -/

/-- The modifiers that `solve` gives to the pool; dependency_solver.py:395-396 -/
def activeModifiers (m : Modifiers N) : Option (Modifiers N) := if m.targets = [] then none else some m

/-- the pool as `solve` leaves it; dependency_solver.py:396 -/
def DependencySolver.solvePool (s : DependencySolver N S U) (q : Request N U) : Pool N S U :=
  { s.pool with
    modifiers := activeModifiers q.modifiers }

/-- The part of `solve` after the search; dependency_solver.py:406-419 -/
def finish (s : DependencySolver N S U) (o : Orders) (pool : Pool N S U) (requirementIds : List Nat) (a : ASet) :
    Except PErr (Transaction N S U) := do
  let solution := solutionToIds a
  let ids ← mapE pool.packageId s.installed.iter
  let installed := o.installed (fromkeys ids)
  let decisions ←
    if s.usePruning then connectedPackages o pool solution (supdate requirementIds installed)
    else .ok solution
  mkTransaction pool decisions installed

/-- `solve(request)`; dependency_solver.py:373-419 -/
def DependencySolver.solve (s : DependencySolver N S U) (o : Orders) (q : Request N U) :
    Except (SErr N U) (Transaction N S U) := do
  let q := convertUpgrade q s.remote s.installed
  let pool := s.solvePool q
  let st ← liftP (createRules s o pool q)
  let a ← liftS (search o pool st)
  liftP (finish s o pool st.requirementIds a)

/-- the `callback` of `solve_with_hint`; dependency_solver.py:452-460. The iteration orders may change from call to
call. -/
def hintCallback (s : DependencySolver N S U) (o : List (Job N U) → Orders) (m : Modifiers N) (jobs : List (Job N U)) :
    Except (SErr N U) Bool :=
  match s.solve (o jobs) ⟨m, jobs⟩ with
  | .ok _ => .ok true
  | .error (.sat (.satisfiability _)) => .ok false
  | .error e => .error e

/-- `solve_with_hint(request)`; dependency_solver.py:421-463. The recursion of `minimal_unsatisfiable_subset` on n jobs
has depth at most n. -/
def DependencySolver.solveWithHint (s : DependencySolver N S U) (o : Orders) (o' : List (Job N U) → Orders)
    (q : Request N U) : Except (SErr N U) (Transaction N S U) :=
  match s.solve o q with
  | .ok t => .ok t
  | .error (.sat (.satisfiability u)) =>
    let q' := convertUpgrade q s.remote s.installed
    match minimalUnsatisfiableSubset (hintCallback s o' q'.modifiers) (q'.jobs.length + 1) q'.jobs with
    | .error .unexpectedlySatisfiable => .error .unexpectedlySatisfiable
    | .error (.cb e) => .error e
    | .error .outOfFuel => .error (.pkg .outOfFuel)
    | .ok jobs => .error (.hint u jobs)
  | .error e => .error e

end Verif.Solve
