import Verif.Pkg.Repository
/-
Model of simplesat/pool.py and simplesat/request.py.
-/
namespace Verif.Pkg
open Verif

variable {N S U : Type} [DecidableEq N] [DecidableEq S] [LinearOrder U] [Syntax S U]

/-- Fields of Pool; pool.py:24-37. `_repositories` is never read and not modelled. -/
structure Pool (N S U : Type) where
  nextId : Nat
  packageToId : Dict (PKey N S U) Nat
  idToPackage : Dict Nat (Package N S U)
  packagesByName : Dict N (List (Package N S U))
  modifiers : Option (Modifiers N)

namespace Pool

/-- `Pool(modifiers=modifiers)`; pool.py:24-34 -/
def empty (modifiers : Option (Modifiers N)) : Pool N S U :=
  { nextId := 1
    packageToId := []
    idToPackage := []
    packagesByName := []
    modifiers := modifiers }

/-- The inner loop of `add_repository` over `package.provides`: the pool so far, and the exception if one was raised;
pool.py:53-59. -/
def addProvides (p : Package N S U) : List (CTuple N S) → Pool N S U → Pool N S U × Option PErr
  | [], pool => (pool, none)
  | c :: cs, pool =>
    match fromConstraints (U := U) .plain c with
    | .error e => (pool, some e)
    | .ok req =>
      if req.hasAnyVersionConstraint then (pool, some .invalidConstraint)
      else
        addProvides p cs
          { pool with
            packagesByName :=
              dset pool.packagesByName req.name ((dget pool.packagesByName req.name).getD [] ++ [p]) }

/-- One turn of the loop of `add_repository`; pool.py:48-59. A package is known by its key in `_package_to_id_`. -/
def addPackage (p : Package N S U) (pool : Pool N S U) : Pool N S U × Option PErr :=
  addProvides p p.provides
    { pool with
      nextId := pool.nextId + 1
      idToPackage := dset pool.idToPackage pool.nextId p
      packageToId := dset pool.packageToId p.key pool.nextId }

/-- The loop of `add_repository` over the packages of the repository, in iteration order; pool.py:39-59. -/
def addPackages : List (Package N S U) → Pool N S U → Pool N S U × Option PErr
  | [], pool => (pool, none)
  | p :: ps, pool => match addPackage p pool with
    | (pool, some e) => (pool, some e)
    | (pool, none) => addPackages ps pool

/-- `modify_requirement`; pool.py:86-90 -/
def modifyRequirement (pool : Pool N S U) (r : Requirement N U) : Except PErr (Requirement N U) :=
  match pool.modifiers with
  | some m => Verif.Pkg.modifyRequirement r m
  | none => .ok r

/-- `what_provides(requirement, use_modifiers)`; pool.py:61-84 -/
def whatProvides (pool : Pool N S U) (r : Requirement N U) (useModifiers : Bool := true) :
    Except PErr (List (Package N S U)) :=
  match dget pool.packagesByName r.name with
  | none => .ok []
  | some _ =>
    match (if useModifiers then pool.modifyRequirement r else .ok r) with
    | .error e => .error e
    | .ok r => .ok (((dget pool.packagesByName r.name).getD []).filter (fun p => r.matches p.version))

/-- `package_id(package)`; pool.py:92-98 -/
def packageId (pool : Pool N S U) (p : Package N S U) : Except PErr Nat :=
  match dget pool.packageToId p.key with
  | some i => .ok i
  | none => .error .valueError

/-- `id_to_package(package_id)`; pool.py:100-106 -/
def idToPkg (pool : Pool N S U) (i : Nat) : Except PErr (Package N S U) :=
  match dget pool.idToPackage i with
  | some p => .ok p
  | none => .error .valueError

/-- `name_to_packages(name)`; pool.py:119-120. (The defaultdict keeps an empty entry for an unknown name; this effect
is modelled in `Pkg/LivePool.lean`. The solver only asks for names of packages of the pool, which are known.) -/
def nameToPackages (pool : Pool N S U) (name : N) : List (Package N S U) :=
  (dget pool.packagesByName name).getD []

/-- `package_ids` / `iter_package_ids()`; pool.py:127-134 -/
def packageIds (pool : Pool N S U) : List Nat := dkeys pool.idToPackage

end Pool

/-- `add_repository` for a list of repositories, one after the other, as in `Pool(repositories, modifiers)`: the pool
and the exception that stopped it, if any; pool.py:36-37. -/
def Pool.addRepositories {N : Type} [LinearOrder N] : List (Repository N S U) → Pool N S U → Pool N S U × Option PErr
  | [], pool => (pool, none)
  | r :: rs, pool => match pool.addPackages r.iter with
    | (pool, some e) => (pool, some e)
    | (pool, none) => Pool.addRepositories rs pool

/-! ### request.py -/

/-- `JobType`; request.py:9-15 -/
inductive JobKind where
  | install
  | remove
  | softUpdate
  | hardUpdate
  | upgrade
deriving DecidableEq

/-- `_Job`; request.py:18-21 -/
structure Job (N U : Type) where
  requirement : Option (Requirement N U)
  kind : JobKind
deriving DecidableEq

/-- `Request`; request.py:64-66 -/
structure Request (N U : Type) where
  modifiers : Modifiers N
  jobs : List (Job N U)

/-- `_add_job`: the request is changed only if no exception is raised; request.py:92-100, 23-29. -/
def Request.addJob (q : Request N U) (r : Option (Requirement N U)) (k : JobKind) : Except PErr (Request N U) :=
  if q.jobs.length > 0 ∧ (q.jobs.any (fun j => decide (j.kind = .upgrade)) = true ∨ k = .upgrade) then
    .error .valueError
  else if r = none ∧ k ≠ .upgrade then .error .valueError
  else .ok { q with jobs := q.jobs ++ [⟨r, k⟩] }

end Verif.Pkg
