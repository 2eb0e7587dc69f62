import Verif.Solve.Functions
import Verif.Graph.Model
/-
Model of simplesat/compute_dependencies.py. Sets of package ids are iterated in an arbitrary order `ord`.
-/
namespace Verif.Solve
open Verif Verif.Pkg Verif.Graph Verif.Rules

variable {N S U : Type} [LinearOrder N] [DecidableEq S] [LinearOrder U] [Syntax S U]

/-- How the elements of a set of ids, given in the order of insertion, are iterated. -/
structure SetOrder where
  ord : List Int → List Int
  perm : ∀ l, (ord l).Perm l

def liftG {α : Type} : Except GErr α → Except PErr α
  | .ok a => .ok a
  | .error .keyError => .error .keyError
  | .error .outOfFuel => .error .outOfFuel

/-- `_neighbors_in_repositories(pool, transitive)` and `_compute_dependency_dict`; compute_dependencies.py:87-105, 129-139 -/
def neighborsInRepositories (o : SetOrder) (pool : Pool N S U) (transitive : Bool) : Except PErr (Adj Int) :=
  match packageLitDependencyGraph pool (o.ord (pool.packageIds.map Int.ofNat)) false with
  | .error e => .error e
  | .ok graph =>
    if transitive then liftG (transitiveNeighbors (graph.map (fun kv => (kv.1, o.ord kv.2)))) else .ok graph

/-- The inner loop of `_reverse_mapping`; compute_dependencies.py:145-146 -/
def reverseEntry (key : Int) (vals : List Int) (rev : Adj Int) : Adj Int :=
  vals.foldl (fun rev v => transUpdate rev v [key]) rev

/-- `_reverse_mapping(mapping)`; compute_dependencies.py:142-148 -/
def reverseMapping (m : Adj Int) : Adj Int := m.foldl (fun rev kv => reverseEntry kv.1 kv.2 rev) []

/-- `_neighbors_for_requirement(pool, neighbor_mapping, requirement)` and `_package_ids_satisfying_requirement`: the loop
over the packages that provide the requirement, `lookup` being `neighbor_mapping[package_id]`;
compute_dependencies.py:151-182 -/
def neighborsOf (pool : Pool N S U) (lookup : Int → Except PErr (List Int)) : List (Package N S U) →
    List (Package N S U) → Except PErr (List (Package N S U))
  | [], acc => .ok acc
  | p :: ps, acc => match pool.packageId p with
    | .error e => .error e
    | .ok i => match lookup i with
      | .error e => .error e
      | .ok ids => match mapE (fun d : Int => pool.idToPkg d.natAbs) ids with
        | .error e => .error e
        | .ok qs => neighborsOf pool lookup ps (addNew acc qs)

def neighborsForRequirement (pool : Pool N S U) (lookup : Int → Except PErr (List Int)) (r : Requirement N U) :
    Except PErr (List (Package N S U)) :=
  match pool.whatProvides r true with
  | .error e => .error e
  | .ok ps => neighborsOf pool lookup ps []

/-- lookup in a dict, which may raise KeyError -/
def dictLookup (m : Adj Int) (i : Int) : Except PErr (List Int) :=
  match adjGet m i with
  | some l => .ok l
  | none => .error .keyError

/-- lookup in a defaultdict(set). (The empty entry that is made is not modelled; it does not change later lookups.) -/
def defaultLookup (m : Adj Int) (i : Int) : Except PErr (List Int) := .ok ((adjGet m i).getD [])

/-- `compute_dependencies(repositories, requirement, transitive)`; compute_dependencies.py:10-31 -/
def computeDependencies (o : SetOrder) (rs : List (Repository N S U)) (r : Requirement N U) (transitive : Bool) :
    Except PErr (List (Package N S U)) :=
  match mkPool rs none with
  | .error e => .error e
  | .ok pool => match neighborsInRepositories o pool transitive with
    | .error e => .error e
    | .ok neighbors => neighborsForRequirement pool (dictLookup neighbors) r

/-- `compute_reverse_dependencies(repositories, requirement, transitive)`, with `_reverse_neighbors_in_repositories`;
compute_dependencies.py:34-56, 108-126 -/
def computeReverseDependencies (o : SetOrder) (rs : List (Repository N S U)) (r : Requirement N U) (transitive : Bool) :
    Except PErr (List (Package N S U)) :=
  match mkPool rs none with
  | .error e => .error e
  | .ok pool => match neighborsInRepositories o pool transitive with
    | .error e => .error e
    | .ok neighbors => neighborsForRequirement pool (defaultLookup (reverseMapping neighbors)) r

/-- The loop of `compute_leaf_packages` over `pool.iter_packages()`, the keys of the dict from packages to ids;
compute_dependencies.py:76-82. Packages are represented by what identifies them. The requirement parsed from the text
"name-version" is taken to be the one for them (`Solve/Named.lean` parses it). -/
def leafLoop (pool : Pool N S U) (rev : Adj Int) : List (PKey N S U) → List (PKey N S U) → Except PErr (List (PKey N S U))
  | [], acc => .ok acc
  | k :: ks, acc =>
    match neighborsForRequirement pool (defaultLookup rev) (Requirement.exactly .install k.name k.version) with
    | .error e => .error e
    | .ok deps => leafLoop pool rev ks (if deps.isEmpty then acc ++ [k] else acc)

/-- `compute_leaf_packages(repositories)`; compute_dependencies.py:59-84 -/
def computeLeafPackages (o : SetOrder) (rs : List (Repository N S U)) : Except PErr (List (PKey N S U)) :=
  match mkPool rs none with
  | .error e => .error e
  | .ok pool => match neighborsInRepositories o pool false with
    | .error e => .error e
    | .ok neighbors => leafLoop pool (reverseMapping neighbors) (dkeys pool.packageToId) []

end Verif.Solve
