import Verif.PyMap
import Verif.Pkg.Pool
import Verif.Graph.Model
import Mathlib.Data.Int.Order.Basic
import Mathlib.Data.Nat.Basic
/-
Model of simplesat/transaction.py and of `package_lit_dependency_graph` (utils/graph.py:93-135).
`to_string`, `to_simple_string` and `__str__` (texts) are in `Solve/TransactionText.lean`.

A set is a list; theorems quantify over all lists, hence over all iteration orders.
-/
namespace Verif.Solve
open Verif Verif.Pkg Verif.Graph

variable {N S U : Type} [DecidableEq N] [DecidableEq S] [LinearOrder U] [Syntax S U]

/-! ### package_lit_dependency_graph; utils/graph.py:93-135 -/

/-- The literals that `nodes_to_edges[package_lit].update(...)` receives for the providers of one dependency;
utils/graph.py:127-132. -/
def depLits (pool : Pool N S U) (closed : Bool) (idMap : Dict Nat Int) :
    List (Package N S U) → Except PErr (List Int)
  | [] => .ok []
  | d :: ds => match pool.packageId d with
    | .error e => .error e
    | .ok i => match depLits pool closed idMap ds with
      | .error e => .error e
      | .ok rest =>
        if closed && (dget idMap i).isNone then .ok rest
        else .ok ((dget idMap i).getD (i : Int) :: rest)

/-- The loop over `package.install_requires`; utils/graph.py:125-132 -/
def depEdges (pool : Pool N S U) (closed : Bool) (idMap : Dict Nat Int) :
    List (CTuple N S) → List Int → Except PErr (List Int)
  | [], acc => .ok acc
  | c :: cs, acc => match fromConstraints .install c with
    | .error e => .error e
    | .ok req => match pool.whatProvides req with
      | .error e => .error e
      | .ok deps => match depLits pool closed idMap deps with
        | .error e => .error e
        | .ok ls => depEdges pool closed idMap cs (supdate ls acc)

/-- The package of a literal; utils/graph.py:118-119 -/
def litPackage (pool : Pool N S U) (l : Int) : Except PErr (Int × Package N S U) :=
  match pool.idToPkg l.natAbs with
  | .error e => .error e
  | .ok p => .ok (l, p)

/-- a literal with its edges; utils/graph.py:124-132 -/
def nodeItem (pool : Pool N S U) (closed : Bool) (idMap : Dict Nat Int) (lp : Int × Package N S U) :
    Except PErr (Int × List Int) :=
  match depEdges pool closed idMap lp.2.installRequires [] with
  | .error e => .error e
  | .ok edges => .ok (lp.1, edges)

/-- `package_lit_dependency_graph(pool, package_lits, closed)`; utils/graph.py:93-135 -/
def packageLitDependencyGraph (pool : Pool N S U) (lits : List Int) (closed : Bool) : Except PErr (Adj Int) :=
  match mapE (litPackage pool) (fromkeys lits) with
  | .error e => .error e
  | .ok packages =>
    let idMap := dictOf (lits.map (fun l => (l.natAbs, l)))
    mapE (nodeItem pool closed idMap) packages

/-! ### transaction.py -/

/-- The three classes of operations; transaction.py:9-26 -/
inductive Op (N S U : Type) where
  | install (package : Package N S U)
  | remove (package : Package N S U)
  | update (package source : Package N S U)
deriving DecidableEq

/-- the field `package` -/
def Op.package : Op N S U → Package N S U
  | .install p => p
  | .remove p => p
  | .update p _ => p

/-- `_package_key`; transaction.py:47-49 -/
def packageKey (pool : Pool N S U) (i : Nat) : Except PErr (N × Version U) :=
  match pool.idToPkg i with
  | .error e => .error e
  | .ok p => .ok (p.name, p.version)

/-- an item of `_local_packages`; transaction.py:34 -/
def keyItem (pool : Pool N S U) (i : Nat) : Except PErr ((N × Version U) × Nat) :=
  match packageKey pool i with
  | .error e => .error e
  | .ok k => .ok (k, i)

/-- `_local_packages`; transaction.py:33-36. If two installed packages have the same name and version, the one that
comes last in the iteration order of `installed_package_ids` is kept. -/
def localPackages (pool : Pool N S U) (installed : List Nat) : Except PErr (Dict (N × Version U) Nat) :=
  match mapE (keyItem pool) installed with
  | .error e => .error e
  | .ok items => .ok (dictOf items)

/-- The two nested loops that fill `removals` and `installs`, over the literals in the order in which they come;
transaction.py:119-128 -/
def sortOut (decisions : List Int) (installed : List Nat) :
    List Int → List Nat × List Nat → Except PErr (List Nat × List Nat)
  | [], acc => .ok acc
  | l :: ls, (removals, installs) =>
    if l ∉ decisions then .error .assertion
    else if l < 0 ∧ l.natAbs ∈ installed then sortOut decisions installed ls (removals ++ [l.natAbs], installs)
    else if 0 < l ∧ l.natAbs ∉ installed then sortOut decisions installed ls (removals, installs ++ [l.natAbs])
    else sortOut decisions installed ls (removals, installs)

/-- The loop over `installs`: the packages to install and what remains of `removals`; transaction.py:134-150 -/
def installLoop (pool : Pool N S U) (loc : Dict (N × Version U) Nat) :
    List Nat → List (Package N S U) → List Nat → Except PErr (List (Package N S U) × List Nat)
  | [], packages, removals => .ok (packages, removals)
  | i :: is, packages, removals =>
    match packageKey pool i with
    | .error e => .error e
    | .ok key =>
      let preferred := (dget loc key).getD i
      if preferred ≠ i then installLoop pool loc is packages (removals.erase preferred)
      else match pool.idToPkg i with
        | .error e => .error e
        | .ok p => installLoop pool loc is (packages ++ [p]) removals

/-- `_safe_operations`; transaction.py:114-157 -/
def safeOperations (pool : Pool N S U) (decisions : List Int) (installed : List Nat)
    (loc : Dict (N × Version U) Nat) : Except PErr (List (Op N S U)) :=
  match packageLitDependencyGraph pool decisions true with
  | .error e => .error e
  | .ok graph =>
    match toposort graph with
    | (_, .cyclic _) => .error .valueError
    | (_, .outOfFuel) => .error .outOfFuel
    | (groups, .done) =>
      match sortOut decisions installed (groups.flatMap (fun g => sortBy iabs g)) ([], []) with
      | .error e => .error e
      | .ok (removals, installs) =>
        match installLoop pool loc installs [] removals with
        | .error e => .error e
        | .ok (packages, removals) =>
          match mapE pool.idToPkg removals.reverse with
          | .error e => .error e
          | .ok removed => .ok (removed.map .remove ++ packages.map .install)

/-- `_find_other_providers`; transaction.py:159-166. Packages are compared by their keys. The requirement
parsed from the name is taken to be the one for that name (`Solve/Named.lean` parses it). -/
def findOtherProviders (pool : Pool N S U) (k : PKey N S U) : Except PErr (List (Package N S U)) :=
  match pool.whatProvides (Requirement.ofName .install k.name) with
  | .error e => .error e
  | .ok ps => .ok (ps.filter (fun p => decide (p.key ≠ k)))

/-- `d.pop(k, ...)`: the dictionary without the key -/
def dpop {κ β : Type} [DecidableEq κ] (d : Dict κ β) (k : κ) : Dict κ β := d.filter (fun kv => decide (kv.1 ≠ k))

/-- `for update in self._find_other_providers(pkg): pkg_to_ops[pkg] += pkg_to_ops.pop(update, [])`;
transaction.py:94-95 -/
def absorb (k : PKey N S U) : List (Package N S U) → Dict (PKey N S U) (List (Op N S U)) →
    Dict (PKey N S U) (List (Op N S U))
  | [], d => d
  | u :: us, d =>
    absorb k us (dset (dpop d u.key) k ((dget d k).getD [] ++ (dget d u.key).getD []))

/-- `for pkg in reversed(tuple(pkg_to_ops.keys()))`; transaction.py:92-95 -/
def absorbAll (pool : Pool N S U) : List (PKey N S U) → Dict (PKey N S U) (List (Op N S U)) →
    Except PErr (Dict (PKey N S U) (List (Op N S U)))
  | [], d => .ok d
  | k :: ks, d =>
    if k ∈ dkeys d then
      match findOtherProviders pool k with
      | .error e => .error e
      | .ok us => absorbAll pool ks (absorb k us d)
    else absorbAll pool ks d

/-- `rank.index(o.__class__)`; transaction.py:103-104 -/
def Op.rank : Op N S U → Except PErr Nat
  | .install _ => .ok 0
  | .remove _ => .ok 1
  | .update _ _ => .error .valueError

/-- an operation with its sort key; transaction.py:104 -/
def rankItem (o : Op N S U) : Except PErr (Nat × Op N S U) :=
  match o.rank with
  | .error e => .error e
  | .ok r => .ok (r, o)

/-- `_merge_operations`; transaction.py:100-105. Unpacking anything but two values is a ValueError. -/
def mergeOperations (ops : List (Op N S U)) : Except PErr (Op N S U) :=
  match ops with
  | [o] => .ok o
  | _ => match mapE rankItem ops with
    | .error e => .error e
    | .ok ranked =>
      match sortBy Prod.fst ranked with
      | [first, second] => .ok (.update first.2.package second.2.package)
      | _ => .error .valueError

/-- `_as_pretty_operations`; transaction.py:89-98. A package is known by its key. -/
def prettyOperations (pool : Pool N S U) (ops : List (Op N S U)) : Except PErr (List (Op N S U)) :=
  let d := dictOf (ops.map (fun o => (o.package.key, [o])))
  match absorbAll pool (dkeys d).reverse d with
  | .error e => .error e
  | .ok d => mapE mergeOperations (d.map Prod.snd)

/-- Fields of Transaction -/
structure Transaction (N S U : Type) where
  operations : List (Op N S U)
  pretty : List (Op N S U)

/-- `Transaction(pool, decisions, installed_package_ids)`; transaction.py:31-39 -/
def mkTransaction (pool : Pool N S U) (decisions : List Int) (installed : List Nat) :
    Except PErr (Transaction N S U) :=
  match localPackages pool installed with
  | .error e => .error e
  | .ok loc =>
    match safeOperations pool decisions installed loc with
    | .error e => .error e
    | .ok ops => match prettyOperations pool ops with
      | .error e => .error e
      | .ok pretty => .ok ⟨ops, pretty⟩

end Verif.Solve
