import Verif.PyDict
import Verif.PySort
import Verif.Pkg.Package
/-
Model of simplesat/repository.py.
-/
namespace Verif.Pkg
open Verif

variable {N S U : Type} [LinearOrder N] [DecidableEq S] [LinearOrder U]

/-- Fields of Repository; repository.py:37-46 -/
structure Repository (N S U : Type) where
  nameToPackages : Dict N (List (Package N S U))
  names : List N

/-- `bisect.insort` on a sorted list: insert after the elements that are not greater. (The binary search is replaced by a
linear one; on a sorted list both give the same place.) -/
def insort : N → List N → List N
  | x, [] => [x]
  | x, y :: t => if x < y then x :: y :: t else y :: insort x t

namespace Repository

def empty : Repository N S U := ⟨[], []⟩

/-- `add_package`; repository.py:68-92 -/
def addPackage (r : Repository N S U) (p : Package N S U) : Repository N S U :=
  let names := if p.name ∉ dkeys r.nameToPackages then insort p.name r.names else r.names
  let d := dsetdefault r.nameToPackages p.name []
  let l := (dget d p.name).getD []
  ⟨dset d p.name (sortBy Package.version (l ++ [p])), names⟩

/-- `update(iterable)`, and the loop of `__init__`; repository.py:137-144, 44-46 -/
def update (r : Repository N S U) (ps : List (Package N S U)) : Repository N S U := ps.foldl addPackage r

/-- `Repository(packages)`; repository.py:37-46 -/
def ofList (ps : List (Package N S U)) : Repository N S U := empty.update ps

/-- `__len__`; repository.py:48-52 -/
def len (r : Repository N S U) : Nat := (r.nameToPackages.map (fun kv => kv.2.length)).sum

/-- `__contains__`; repository.py:54-61 -/
def contains (r : Repository N S U) (p : Package N S U) : Bool :=
  match dget r.nameToPackages p.name with
  | some l => l.any (fun q => p.same q)
  | none => false

/-- `__iter__`; repository.py:63-66. Every name is a key (`Repository.WF`), so the lookup does not fail. -/
def iter (r : Repository N S U) : List (Package N S U) :=
  r.names.flatMap (fun n => (dget r.nameToPackages n).getD [])

/-- `find_package(name, version)`; repository.py:94-118. The exception is built from the name and the version; it is
assumed here that they can be printed and parsed back: see `findPackageText` in Verif/Text/Find.lean. -/
def findPackage (r : Repository N S U) (name : N) (v : Version U) : Except PErr (Package N S U) :=
  match ((dget r.nameToPackages name).getD []).find? (fun c => decide (c.version = v)) with
  | some p => .ok p
  | none => .error .noPackageFound

/-- `find_packages(name)`; repository.py:120-135 -/
def findPackages (r : Repository N S U) (name : N) : List (Package N S U) := (dget r.nameToPackages name).getD []

end Repository

end Verif.Pkg
