import Verif.Pkg.Pool
/-
Model of a pool as an object that is asked and changed over time. `Pkg/Pool.lean` treats the questions as functions of the
pool; here the one effect that a question has is kept: `_packages_by_name_` is a DefaultOrderedDict (utils/_collections.py),
and `name_to_packages` enters an empty list for a name that it does not know.

`copy.deepcopy` and `DefaultOrderedDict.copy` keep the factory (_collections.py:27-35), so a copy is a pool with the same fields;
pickling does not.
-/
namespace Verif.Pkg
open Verif

variable {N S U : Type} [LinearOrder N] [DecidableEq S] [LinearOrder U] [Syntax S U]

/-- A Pool; `hasFactory` says whether `default_factory` of `_packages_by_name_` can be called: it is `list` in a new pool
(pool.py:32), and the list `[]` in an unpickled one. -/
structure LivePool (N S U : Type) where
  pool : Pool N S U
  hasFactory : Bool

namespace LivePool

/-- `Pool(modifiers=modifiers)`; pool.py:24-34 -/
def new (modifiers : Option (Modifiers N)) : LivePool N S U := ⟨Pool.empty modifiers, true⟩

/-- `self._packages_by_name_[name] = ps` -/
def enter (l : LivePool N S U) (n : N) (ps : List (Package N S U)) : LivePool N S U :=
  { l with
    pool := { l.pool with packagesByName := dset l.pool.packagesByName n ps } }

/-- `self._packages_by_name_[name]`: `DefaultOrderedDict.__getitem__` and `__missing__`; _collections.py:13-21 -/
def lookup (l : LivePool N S U) (n : N) : Except PErr (List (Package N S U)) × LivePool N S U :=
  match dget l.pool.packagesByName n with
  | some ps => (.ok ps, l)
  | none => if l.hasFactory then (.ok [], l.enter n []) else (.error .typeError, l)

/-- The inner loop of `add_repository`; pool.py:53-59. `append` changes the list that is in the dictionary. -/
def addProvides (p : Package N S U) : List (CTuple N S) → LivePool N S U → LivePool N S U × Option PErr
  | [], l => (l, none)
  | c :: cs, l =>
    match fromConstraints (U := U) .plain c with
    | .error e => (l, some e)
    | .ok req =>
      if req.hasAnyVersionConstraint then (l, some .invalidConstraint)
      else match l.lookup req.name with
        | (.error e, l) => (l, some e)
        | (.ok ps, l) => addProvides p cs (l.enter req.name (ps ++ [p]))

/-- One turn of the loop of `add_repository`; pool.py:48-59. -/
def addPackage (p : Package N S U) (l : LivePool N S U) : LivePool N S U × Option PErr :=
  addProvides p p.provides
    { l with
      pool := { l.pool with
        nextId := l.pool.nextId + 1
        idToPackage := dset l.pool.idToPackage l.pool.nextId p
        packageToId := dset l.pool.packageToId p.key l.pool.nextId } }

/-- The loop of `add_repository`; pool.py:39-59. -/
def addPackages : List (Package N S U) → LivePool N S U → LivePool N S U × Option PErr
  | [], l => (l, none)
  | p :: ps, l => match addPackage p l with
    | (l, some e) => (l, some e)
    | (l, none) => addPackages ps l

/-- `name_to_packages(name)`; pool.py:119-120 -/
def nameToPackages (l : LivePool N S U) (n : N) : Except PErr (List (Package N S U)) × LivePool N S U := l.lookup n

/-- `pickle.loads(pickle.dumps(pool))`: the dictionary is rebuilt as `DefaultOrderedDict(default_factory())` with its items, so
that the factory is `[]`; when that is not possible because there is no factory to call, TypeError; _collections.py:23-25. -/
def unpickled (l : LivePool N S U) : LivePool N S U × Option PErr :=
  if l.hasFactory then ({ l with hasFactory := false }, none) else (l, some .typeError)

end LivePool

/-- What can be done with a pool. -/
inductive PoolCall (N S U : Type) where
  | addRepository (r : Repository N S U)
  | setModifiers (m : Option (Modifiers N))
  | whatProvides (r : Requirement N U) (useModifiers : Bool)
  | nameToPackages (n : N)
  | packageId (p : Package N S U)
  | idToPackage (i : Nat)
  | packageIds

/-- What comes back. -/
inductive PoolAnswer (N S U : Type) where
  | done
  | raised (e : PErr)
  | packages (ps : List (Package N S U))
  | package (p : Package N S U)
  | id (i : Nat)
  | ids (l : List Nat)

/-- a result or an exception -/
def PoolAnswer.of {α : Type} (f : α → PoolAnswer N S U) : Except PErr α → PoolAnswer N S U
  | .ok a => f a
  | .error e => .raised e

/-- A question does not mean to change the pool. -/
def PoolCall.isChange : PoolCall N S U → Bool
  | .addRepository _ => true
  | .setModifiers _ => true
  | _ => false

/-- A call: the answer, and the pool afterwards. -/
def LivePool.call (l : LivePool N S U) : PoolCall N S U → PoolAnswer N S U × LivePool N S U
  | .addRepository r => match l.addPackages r.iter with
    | (l, none) => (.done, l)
    | (l, some e) => (.raised e, l)
  | .setModifiers m => (.done, { l with pool := { l.pool with modifiers := m } })
  | .whatProvides r b => (.of .packages (l.pool.whatProvides r b), l)
  | .nameToPackages n => (.of .packages (l.nameToPackages n).1, (l.nameToPackages n).2)
  | .packageId p => (.of .id (l.pool.packageId p), l)
  | .idToPackage i => (.of .package (l.pool.idToPkg i), l)
  | .packageIds => (.ids l.pool.packageIds, l)

/-- One call after the other. -/
def LivePool.calls : List (PoolCall N S U) → LivePool N S U → LivePool N S U
  | [], l => l
  | c :: cs, l => calls cs (l.call c).2

/-- The answers of one call after the other. -/
def LivePool.answers : List (PoolCall N S U) → LivePool N S U → List (PoolAnswer N S U)
  | [], _ => []
  | c :: cs, l => (l.call c).1 :: answers cs (l.call c).2

end Verif.Pkg
