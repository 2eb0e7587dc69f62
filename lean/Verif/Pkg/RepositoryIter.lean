import Verif.Pkg.Repository
/-
Iteration over a Repository that is changed meanwhile. `Repository.__iter__` is a generator over the live lists of the
repository (repository.py:63-66): a `for` loop over a Python list remembers a position and looks at the list as it is when
the next element is wanted; `add_package` inserts into these lists (repository.py:80-92).
-/
namespace Verif.Pkg
open Verif

variable {N S U : Type} [LinearOrder N] [DecidableEq S] [LinearOrder U]

/-- The packages of a name, as a list that is looked at by position; repository.py:65 -/
def Repository.listOf (r : Repository N S U) (n : N) : List (Package N S U) := (dget r.nameToPackages n).getD []

/-- A suspended `__iter__`: `pos` is the position of the loop over `_names`; `inner` is the name in hand and the position
of the loop over its packages, if that loop is running; `done`: the generator has returned. repository.py:63-66 -/
structure Cursor (N : Type) where
  pos : Nat
  inner : Option (N × Nat)
  done : Bool

/-- `iter(repository)`; repository.py:63 -/
def Cursor.start : Cursor N := ⟨0, none, false⟩

/-- The loop over `_names` from position `i`: the first package of the next name that has any; repository.py:64-66. `fuel`
bounds the number of names that are looked at. -/
def nextName (r : Repository N S U) : Nat → Nat → Option (Package N S U) × Cursor N
  | 0, i => (none, ⟨i, none, true⟩)
  | fuel + 1, i => match r.names[i]? with
    | none => (none, ⟨i, none, true⟩)
    | some n => match (r.listOf n)[0]? with
      | some p => (some p, ⟨i + 1, some (n, 1), false⟩)
      | none => nextName r fuel (i + 1)

/-- `next(iterator)`: `none` is StopIteration; repository.py:63-66 -/
def Cursor.next (r : Repository N S U) (c : Cursor N) : Option (Package N S U) × Cursor N :=
  if c.done then (none, c)
  else match c.inner with
    | none => nextName r (r.names.length + 1) c.pos
    | some (n, j) => match (r.listOf n)[j]? with
      | some p => (some p, { c with inner := some (n, j + 1) })
      | none => nextName r (r.names.length + 1) c.pos

/-- What happens while a repository is iterated: a package is added, or the next package is asked for. -/
inductive Happening (N S U : Type) where
  | add (p : Package N S U)
  | next

/-- a repository, an iterator over it, and what the iterator has yielded so far -/
structure Iteration (N S U : Type) where
  repo : Repository N S U
  cursor : Cursor N
  yielded : List (Package N S U)

def Iteration.step (s : Iteration N S U) : Happening N S U → Iteration N S U
  | .add p => { s with repo := s.repo.addPackage p }
  | .next => match s.cursor.next s.repo with
    | (some p, c) => { s with cursor := c, yielded := s.yielded ++ [p] }
    | (none, c) => { s with cursor := c }

/-- the iteration of a repository, begun when it had the packages of `r` -/
def Iteration.run (r : Repository N S U) (hs : List (Happening N S U)) : Iteration N S U :=
  hs.foldl Iteration.step ⟨r, Cursor.start, []⟩

/-- `repository.update(repository)` after `n` turns of the loop: the package that is next is added; repository.py:137-144.
`none`: the loop has ended. -/
def updateWithItself (r : Repository N S U) : Nat → Option (Iteration N S U)
  | 0 => some ⟨r, Cursor.start, []⟩
  | n + 1 => match updateWithItself r n with
    | none => none
    | some s => match s.cursor.next s.repo with
      | (none, _) => none
      | (some p, c) => some ⟨s.repo.addPackage p, c, s.yielded ++ [p]⟩

end Verif.Pkg
