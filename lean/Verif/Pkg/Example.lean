import Verif.Pkg.Package
import Mathlib.Data.Nat.Basic
/-
A concrete syntax for the examples that accompany the theorems: a "constraint string" is a list of constraints on versions
whose upstream part is a number, already parsed, or a malformed string. Names are numbers.
-/
namespace Verif.Pkg.Example
open Verif.Pkg

inductive Str where
  | ok (cs : List (Constraint Nat))
  | bad
deriving DecidableEq

instance : Syntax Str Nat where
  parse
    | .ok cs => .ok cs
    | .bad => .error .invalidConstraint
  star := .ok [.any]
  parse_star := rfl
  parse_err := by
    intro s e h
    cases s with
    | ok cs => simp at h
    | bad => simp at h; exact Or.inl h.symm

abbrev P := Package Nat Str Nat

/-- version `n`-0 -/
def v (n : Nat) : Version Nat := ⟨n, 0⟩

/-- dependency on `name` without / with a constraint -/
def dep (name : Nat) : CTuple Nat Str := (name, [[]])
def depc (name : Nat) (c : Constraint Nat) : CTuple Nat Str := (name, [[.ok [c]]])

/-- a package of repository `repo`: name, version, dependencies, conflicts, provides -/
def pkg (repo name ver : Nat) (deps : List (CTuple Nat Str) := []) (confl : List (CTuple Nat Str) := [])
    (prov : List (CTuple Nat Str) := []) : P :=
  { name := name
    version := v ver
    installRequires := deps
    conflicts := confl
    declaredProvides := prov
    repo := some repo }

end Verif.Pkg.Example
