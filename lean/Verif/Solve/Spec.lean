import Verif.Rules.Spec
import Verif.Solve.Transaction
/-
Specification for transactions: what a list of operations does to a set of installed packages, and when a package depends
on another. Packages are identified by what `PackageMetadata.__eq__` compares (`PKey`).
-/
set_option linter.unusedSectionVars false
namespace Verif.Props
open Verif Verif.Pkg Verif.Solve

variable {N S U : Type} [LinearOrder N] [DecidableEq S] [LinearOrder U] [Syntax S U]

/-- a dependency of the package `k` is met by the available package `k'` -/
def DependsOn (avail : List (Package N S U)) (mods : Option (Modifiers N)) (k k' : PKey N S U) : Prop :=
  ∃ t ∈ k.installRequires, ∃ d ∈ avail, d.key = k' ∧ MeetsDep mods t d

/-- the package `k` is removed by one of the operations (an update removes its source) -/
def RemovedBy (ops : List (Op N S U)) (k : PKey N S U) : Prop :=
  ∃ o ∈ ops, match o with
    | .install _ => False
    | .remove p => p.key = k
    | .update _ source => source.key = k

/-- the package `k` is installed by one of the operations (an update installs its package) -/
def InstalledBy (ops : List (Op N S U)) (k : PKey N S U) : Prop :=
  ∃ o ∈ ops, match o with
    | .install p => p.key = k
    | .remove _ => False
    | .update p _ => p.key = k

/-- the set of installed packages after the operations -/
def Apply (ops : List (Op N S U)) (I : PKey N S U → Prop) (k : PKey N S U) : Prop :=
  (I k ∧ ¬ RemovedBy ops k) ∨ InstalledBy ops k

/-- `k` and `k'` have the same name and version -/
def SameNameVersion (k k' : PKey N S U) : Prop := k.name = k'.name ∧ k.version = k'.version

/-- `k` is the package with identifier `i` -/
def IdOf (pool : Pool N S U) (k : PKey N S U) (i : Nat) : Prop := ∃ p, p.key = k ∧ pool.packageId p = .ok i

/-- the package is decided to be in / out: its identifier occurs as a positive / negative literal -/
def DecidedIn (pool : Pool N S U) (D : List Int) (k : PKey N S U) : Prop := ∃ i, IdOf pool k i ∧ (i : Int) ∈ D
def DecidedOut (pool : Pool N S U) (D : List Int) (k : PKey N S U) : Prop := ∃ i, IdOf pool k i ∧ -(i : Int) ∈ D

/-- the package is one of the installed ones, given by their identifiers -/
def InstalledId (pool : Pool N S U) (ids : List Nat) (k : PKey N S U) : Prop := ∃ i, IdOf pool k i ∧ i ∈ ids

/-- decisions are literals of packages of the pool; no package is decided both in and out -/
structure Decisions (pool : Pool N S U) (D : List Int) : Prop where
  known : ∀ l ∈ D, ∃ k, IdOf pool k l.natAbs
  consistent : ∀ l ∈ D, -l ∉ D

/-- the package `k` provides `n` -/
def KeyProvides (avail : List (Package N S U)) (k : PKey N S U) (n : N) : Prop := ∃ p ∈ avail, p.key = k ∧ Provides p n

/-- one of the two packages provides the name of the other one -/
def Linked (avail : List (Package N S U)) (k k' : PKey N S U) : Prop :=
  KeyProvides avail k k'.name ∨ KeyProvides avail k' k.name

/-- an update as the removal and the install it stands for -/
def expand : Op N S U → List (Op N S U)
  | .update package source => [.remove source, .install package]
  | o => [o]

end Verif.Props
