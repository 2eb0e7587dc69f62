import Verif.Solve.Model
import Verif.Pkg.Example
/-
Helpers for concrete cases: packages are `pkg repository name version [dependencies] [conflicts] [provided names]`.
-/
namespace Verif.Solve.Example
open Verif Verif.Pkg Verif.Pkg.Example Verif.Graph

/-- iteration in insertion order -/
def popFirst : PopOrder Int :=
  ⟨fun _ l => l.headD 0, fun _ l h => by cases l with | nil => exact absurd rfl h | cons a t => simp⟩

def insertionOrder : Orders :=
  { policy := fun _ l => l
    policyPerm := fun _ l => List.Perm.refl l
    prefer := id
    preferPerm := fun l => List.Perm.refl l
    installed := id
    installedPerm := fun l => List.Perm.refl l
    roots := id
    rootsPerm := fun l => List.Perm.refl l
    pop := popFirst }

def poolOf (rs : List (Repository Nat Str Nat)) : Pool Nat Str Nat := (Pool.addRepositories rs (Pool.empty none)).1

def solver (inst remote : List P) (prune := true) (strict := false) : DependencySolver Nat Str Nat :=
  { pool := poolOf [Repository.ofList inst, Repository.ofList remote]
    remote := [Repository.ofList remote]
    installed := Repository.ofList inst
    usePruning := prune
    strict := strict }

def req (n : Nat) (c : List (Constraint Nat) := [.any]) : Requirement Nat Nat := ⟨.install, n, c⟩
def install (r : Requirement Nat Nat) : Job Nat Nat := ⟨some r, .install⟩
def remove (r : Requirement Nat Nat) : Job Nat Nat := ⟨some r, .remove⟩
def hardUpdate (r : Requirement Nat Nat) : Job Nat Nat := ⟨some r, .hardUpdate⟩
def softUpdate (r : Requirement Nat Nat) : Job Nat Nat := ⟨some r, .softUpdate⟩

/-- the request without modifiers -/
def request (jobs : List (Job Nat Nat)) : Request Nat Nat := ⟨Modifiers.empty, jobs⟩

/-- an outcome that can be compared: the operations and the pretty ones -/
def outcome : Except PErr (Transaction Nat Str Nat) → Except PErr (List (Op Nat Str Nat) × List (Op Nat Str Nat))
  | .ok t => .ok (t.operations, t.pretty)
  | .error e => .error e

/-- the same for `solve`; `none`: an exception of the SAT solver -/
def solved : Except (SErr Nat Nat) (Transaction Nat Str Nat) →
    Option (Except PErr (List (Op Nat Str Nat) × List (Op Nat Str Nat)))
  | .ok t => some (.ok (t.operations, t.pretty))
  | .error (.pkg e) => some (.error e)
  | .error _ => none

end Verif.Solve.Example
