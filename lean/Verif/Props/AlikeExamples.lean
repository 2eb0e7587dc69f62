import Verif.Props.Alike
/-
Concrete cases for C94.
-/
namespace Verif.Props.AlikeExample
open Verif Verif.Pkg Verif.Solve Verif.Rules
open Verif.Pkg.Example Verif.Solve.Example SolveExample

/-- Installed: 1-1. Remote: 1-2, 2-1 and 2-2 which depend on 1 ≥ 2, 3-1 which provides 7, 4-1 which conflicts with 2. -/
def inst : List P := [pkg 9 1 1]
def remote : List P := [pkg 0 1 2, pkg 0 2 1 [depc 1 (.geq (v 2))], pkg 0 2 2 [depc 1 (.geq (v 2))],
  pkg 0 3 1 [] [] [(7, [[]])], pkg 0 4 1 [] [dep 2]]

theorem forExample : SolverFor (repos inst remote) (solver inst remote) := solverFor (by decide +kernel) (by decide +kernel)

/-- `2 >= 2, *` as a `Requirement`, and `2 != 1, > 1, != 1` as a `ConflictRequirement`: of the versions 1 and 2 that there
are, both accept 2 only -/
def r : Requirement Nat Nat := ⟨.plain, 2, [.geq (v 2), .any]⟩
def r' : Requirement Nat Nat := ⟨.conflict, 2, [.not (v 1), .gt (v 1), .not (v 1)]⟩

instance (c : Constraint Nat) (w : Version Nat) : Decidable (Accepts c w) := by
  unfold Accepts Earlier SameVersion; cases c <;> infer_instance

instance (r : Requirement Nat Nat) (w : Version Nat) : Decidable (ReqAccepts r w) := by unfold ReqAccepts; infer_instance

instance (p : P) (n : Nat) : Decidable (Provides p n) := by unfold Provides; infer_instance

instance (p : P) (n : Nat) : Decidable (ProvidesOnce p n) := by unfold ProvidesOnce; infer_instance

theorem same : SameAsk (allPackages (repos inst remote)) r r' := Or.inl ⟨rfl, by decide +kernel⟩

/-- a requirement for the name 7, which only 3-1 provides, and one for 3 -/
theorem same_provided : SameAsk (allPackages (repos inst remote)) (req 7) (req 3) :=
  Or.inr ⟨by decide +kernel, by decide +kernel⟩

theorem jobs_same : List.Forall₂ (SameJob (allPackages (repos inst remote))) [install r, softUpdate (req 7)]
    [install r', softUpdate (req 3)] :=
  .cons ⟨rfl, Or.inr ⟨r, r', rfl, rfl, same⟩⟩ (.cons ⟨rfl, Or.inr ⟨_, _, rfl, rfl, same_provided⟩⟩ .nil)

/-- C94: the hypotheses hold, and both requests are solved -/
theorem example_same :
    (solver inst remote).solve insertionOrder (request [install r, softUpdate (req 7)]) =
      (solver inst remote).solve insertionOrder (request [install r', softUpdate (req 3)]) :=
  C94_same_outcome forExample insertionOrder rfl jobs_same

theorem example_solved :
    solved ((solver inst remote).solve insertionOrder (request [install r, softUpdate (req 7)])) =
      some (.ok ([.remove (pkg 9 1 1), .install (pkg 0 1 2), .install (pkg 0 3 1 [] [] [(7, [[]])]),
          .install (pkg 0 2 2 [depc 1 (.geq (v 2))])],
        [.update (pkg 0 1 2) (pkg 9 1 1), .install (pkg 0 3 1 [] [] [(7, [[]])]),
          .install (pkg 0 2 2 [depc 1 (.geq (v 2))])])) := by
  decide +kernel

/-- C94: and here both fail, with the corresponding jobs in the hint -/
theorem example_hint : SameOutcome (allPackages (repos inst remote))
    ((solver inst remote).solveWithHint insertionOrder (fun _ => insertionOrder) (request [install r, install (req 4)]))
    ((solver inst remote).solveWithHint insertionOrder (fun _ => insertionOrder) (request [install r', install (req 4)])) :=
  C94_same_outcome_with_hint forExample insertionOrder (fun _ _ _ => rfl) rfl
    (.cons ⟨rfl, Or.inr ⟨r, r', rfl, rfl, same⟩⟩ (.cons (sameJob_refl _ _) .nil))

theorem example_hint_jobs : (match (solver inst remote).solveWithHint insertionOrder (fun _ => insertionOrder)
      (request [install (req 3), install r, install (req 4)]) with
    | .error (.hint _ js) => some js
    | _ => none) = some [install r, install (req 4)] := by
  decide +kernel

/-- C94: requirements that accept different versions do not ask for the same -/
theorem example_not_same : ¬ SameAsk (allPackages (repos inst remote)) r (req 2) := by
  rintro (⟨_, h⟩ | ⟨_, h⟩) <;> revert h <;> decide +kernel

end Verif.Props.AlikeExample
