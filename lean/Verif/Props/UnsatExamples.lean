import Verif.Props.UnsatCore
import Verif.Props.Solve
/-
Concrete cases for C39 and C65 - C67, and the requests for which an explanation says too little.
-/
namespace Verif.Props.UnsatExample
open Verif Verif.Pkg Verif.Solve Verif.Rules Verif.Graph Verif.Sat
open Verif.Pkg.Example Verif.Solve.Example Verif.Props.SolveExample

/-- names are p1, p2, ..., versions numbers, requirements names -/
def texts : Texts Nat Nat :=
  { name := fun n => 'p' :: (toString n).toList
    version := fun w => (toString w.upstream).toList
    requirement := fun r => 'p' :: (toString r.name).toList }

/-- iteration in insertion order -/
def setOrder : XOrders := ⟨id, fun l => List.Perm.refl l, fun _ => id, fun _ l => List.Perm.refl l⟩

/-- what can be seen of an explanation: the literals of the rules along its paths, and its requirements -/
def seen : Except (Failure Nat Nat) (Transaction Nat Str Nat) → Option (List (List (List Int)) × Option (List (Requirement Nat Nat)))
  | .error (.unsat x) => some (x.chains.map (List.map Rule.literals), match x.requirements with
    | .ok qs => some qs
    | .error _ => none)
  | _ => none

/-- its text, printed with the pool of the solver -/
def printed (s : DependencySolver Nat Str Nat) : Except (Failure Nat Nat) (Transaction Nat Str Nat) → Option (List Char)
  | .error (.unsat x) => match x.toText texts (some s.pool) with
    | .ok (t, _) => some t
    | .error _ => none
  | _ => none

theorem seen_unsat {y : Except (Failure Nat Nat) (Transaction Nat Str Nat)} {a : List (List (List Int))}
    {qs : List (Requirement Nat Nat)} (h : seen y = some (a, some qs)) :
    ∃ x, y = .error (.unsat x) ∧ x.chains.map (List.map Rule.literals) = a ∧ x.requirements = .ok qs := by
  cases y with
  | ok t => simp [seen] at h
  | error e =>
    cases e with
    | unsat x =>
      simp only [seen, Option.some.injEq, Prod.mk.injEq] at h
      refine ⟨x, rfl, h.1, ?_⟩
      have h2 := h.2
      split at h2
      · next z hz => cases h2; exact hz
      · cases h2
    | explaining e => simp [seen] at h
    | other e => simp [seen] at h

/-! ### C39, C65, C66: an explanation -/

/-- 1-1 depends on 3, 2-1 conflicts with 3. -/
def remote1 : List P := [pkg 0 1 1 [dep 3], pkg 0 3 1, pkg 0 2 1 [] [dep 3]]
def jobs1 : Request Nat Nat := request [install (req 1), install (req 2)]

theorem for1 : SolverFor (repos [] remote1) (solver [] remote1) := solverFor (by decide +kernel) (by decide +kernel)

/-- the path leads from one job to the other: 1 is asked for, 1-1 requires 3-1, 3-1 and 2-1 conflict, 2 is asked for -/
theorem explanation1 : seen ((solver [] remote1).solveExplained texts insertionOrder setOrder jobs1) =
    some ([[[1], [-1, 3], [-3, -2], [2]]], some [req 1, req 2]) := by decide +kernel

theorem text1 : printed (solver [] remote1) ((solver [] remote1).solveExplained texts insertionOrder setOrder jobs1) =
    some ("Conflicting requirements:\n".toList ++
      "Requirements: 'p1'\n    Install command rule (+p1-1)\n".toList ++
      "Requirements: 'p1' <- 'p3'\n    p1-1 requires (+p3-1)\n".toList ++
      "Requirements: 'p2' <- 'p3'\n    p3-1 conflicts with +p2-1\n".toList ++
      "Requirements: 'p2'\n    Install command rule (+p2-1)\n".toList) := by decide +kernel


/-- C39, C66, C67 apply to it -/
example : ∃ x, (solver [] remote1).solveExplained texts insertionOrder setOrder jobs1 = .error (.unsat x) ∧
    x.requirements = .ok [req 1, req 2] ∧ (∀ chain ∈ x.chains, chain.IsChain SharePackage) := by
  obtain ⟨x, h1, -, h3⟩ := seen_unsat explanation1
  obtain ⟨st, -, h4⟩ := C66_chains for1 h1
  exact ⟨x, h1, h3, fun chain hc => (h4 chain hc).1⟩

/-- the clause that had assigned the literal in conflict is `[1]`: the last part of `C67_derivation_partial` applies -/
def byUnit : Except (Failure Nat Nat) (Transaction Nat Str Nat) → Bool
  | .error (.unsat x) => match x.evidence.assigning (iabs x.implicand) with
    | some a => decide (x.evidence.lits a = [x.implicand])
    | none => false
  | _ => false

example : byUnit ((solver [] remote1).solveExplained texts insertionOrder setOrder jobs1) = true := by decide +kernel

/-! ### C67 does not hold -/

/-- C67 says: the requirements that the explanation names conflict, so the jobs they come from cannot be satisfied on
their own. -/
def NamesAConflict (rs : List (Repository Nat Str Nat)) (s : DependencySolver Nat Str Nat) (q : Request Nat Nat)
    (x : Explanation Nat Nat) : Prop :=
  ∃ qs, x.requirements = .ok qs ∧
    ¬ ∃ I, Solves rs s { q with jobs := q.jobs.filter (fun j => decide (∃ r ∈ qs, j.requirement = some r)) } I

/-- 1-1 depends on 3 and conflicts with 3; 2-1 has nothing to do with it. -/
def remote2 : List P := [pkg 0 1 1 [dep 3] [dep 3], pkg 0 3 1, pkg 0 2 1]
def jobs2 : Request Nat Nat := request [install (req 1), install (req 2)]

theorem for2 : SolverFor (repos [] remote2) (solver [] remote2) := solverFor (by decide +kernel) (by decide +kernel)

/-- C67 fails: nothing at all is reported -/
theorem C67_names_nothing : ∃ x, (solver [] remote2).solveExplained texts insertionOrder setOrder jobs2 = .error (.unsat x) ∧
    x.paths = [] ∧ x.requirements = .ok [] := by
  have h : seen ((solver [] remote2).solveExplained texts insertionOrder setOrder jobs2) = some ([], some []) := by
    decide +kernel
  obtain ⟨x, h1, h2, h3⟩ := seen_unsat h
  refine ⟨x, h1, ?_, h3⟩
  unfold Explanation.chains at h2
  simpa using h2

/-- and the message is empty -/
theorem C67_prints_nothing :
    printed (solver [] remote2) ((solver [] remote2).solveExplained texts insertionOrder setOrder jobs2) = some [] := by
  decide +kernel

/-- when the same two jobs are given in the other order, something is reported -/
example : seen ((solver [] remote2).solveExplained texts insertionOrder setOrder
    (request [install (req 2), install (req 1)])) = some ([[[1]]], some [req 1]) := by decide +kernel

/-- 1-1 depends on 2; 4-1 conflicts with 2-1; 2-2 depends on 3 and conflicts with 3. -/
def remote3 : List P := [pkg 0 1 1 [dep 2], pkg 0 2 1, pkg 0 2 2 [dep 3] [dep 3], pkg 0 3 1,
  pkg 0 4 1 [] [depc 2 (.equal (v 1))]]
def jobs3 : Request Nat Nat := request [install (req 1), install (req 4)]

theorem for3 : SolverFor (repos [] remote3) (solver [] remote3) := solverFor (by decide +kernel) (by decide +kernel)

theorem explanation3 : seen ((solver [] remote3).solveExplained texts insertionOrder setOrder jobs3) =
    some ([[[-1, 2, 3]]], some [req 1]) := by decide +kernel

theorem solvable3 : ∃ t, (solver [] remote3).solve insertionOrder (request [install (req 1)]) = .ok t := by
  have h4 : solved ((solver [] remote3).solve insertionOrder (request [install (req 1)])) =
      some (.ok ([.install (pkg 0 2 1), .install (pkg 0 1 1 [dep 2])], [.install (pkg 0 2 1), .install (pkg 0 1 1 [dep 2])])) := by
    decide +kernel
  obtain ⟨t, ht, -⟩ := solved_ok h4
  exact ⟨t, ht⟩

theorem only1 : jobs3.jobs.filter (fun j => decide (∃ r ∈ [req 1], j.requirement = some r)) = [install (req 1)] := by
  decide +kernel

theorem solves_of_ok {rs : List (Repository Nat Str Nat)} {s : DependencySolver Nat Str Nat} (hs : SolverFor rs s) {o : Orders}
    {q : Request Nat Nat} {t : Transaction Nat Str Nat} (h : s.solve o q = .ok t) : ∃ I, Solves rs s q I := by
  have hd := C40_decides hs o q
  rw [h] at hd
  exact hd

/-- C67 fails: only 1 is named, but 1 can be installed; it is 4 that is in the way -/
theorem C67_names_too_little : ∃ x, (solver [] remote3).solveExplained texts insertionOrder setOrder jobs3 = .error (.unsat x) ∧
    x.requirements = .ok [req 1] ∧ (∃ t, (solver [] remote3).solve insertionOrder (request [install (req 1)]) = .ok t) ∧
    ¬ NamesAConflict (repos [] remote3) (solver [] remote3) jobs3 x := by
  obtain ⟨x, h1, -, h3⟩ := seen_unsat explanation3
  refine ⟨x, h1, h3, solvable3, ?_⟩
  rintro ⟨qs, k1, k2⟩
  obtain ⟨t, ht⟩ := solvable3
  rw [h3, Except.ok.injEq] at k1
  rw [← k1, only1] at k2
  exact k2 (solves_of_ok for3 ht)

end Verif.Props.UnsatExample
