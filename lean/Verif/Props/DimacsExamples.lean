import Verif.Props.Dimacs
import Verif.Props.UnsatExamples
/-
C93: concrete cases.
-/
namespace Verif.Props.DimacsExample
open Verif Verif.Pkg Verif.Pkg.Example Verif.Rules Verif.Sat Verif.Solve Verif.Solve.Example Verif.Dimacs Verif.Props.SolveExample

/-- the clauses of the SAT solver for a request, and the requirement ids -/
def start (s : DependencySolver Nat Str Nat) (q : Request Nat Nat) : Option (List (List Int) × List Nat) :=
  match s.satSolver insertionOrder q with
  | .ok (sv, reqs) => some (clauseLists sv, reqs)
  | .error _ => none

/-- the text that is written -/
def text (s : DependencySolver Nat Str Nat) (q : Request Nat Nat) : Option String :=
  match s.satSolver insertionOrder q with
  | .ok (sv, _) => some (String.ofList (dimacsText UnsatExample.texts (s.solvePool q) (clauseLists sv)))
  | .error _ => none

/-- the transaction made of an answer -/
def answered (s : DependencySolver Nat Str Nat) (q : Request Nat Nat) (L : List Int) : Option (List (Op Nat Str Nat)) :=
  match s.satSolver insertionOrder q with
  | .ok (_, reqs) => match fromDimacsSolution insertionOrder (s.solvePool q) s.installed reqs L with
    | .ok t => some t.operations
    | .error _ => none
  | .error _ => none

/-- what is read -/
def sent (s : DependencySolver Nat Str Nat) (q : Request Nat Nat) : Option Problem :=
  match s.satSolver insertionOrder q with
  | .ok (sv, _) => Dimacs.read (dimacsText UnsatExample.texts (s.solvePool q) (clauseLists sv))
  | .error _ => none

/-- 1-1 depends on 2; 2-1 and 2-2; 2-1 is installed -/
def remote : List P := [pkg 0 1 1 [dep 2], pkg 0 2 1, pkg 0 2 2]
def inst : List P := [pkg 9 2 1]
def q : Request Nat Nat := request [install (req 1)]

theorem forExample : SolverFor (repos inst remote) (solver inst remote) := solverFor (by decide +kernel) (by decide +kernel)

theorem example_start : start (solver inst remote) q = some ([[-2, 1, 3, 4], [-3, -1], [-4, -1], [-4, -3], [2]], [2]) := by
  decide +kernel

theorem example_text : text (solver inst remote) q = some
    "c KEY\nc {\"1\": \"p2 1\", \"2\": \"p1 1\", \"3\": \"p2 1\", \"4\": \"p2 2\"}\np cnf 4 5\n-2 1 3 4 0\n-3 -1 0\n-4 -1 0\n-4 -3 0\n2 0" := by
  decide +kernel

/-- the answer 1, 2, not 3, not 4: 1-1 is installed, and 2-1 stays -/
theorem example_answer : answered (solver inst remote) q [1, 2, -3, -4] = some [.install (pkg 0 1 1 [dep 2])] := by
  decide +kernel

/-- C93: the hypotheses hold for this answer, and the result is valid -/
theorem example_valid : ∃ sv reqs p t, (solver inst remote).satSolver insertionOrder q = .ok (sv, reqs) ∧
    Dimacs.read (dimacsText UnsatExample.texts ((solver inst remote).solvePool q) (clauseLists sv)) = some p ∧
    Answer p.clauses [1, 2, -3, -4] ∧
    fromDimacsSolution insertionOrder ((solver inst remote).solvePool q) (solver inst remote).installed reqs [1, 2, -3, -4] = .ok t ∧
    Solves (repos inst remote) (solver inst remote) q (Result (solver inst remote) t) := by
  have ha := example_answer
  have hs := example_start
  unfold answered at ha
  unfold start at hs
  split at ha
  · next sv reqs e =>
    rw [e] at hs
    simp only [Option.some.injEq, Prod.mk.injEq] at hs
    split at ha
    · next t ht =>
      have hr := read_dimacs UnsatExample.texts ((solver inst remote).solvePool q) (cs := clauseLists sv) (by rw [hs.1]; decide)
      have hA : Answer (clauseLists sv) [1, 2, -3, -4] := by
        rw [hs.1]
        constructor <;> decide
      refine ⟨sv, reqs, _, t, e, hr, hA, ht, ?_⟩
      refine C93_answer_partial forExample UnsatExample.texts e hr hA ?_ ht (by decide +kernel) (by decide +kernel) (by decide +kernel)
      intro l hl
      simp only [List.mem_cons, List.not_mem_nil, or_false] at hl
      rcases hl with rfl | rfl | rfl | rfl
      · exact ⟨pkg 9 2 1, by decide +kernel⟩
      · exact ⟨pkg 0 1 1 [dep 2], by decide +kernel⟩
      · exact ⟨pkg 0 2 1, by decide +kernel⟩
      · exact ⟨pkg 0 2 2, by decide +kernel⟩
    · simp at ha
  · simp at ha

/-- C93: with 1-1, 2-1 and 3-1 available, the only clause for "install 3" is `3 0`, but one variable is announced -/
theorem C93_violated_header : ∃ p, sent (solver [] [pkg 0 1 1, pkg 0 2 1, pkg 0 3 1]) (request [install (req 3)]) = some p ∧
    p.clauses = [[3]] ∧ ¬ p.HeaderOK := by
  refine ⟨⟨1, 1, [[3]]⟩, by decide +kernel, rfl, ?_⟩
  intro h
  exact absurd (h.vars [3] (by simp) 3 (by simp)).2 (by decide)

/-- C93: there is no SAT solver if the rules contradict each other -/
example : (match (solver [] [pkg 0 1 1]).satSolver insertionOrder (request [install (req 1), remove (req 1)]) with
  | .error (.sat (.satisfiability _)) => true
  | _ => false) = true := by decide +kernel

/-- C93: `initialize` raises TypeError for these repositories -/
example : dimacsInitialize [Repository.ofList remote] (Repository.ofList inst) = .error .typeError :=
  (C93_violated_initialize _ _).2 ⟨none, _, none, _, (by
    show Pool.addRepositories ([Repository.ofList remote] ++ [Repository.ofList inst]) (Pool.empty none) = (_, none)
    rfl), rfl⟩

end Verif.Props.DimacsExample
