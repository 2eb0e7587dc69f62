import Verif.Solve.Determinism
import Verif.Props.Solve
/-
Property C76: how far the result of `solve` is determined by the packages and the request, when the order in which Python goes
through a set is not.
-/
set_option linter.unusedSectionVars false
namespace Verif.Props
open Verif Verif.Pkg Verif.Graph Verif.Rules Verif.Solve

variable {N S U : Type} [LinearOrder N] [DecidableEq S] [LinearOrder U] [Syntax S U]

/-- C76 in full: two runs of `solve` that differ in the iteration orders of sets only have the same outcome. The code violates
it, see below. -/
def Deterministic (rs : List (Repository N S U)) (s : DependencySolver N S U) : Prop :=
  SolverFor rs s → ∀ (o o' : Orders) (q : Request N U) (t : Transaction N S U), s.solve o q = .ok t → s.solve o' q = .ok t

/-- C76: two runs with orders that differ harmlessly return the same transaction, with its operations in the same order, or
both raise the same SatisfiabilityError, with the same unsatisfiable core. -/
theorem C76_solve_deterministic_partial {rs : List (Repository N S U)} {s : DependencySolver N S U} (hs : SolverFor rs s)
    {o o' : Orders} (hh : Harmless rs s o o') (q : Request N U) :
    (∀ t, s.solve o q = .ok t ↔ s.solve o' q = .ok t) ∧
    ∀ e, s.solve o q = .error (.sat e) ↔ s.solve o' q = .error (.sat e) :=
  ⟨fun _ => ⟨solve_order hh hs q, solve_order hh.symm hs q⟩,
    fun _ => ⟨solve_order_sat hh hs q, solve_order_sat hh.symm hs q⟩⟩

/-- C76: a transaction depends on the decisions and on the installed packages only as sets, if no two installed packages have
the same name and version. -/
theorem C76_transaction_deterministic {pool : Pool N S U} {avail : List (Package N S U)} (hok : pool.OK avail) {D D' : List Int}
    (hD : Decisions pool D) (hm : ∀ l, l ∈ D ↔ l ∈ D') {inst inst' : List Nat} (hI : ∀ i, i ∈ inst ↔ i ∈ inst')
    (hu : ∀ i ∈ inst, ∀ j ∈ inst, packageKey pool i = packageKey pool j → i = j) {t : Transaction N S U} :
    mkTransaction pool D inst = .ok t ↔ mkTransaction pool D' inst' = .ok t := by
  refine ⟨mkTransaction_sets hok hD hm hI hu, mkTransaction_sets hok ⟨?_, ?_⟩ (fun l => (hm l).symm) (fun i => (hI i).symm) ?_⟩
  · exact fun l hl => hD.known l ((hm l).2 hl)
  · exact fun l hl hl' => hD.consistent l ((hm l).2 hl) ((hm _).2 hl')
  · exact fun i hi j hj => hu i ((hI i).2 hi) j ((hI j).2 hj)

/-! ### concrete cases -/
section Concrete
open Verif.Pkg.Example Verif.Solve.Example SolveExample

/-- the installed packages are gone through backwards -/
def backwards : Orders :=
  { insertionOrder with
    prefer := List.reverse
    preferPerm := fun l => l.reverse_perm
    roots := List.reverse
    rootsPerm := fun l => l.reverse_perm
    installed := List.reverse
    installedPerm := fun l => l.reverse_perm }

/-- the conditions are met by the example of C40-C49, and two runs of it agree -/
theorem example_harmless : Harmless (repos [pkg 9 1 1, pkg 9 2 2] [pkg 0 3 1 [] [dep 1], pkg 0 3 2 [] [dep 2]])
    (solver [pkg 9 1 1, pkg 9 2 2] [pkg 0 3 1 [] [dep 1], pkg 0 3 2 [] [dep 2]]) insertionOrder backwards := by
  refine ⟨Or.inl rfl, Or.inr (by unfold DistinctVersions; decide +kernel), ?_⟩
  rintro _ _ ⟨p, hp, rfl⟩ ⟨p', hp', rfl⟩
  revert p p'
  decide +kernel

example : solved ((solver [pkg 9 1 1, pkg 9 2 2] [pkg 0 3 1 [] [dep 1], pkg 0 3 2 [] [dep 2]]).solve backwards
    (request [install (req 3)])) = some (.ok ([.remove (pkg 9 2 2), .install (pkg 0 3 2 [] [dep 2])],
      [.remove (pkg 9 2 2), .install (pkg 0 3 2 [] [dep 2])])) := by decide +kernel

/-! #### each of the conditions is needed -/

/-- two runs for the same solver and the same request return different transactions -/
def Differ (s : DependencySolver Nat Str Nat) (o o' : Orders) (q : Request Nat Nat) : Prop :=
  ∃ t t', s.solve o q = .ok t ∧ s.solve o' q = .ok t' ∧ t.operations ≠ t'.operations

/-- backwards through the preferred packages only -/
def preferBackwards : Orders :=
  { insertionOrder with
    prefer := List.reverse
    preferPerm := fun l => l.reverse_perm }
/-- backwards through the candidates of the policy only -/
def policyBackwards : Orders :=
  { insertionOrder with
    policy := fun _ => List.reverse
    policyPerm := fun _ l => l.reverse_perm }
/-- backwards through the installed ids only -/
def installedBackwards : Orders :=
  { insertionOrder with
    installed := List.reverse
    installedPerm := fun l => l.reverse_perm }

theorem differ {s : DependencySolver Nat Str Nat} {o o' : Orders} {q : Request Nat Nat} {l m l' m' : List (Op Nat Str Nat)}
    (h : solved (s.solve o q) = some (.ok (l, m))) (h' : solved (s.solve o' q) = some (.ok (l', m'))) (hne : l ≠ l') :
    Differ s o o' q := by
  obtain ⟨t, h1, h2⟩ := solved_ok h
  obtain ⟨t', h1', h2'⟩ := solved_ok h'
  refine ⟨t, t', h1, h1', ?_⟩
  rw [h2, h2']
  exact hne

/-- C76 is violated: a-1 and b-1 are installed, c-1 conflicts with a and c-2 with b; which of a and b is removed to install c
depends on the order of the set of installed packages, that is on the hashes of strings. -/
theorem C76_prefer_order_matters : Differ (solver [pkg 9 1 1, pkg 9 2 1] [pkg 0 3 1 [] [dep 1], pkg 0 3 2 [] [dep 2]])
    insertionOrder preferBackwards (request [install (req 3)]) :=
  differ (l := [.remove (pkg 9 2 1), .install (pkg 0 3 2 [] [dep 2])]) (m := [.remove (pkg 9 2 1), .install (pkg 0 3 2 [] [dep 2])])
    (l' := [.remove (pkg 9 1 1), .install (pkg 0 3 1 [] [dep 1])]) (m' := [.remove (pkg 9 1 1), .install (pkg 0 3 1 [] [dep 1])])
    (by decide +kernel) (by decide +kernel) (by decide +kernel)

/-- C76 is violated: two packages of the same version that provide what is needed; the one that the policy's `max` meets first
is installed. -/
theorem C76_policy_order_matters : Differ
    (solver [] [pkg 0 1 1 [] [dep 2] [dep 9], pkg 0 2 1 [] [dep 1] [dep 9], pkg 0 3 1 [dep 9]])
    insertionOrder policyBackwards (request [install (req 3)]) :=
  differ (l := [.install (pkg 0 1 1 [] [dep 2] [dep 9]), .install (pkg 0 3 1 [dep 9])])
    (m := [.install (pkg 0 1 1 [] [dep 2] [dep 9]), .install (pkg 0 3 1 [dep 9])])
    (l' := [.install (pkg 0 2 1 [] [dep 1] [dep 9]), .install (pkg 0 3 1 [dep 9])])
    (m' := [.install (pkg 0 2 1 [] [dep 1] [dep 9]), .install (pkg 0 3 1 [dep 9])])
    (by decide +kernel) (by decide +kernel) (by decide +kernel)

/-- C76 is violated: two installed packages of the same name and version, which are replaced by a third one; one of them is
left where it is, which one depends on the order of the set of installed ids. -/
theorem C76_installed_order_matters : Differ
    (solver [pkg 9 1 1 [dep 5], pkg 9 1 1 [dep 6], pkg 9 5 1, pkg 9 6 1] [pkg 0 1 1, pkg 0 3 1 [] [dep 5, dep 6]])
    insertionOrder installedBackwards (request [install (req 3), install (req 1)]) :=
  differ (l := [.remove (pkg 9 1 1 [dep 5]), .remove (pkg 9 6 1), .remove (pkg 9 5 1), .install (pkg 0 3 1 [] [dep 5, dep 6])])
    (m := [.remove (pkg 9 1 1 [dep 5]), .remove (pkg 9 6 1), .remove (pkg 9 5 1), .install (pkg 0 3 1 [] [dep 5, dep 6])])
    (l' := [.remove (pkg 9 1 1 [dep 6]), .remove (pkg 9 6 1), .remove (pkg 9 5 1), .install (pkg 0 3 1 [] [dep 5, dep 6])])
    (m' := [.remove (pkg 9 1 1 [dep 6]), .remove (pkg 9 6 1), .remove (pkg 9 5 1), .install (pkg 0 3 1 [] [dep 5, dep 6])])
    (by decide +kernel) (by decide +kernel) (by decide +kernel)

/-- C76 in full does not hold. -/
theorem C76_violated : ∃ (rs : List (Repository Nat Str Nat)) (s : DependencySolver Nat Str Nat), SolverFor rs s ∧
    ¬ Deterministic rs s := by
  refine ⟨_, _, solverFor (inst := [pkg 9 1 1, pkg 9 2 1]) (remote := [pkg 0 3 1 [] [dep 1], pkg 0 3 2 [] [dep 2]])
    (prune := true) (strict := false) (by decide +kernel) (by decide +kernel), fun h => ?_⟩
  obtain ⟨t, t', h1, h2, hne⟩ := C76_prefer_order_matters
  have := h (solverFor (by decide +kernel) (by decide +kernel)) insertionOrder preferBackwards _ t h1
  rw [h2] at this
  cases this
  exact hne rfl

end Concrete
end Verif.Props
