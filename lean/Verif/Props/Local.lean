import Verif.Solve.Local
import Verif.Props.Determinism
/-
Property C113: only the packages that can be reached from the request and from the installed packages matter.
-/
set_option linter.unusedSectionVars false
namespace Verif.Props
open Verif Verif.Pkg Verif.Graph Verif.Rules Verif.Solve

variable {N S U : Type} [LinearOrder N] [DecidableEq S] [LinearOrder U] [Syntax S U]

/-! ### specification -/

/-- the names that can be reached: those of the jobs and of the installed packages; and of a package that provides a name that
can be reached, its own name and those that it depends on or conflicts with -/
inductive ReachedName (avail installed : List (Package N S U)) (jobs : List (Job N U)) : N → Prop where
  | job {j r} : j ∈ jobs → j.requirement = some r → ReachedName avail installed jobs r.name
  | installed {p} : p ∈ installed → ReachedName avail installed jobs p.name
  | own {p n} : ReachedName avail installed jobs n → p ∈ avail → Provides p n → ReachedName avail installed jobs p.name
  | dep {p n t} : ReachedName avail installed jobs n → p ∈ avail → Provides p n → t ∈ p.installRequires →
      ReachedName avail installed jobs t.1
  | conflict {p n t} : ReachedName avail installed jobs n → p ∈ avail → Provides p n → t ∈ p.conflicts →
      ReachedName avail installed jobs t.1

/-- `keep` says yes to all packages of the repositories that provide a name that can be reached, and the packages to which it
says yes are the same, in the same order. The solvers have the same installed packages and the same settings. If there is an
upgrade job, then the remote repositories have the same packages with the names of the installed ones. -/
structure SameReachable (rs rs' : List (Repository N S U)) (s s' : DependencySolver N S U) (jobs : List (Job N U))
    (keep : Package N S U → Bool) : Prop where
  installed : s'.installed = s.installed
  strict : s'.strict = s.strict
  pruning : s'.usePruning = s.usePruning
  matter : ∀ n, ReachedName (allPackages rs) s.installed.iter jobs n →
    ∀ p, p ∈ allPackages rs ∨ p ∈ allPackages rs' → Provides p n → keep p = true
  same : (allPackages rs).filter keep = (allPackages rs').filter keep
  remote : (∃ j ∈ jobs, j.kind = .upgrade) → ∀ p ∈ s.installed.iter,
    (remotePackages s).filter (fun r => decide (r.name = p.name)) = (remotePackages s').filter (fun r => decide (r.name = p.name))

/-! ### the theorems -/

section
variable {rs rs' : List (Repository N S U)} {s s' : DependencySolver N S U} {jobs : List (Job N U)}
  {keep : Package N S U → Bool}

theorem SameReachable.names (h : SameReachable rs rs' s s' jobs keep) (n : N) :
    ReachedName (allPackages rs) s.installed.iter jobs n ↔ ReachedName (allPackages rs') s'.installed.iter jobs n := by
  have key : ∀ n, ReachedName (allPackages rs) s.installed.iter jobs n → ∀ p, Provides p n →
      (p ∈ allPackages rs ↔ p ∈ allPackages rs') := by
    intro n hn p hp
    constructor <;> intro hm
    · have : p ∈ (allPackages rs).filter keep := List.mem_filter.2 ⟨hm, h.matter n hn p (.inl hm) hp⟩
      rw [h.same] at this
      exact (List.mem_filter.1 this).1
    · have : p ∈ (allPackages rs').filter keep := List.mem_filter.2 ⟨hm, h.matter n hn p (.inr hm) hp⟩
      rw [← h.same] at this
      exact (List.mem_filter.1 this).1
  rw [h.installed]
  constructor
  · intro hn
    induction hn with
    | job h1 h2 => exact .job h1 h2
    | installed h1 => exact .installed h1
    | own h0 h1 h2 ih => exact .own ih ((key _ h0 _ h2).1 h1) h2
    | dep h0 h1 h2 h3 ih => exact .dep ih ((key _ h0 _ h2).1 h1) h2 h3
    | conflict h0 h1 h2 h3 ih => exact .conflict ih ((key _ h0 _ h2).1 h1) h2 h3
  · intro hn
    induction hn with
    | job h1 h2 => exact .job h1 h2
    | installed h1 => exact .installed h1
    | own h0 h1 h2 ih => exact .own ih ((key _ ih _ h2).2 h1) h2
    | dep h0 h1 h2 h3 ih => exact .dep ih ((key _ ih _ h2).2 h1) h2 h3
    | conflict h0 h1 h2 h3 ih => exact .conflict ih ((key _ ih _ h2).2 h1) h2 h3

theorem SameReachable.symm (h : SameReachable rs rs' s s' jobs keep) : SameReachable rs' rs s' s jobs keep where
  installed := h.installed.symm
  strict := h.strict.symm
  pruning := h.pruning.symm
  matter n hn p hp := h.matter n ((h.names n).2 hn) p hp.symm
  same := h.same.symm
  remote hj p hp := (h.remote hj p (by rw [← h.installed]; exact hp)).symm

/-- a job that can be asked for -/
private def Asked (A : N → Prop) (jobs : List (Job N U)) (j : Job N U) : Prop :=
  (∀ r, j.requirement = some r → A r.name) ∧ (j.kind = .upgrade → ∃ j ∈ jobs, j.kind = .upgrade)

theorem built_enters {m : Option (Modifiers N)} {pool : Pool N S U} (h : Built rs m pool) : ∀ p ∈ allPackages rs, Enters p := by
  obtain ⟨m0, pool0, h1, h2⟩ := h
  exact addRepositories_enters rs (Pool.empty m0) (by rw [h1])

open Classical in
theorem solve_local (hs : SolverFor rs s) (hs' : SolverFor rs' s') (h : SameReachable rs rs' s s' jobs keep) (o : Orders)
    (m : Modifiers N) : ∃ o', ∀ q : Request N U, q.modifiers = m →
      (∀ j ∈ q.jobs, Asked (ReachedName (allPackages rs) s.installed.iter jobs) jobs j) → s'.solve o' q = s.solve o q := by
  set A := ReachedName (allPackages rs) s.installed.iter jobs with hA
  have hinst : ∀ p ∈ s.installed.iter, A p.name := fun p hp => .installed hp
  have hb := hs.solvePool (⟨m, []⟩ : Request N U)
  have hb' := hs'.solvePool (⟨m, []⟩ : Request N U)
  have hk : ∀ p, p ∈ allPackages rs ∨ p ∈ allPackages rs' → (∃ n, A n ∧ n ∈ p.provNames) → keep p = true := by
    rintro p hp ⟨n, hn, hn'⟩
    exact h.matter n hn p hp ((provides_iff p n).2 hn')
  have hf : ∀ (L : List (Package N S U)), (∀ p ∈ L, p ∈ allPackages rs ∨ p ∈ allPackages rs') →
      L.filter (fun p => decide (∃ n, A n ∧ n ∈ p.provNames)) =
        (L.filter keep).filter (fun p => decide (∃ n, A n ∧ n ∈ p.provNames)) := by
    intro L hL
    rw [List.filter_filter]
    apply List.filter_congr
    intro p hp
    cases hd : decide (∃ n, A n ∧ n ∈ p.provNames) with
    | false => rfl
    | true => rw [hk p (hL p hp) (of_decide_eq_true hd)]; rfl
  obtain ⟨o', ho'⟩ := solveIn_local (A := A) hb.ok hb'.ok (by rw [hb.modifiers, hb'.modifiers]) (built_enters hb)
    (by
      rintro p hp ⟨n, hn, hn'⟩
      have hpn := (provides_iff p n).2 hn'
      exact ⟨.own hn hp hpn, fun t ht => .dep hn hp hpn ht, fun t ht => .conflict hn hp hpn ht⟩)
    (by rw [hf _ (fun p hp => .inl hp), hf (allPackages rs') (fun p hp => .inr hp), h.same])
    h.installed h.strict h.pruning hinst o
  refine ⟨o', fun q hq hj => ?_⟩
  have hm1 := convertUpgrade_congr h.installed q (fun ⟨j, hj', hk'⟩ => h.remote ((hj j hj').2 hk'))
  have hm2 : (convertUpgrade q s.remote s.installed).modifiers = m := by
    rw [← hq]; unfold convertUpgrade; split
    · split <;> rfl
    · rfl
  rw [solve_eq_solveIn, solve_eq_solveIn, hm1]
  have e : ∀ s : DependencySolver N S U, s.solvePool (convertUpgrade q s.remote s.installed) = s.solvePool ⟨m, []⟩ := by
    intro s
    have : (convertUpgrade q s.remote s.installed).modifiers = m := by
      rw [← hq]; unfold convertUpgrade; split
      · split <;> rfl
      · rfl
    unfold DependencySolver.solvePool; rw [this]
  have e' : s'.solvePool (convertUpgrade q s.remote s.installed) = s'.solvePool ⟨m, []⟩ := by
    unfold DependencySolver.solvePool; rw [hm2]
  rw [e, e']
  exact ho' _ (convertUpgrade_names s.remote s.installed q (fun j hj' => (hj j hj').1) hinst)

/-- C113: if two solvers agree on the packages that can be reached, then whatever `solve` does with one of them for a request
(return a transaction, raise SatisfiabilityError with a core, or raise another exception) it may also do with the other one:
for every choice of Python's iteration orders in one run there is one for the other run such that the outcomes are equal. -/
theorem C113_unreached_packages_do_not_matter (hs : SolverFor rs s) (hs' : SolverFor rs' s') {q : Request N U}
    (h : SameReachable rs rs' s s' q.jobs keep) :
    (∀ o, ∃ o', s'.solve o' q = s.solve o q) ∧ ∀ o', ∃ o, s.solve o q = s'.solve o' q := by
  constructor
  · intro o
    obtain ⟨o', ho'⟩ := solve_local hs hs' h o q.modifiers
    exact ⟨o', ho' q rfl (fun j hj => ⟨fun r hr => .job hj hr, fun hk => ⟨j, hj, hk⟩⟩)⟩
  · intro o'
    obtain ⟨o, ho⟩ := solve_local hs' hs h.symm o' q.modifiers
    exact ⟨o, ho q rfl (fun j hj => ⟨fun r hr => .job hj hr, fun hk => ⟨j, hj, hk⟩⟩)⟩

theorem solveWithHint_local (hs : SolverFor rs s) (hs' : SolverFor rs' s') {q : Request N U}
    (h : SameReachable rs rs' s s' q.jobs keep) (o : Orders) (oc : List (Job N U) → Orders) :
    ∃ o' oc', s'.solveWithHint o' oc' q = s.solveWithHint o oc q := by
  obtain ⟨o', ho'⟩ := solve_local hs hs' h o q.modifiers
  have ho' := ho' q rfl (fun j hj => ⟨fun r hr => .job hj hr, fun hk => ⟨j, hj, hk⟩⟩)
  choose f hf using fun o => solve_local hs hs' h o q.modifiers
  have hm1 := convertUpgrade_congr h.installed q h.remote
  have hm2 : (convertUpgrade q s.remote s.installed).modifiers = q.modifiers := by
    unfold convertUpgrade; split
    · split <;> rfl
    · rfl
  refine ⟨o', fun J => f (oc J), ?_⟩
  have hcb : ∀ J, (∀ j ∈ J, Asked (ReachedName (allPackages rs) s.installed.iter q.jobs) q.jobs j) →
      hintCallback s' (fun J => f (oc J)) q.modifiers J = hintCallback s oc q.modifiers J := by
    intro J hJ
    unfold hintCallback
    rw [hf (oc J) ⟨q.modifiers, J⟩ rfl hJ]
  have hjobs : ∀ j ∈ (convertUpgrade q s.remote s.installed).jobs,
      Asked (ReachedName (allPackages rs) s.installed.iter q.jobs) q.jobs j := by
    intro j hj
    refine ⟨convertUpgrade_names s.remote s.installed q (fun j hj r hr => .job hj hr) (fun p hp => .installed hp) j hj, ?_⟩
    intro hk
    by_cases hu : ∃ j ∈ q.jobs, j.kind = .upgrade
    · exact hu
    · exfalso
      unfold convertUpgrade at hj
      split at hj
      · next j0 hj0 =>
        split at hj
        · next hk0 => exact hu ⟨j0, by rw [hj0]; simp, hk0⟩
        · exact hu ⟨j, hj, hk⟩
      · exact hu ⟨j, hj, hk⟩
  unfold DependencySolver.solveWithHint
  rw [ho']
  split
  · rfl
  · simp only [hm1, hm2]
    rw [minimalUnsatisfiableSubset_congr hcb _ _ hjobs]
  · rfl

/-- C113: the same for `solve_with_hint`, with the same list of conflicting jobs -/
theorem C113_unreached_packages_do_not_matter_with_hint (hs : SolverFor rs s) (hs' : SolverFor rs' s') {q : Request N U}
    (h : SameReachable rs rs' s s' q.jobs keep) :
    (∀ o oc, ∃ o' oc', s'.solveWithHint o' oc' q = s.solveWithHint o oc q) ∧
      ∀ o' oc', ∃ o oc, s.solveWithHint o oc q = s'.solveWithHint o' oc' q :=
  ⟨solveWithHint_local hs hs' h, solveWithHint_local hs' hs h.symm⟩

/-- the world of the packages to which `keep` says yes -/
theorem exists_kept (hs : SolverFor rs s) (hk : ∀ n, ReachedName (allPackages rs) s.installed.iter jobs n →
    ∀ p ∈ allPackages rs, Provides p n → keep p = true) :
    ∃ rs' s', SolverFor rs' s' ∧ allPackages rs' = (allPackages rs).filter keep ∧ SameReachable rs rs' s s' jobs keep := by
  obtain ⟨m, hb⟩ := hs.pool
  set l := (allPackages rs).filter keep with hl
  have hl' := allPackages_single l
  have he : ∀ p ∈ allPackages (l.map (fun p => Repository.ofList [p])), Enters p := by
    rw [hl']
    exact fun p hp => built_enters hb p (List.mem_filter.1 hp).1
  have h1 := addRepositories_of_enters _ (Pool.empty none) he
  refine ⟨l.map (fun p => Repository.ofList [p]),
    { s with
      pool := (Pool.addRepositories (l.map (fun p => Repository.ofList [p])) (Pool.empty none)).1 }, ⟨?_, hs.installed⟩, hl', ?_⟩
  · refine ⟨(Pool.addRepositories (l.map (fun p => Repository.ofList [p])) (Pool.empty none)).1.modifiers, none,
      (Pool.addRepositories (l.map (fun p => Repository.ofList [p])) (Pool.empty none)).1, ?_, rfl⟩
    rw [← h1]
  · refine ⟨rfl, rfl, rfl, ?_, ?_, fun _ _ _ => rfl⟩
    · rintro n hn p (hp | hp) hpn
      · exact hk n hn p hp hpn
      · rw [hl'] at hp
        exact (List.mem_filter.1 hp).2
    · rw [hl', hl, List.filter_filter]
      apply List.filter_congr
      intro p _
      simp

/-- C76, with conditions on the packages that can be reached only: if no two packages that provide names that can be reached have
the same version, no two installed packages the same version, and no two installed packages the same name and version, then all
runs of `solve` have the same outcome, whatever the orders in which Python goes through its sets: the same transaction or the same
SatisfiabilityError. (`keep` says yes to the packages that can be reached, and perhaps to others.) -/
theorem C76_reachable_versions_partial (hs : SolverFor rs s) {q : Request N U}
    (hk : ∀ n, ReachedName (allPackages rs) s.installed.iter q.jobs n → ∀ p ∈ allPackages rs, Provides p n → keep p = true)
    (hv : ((allPackages rs).filter keep).Pairwise (fun p q => p.version ≠ q.version)) (hd : DistinctVersions s.installed.iter)
    (hu : ∀ k k', InstalledKeys s k → InstalledKeys s k' → SameNameVersion k k' → k = k') (o o' : Orders) :
    (∀ t, s.solve o q = .ok t ↔ s.solve o' q = .ok t) ∧
      ∀ e, s.solve o q = .error (.sat e) ↔ s.solve o' q = .error (.sat e) := by
  obtain ⟨rs₁, s₁, hs₁, hl, h⟩ := exists_kept hs hk
  obtain ⟨o₁, h₁⟩ := (C113_unreached_packages_do_not_matter hs hs₁ h).1 o
  obtain ⟨o₂, h₂⟩ := (C113_unreached_packages_do_not_matter hs hs₁ h).1 o'
  have hh : Harmless rs₁ s₁ o₁ o₂ := by
    refine ⟨Or.inr (by rw [hl]; exact hv), Or.inr (by rw [h.installed]; exact hd), ?_⟩
    intro k k' hk hk'
    unfold InstalledKeys at hk hk'
    rw [h.installed] at hk hk'
    exact hu k k' hk hk'
  have := C76_solve_deterministic_partial hs₁ hh q
  rw [h₁, h₂] at this
  exact this

/-- C113: the outcome is the same, whatever the iteration orders of the two runs, under the conditions of
`C76_reachable_versions_partial`. -/
theorem C113_same_transaction (hs : SolverFor rs s) (hs' : SolverFor rs' s') {q : Request N U}
    (h : SameReachable rs rs' s s' q.jobs keep)
    (hv : ((allPackages rs).filter keep).Pairwise (fun p q => p.version ≠ q.version)) (hd : DistinctVersions s.installed.iter)
    (hu : ∀ k k', InstalledKeys s k → InstalledKeys s k' → SameNameVersion k k' → k = k') (o o' : Orders) :
    (∀ t, s.solve o q = .ok t ↔ s'.solve o' q = .ok t) ∧
      ∀ e, s.solve o q = .error (.sat e) ↔ s'.solve o' q = .error (.sat e) := by
  obtain ⟨o₁, h₁⟩ := (C113_unreached_packages_do_not_matter hs hs' h).2 o'
  have := C76_reachable_versions_partial hs (fun n hn p hp => h.matter n hn p (.inl hp)) hv hd hu o o₁
  rw [h₁] at this
  exact this

end

/-! ### concrete cases -/
namespace LocalExample
open Verif.Pkg.Example Verif.Solve.Example SolveExample Verif.Solve.Check

/-- the packages of the example of C40-C49, after three others: 7-1 depends on 8 and conflicts with 3, 8-1 and 8-2 -/
def remote' : List P := [pkg 0 7 1 [dep 8] [dep 3], pkg 0 8 1, pkg 0 8 2] ++ SolveExample.remote

theorem forExample' : SolverFor (repos SolveExample.inst remote') (solver SolveExample.inst remote') :=
  solverFor (by decide +kernel) (by decide +kernel)

/-- names up to 5 are all that can be reached -/
theorem reached_le {inst remote : List P} {q : Request Nat Nat} (k : Nat)
    (hq : ∀ j ∈ q.jobs, ∀ r, j.requirement = some r → r.name ≤ k)
    (hi : ∀ p ∈ (solver inst remote).installed.iter, p.name ≤ k)
    (hp : ∀ p ∈ allPackages (repos inst remote), (∃ n ∈ p.provNames, n ≤ k) →
      p.name ≤ k ∧ (∀ t ∈ p.installRequires, t.1 ≤ k) ∧ ∀ t ∈ p.conflicts, t.1 ≤ k)
    {n : Nat} (h : ReachedName (allPackages (repos inst remote)) (solver inst remote).installed.iter q.jobs n) : n ≤ k := by
  induction h with
  | job h1 h2 => exact hq _ h1 _ h2
  | installed h1 => exact hi _ h1
  | own h0 h1 h2 ih => exact (hp _ h1 ⟨_, (provides_iff _ _).1 h2, ih⟩).1
  | dep h0 h1 h2 h3 ih => exact (hp _ h1 ⟨_, (provides_iff _ _).1 h2, ih⟩).2.1 _ h3
  | conflict h0 h1 h2 h3 ih => exact (hp _ h1 ⟨_, (provides_iff _ _).1 h2, ih⟩).2.2 _ h3

theorem sameReachable {inst remote remote' : List P} {q : Request Nat Nat} (k : Nat)
    (hq : ∀ j ∈ q.jobs, ∀ r, j.requirement = some r → r.name ≤ k)
    (hi : ∀ p ∈ (solver inst remote).installed.iter, p.name ≤ k)
    (hp : ∀ p ∈ allPackages (repos inst remote), (∃ n ∈ p.provNames, n ≤ k) →
      p.name ≤ k ∧ (∀ t ∈ p.installRequires, t.1 ≤ k) ∧ ∀ t ∈ p.conflicts, t.1 ≤ k)
    (hk : ∀ p ∈ allPackages (repos inst remote) ++ allPackages (repos inst remote'), (∃ n ∈ p.provNames, n ≤ k) → p.name ≤ k)
    (hs : (allPackages (repos inst remote)).filter (fun p => decide (p.name ≤ k)) =
      (allPackages (repos inst remote')).filter (fun p => decide (p.name ≤ k)))
    (hu : ∀ j ∈ q.jobs, j.kind ≠ .upgrade) :
    SameReachable (repos inst remote) (repos inst remote') (solver inst remote) (solver inst remote') q.jobs
      (fun p => decide (p.name ≤ k)) where
  installed := rfl
  strict := rfl
  pruning := rfl
  matter n hn p hp' hpn := by
    have := reached_le k hq hi hp hn
    exact decide_eq_true (hk p (List.mem_append.2 hp') ⟨n, (provides_iff p n).1 hpn, this⟩)
  same := hs
  remote := fun ⟨j, hj, hk⟩ => absurd hk (hu j hj)

def q : Request Nat Nat := request [install (req 3), remove (req 4)]

/-- the hypotheses are met: the three packages cannot be reached -/
theorem example_same : SameReachable (repos SolveExample.inst SolveExample.remote) (repos SolveExample.inst remote')
    (solver SolveExample.inst SolveExample.remote) (solver SolveExample.inst remote') q.jobs (fun p => decide (p.name ≤ 5)) := by
  apply sameReachable
  · intro j hj r hr
    have : j = install (req 3) ∨ j = remove (req 4) := by simpa [q, request] using hj
    rcases this with rfl | rfl <;> cases hr <;> decide
  all_goals decide +kernel

/-- `solve` does the same as in `example_install`, for some iteration orders -/
example : ∃ o, solved ((solver SolveExample.inst remote').solve o q) =
    some (.ok ([.remove (pkg 9 2 1 [dep 1]), .remove (pkg 9 4 1), .remove (pkg 9 1 1), .install (pkg 0 1 2),
        .install (pkg 0 2 2 [depc 1 (.geq (v 2))]), .install (pkg 0 3 1 [depc 2 (.geq (v 2))])],
      [.remove (pkg 9 4 1), .update (pkg 0 1 2) (pkg 9 1 1),
        .update (pkg 0 2 2 [depc 1 (.geq (v 2))]) (pkg 9 2 1 [dep 1]), .install (pkg 0 3 1 [depc 2 (.geq (v 2))])])) := by
  obtain ⟨o, ho⟩ := (C113_unreached_packages_do_not_matter forExample forExample' example_same).1 insertionOrder
  exact ⟨o, by rw [ho]; exact example_install⟩

/-- the conditions of `C113_same_transaction` are met too: installed is 1-1, available are 2-2, which depends on 1, and 1-3; and
then also 7-1, which conflicts with 2, and 8-1 -/
example (o o' : Orders) (t : Transaction Nat Str Nat) :
    (solver [pkg 9 1 1] [pkg 0 2 2 [dep 1], pkg 0 1 3]).solve o (request [install (req 2)]) = .ok t ↔
      (solver [pkg 9 1 1] [pkg 0 7 1 [] [dep 2], pkg 0 2 2 [dep 1], pkg 0 8 1, pkg 0 1 3]).solve o'
        (request [install (req 2)]) = .ok t := by
  refine (C113_same_transaction (keep := fun p => decide (p.name ≤ 2)) (solverFor (by decide +kernel) (by decide +kernel))
    (solverFor (by decide +kernel) (by decide +kernel)) ?_ ?_ (by unfold DistinctVersions; decide +kernel) ?_ o o').1 t
  · apply sameReachable
    · intro j hj r hr
      have : j = install (req 2) := by simpa [request] using hj
      subst this; cases hr; decide
    all_goals decide +kernel
  · decide +kernel
  · rintro _ _ ⟨p, hp, rfl⟩ ⟨p', hp', rfl⟩
    revert p p'
    decide +kernel

/-- the conditions of `C76_reachable_versions_partial` are met, although 1-1, 7-1 and 8-1 have the same version -/
example (o o' : Orders) (t : Transaction Nat Str Nat) :
    (solver [pkg 9 1 1] [pkg 0 7 1 [] [dep 2], pkg 0 2 2 [dep 1], pkg 0 8 1, pkg 0 1 3]).solve o (request [install (req 2)]) = .ok t ↔
      (solver [pkg 9 1 1] [pkg 0 7 1 [] [dep 2], pkg 0 2 2 [dep 1], pkg 0 8 1, pkg 0 1 3]).solve o'
        (request [install (req 2)]) = .ok t := by
  refine (C76_reachable_versions_partial (keep := fun p => decide (p.name ≤ 2))
    (rs := repos [pkg 9 1 1] [pkg 0 7 1 [] [dep 2], pkg 0 2 2 [dep 1], pkg 0 8 1, pkg 0 1 3])
    (solverFor (by decide +kernel) (by decide +kernel)) ?_ ?_ (by unfold DistinctVersions; decide +kernel) ?_ o o').1 t
  · intro n hn p hp hpn
    have hn' : n ≤ 2 := by
      refine reached_le 2 ?_ ?_ ?_ hn
      · intro j hj r hr
        have : j = install (req 2) := by simpa [request] using hj
        subst this; cases hr; decide
      all_goals decide +kernel
    have key : ∀ p ∈ allPackages (repos [pkg 9 1 1] [pkg 0 7 1 [] [dep 2], pkg 0 2 2 [dep 1], pkg 0 8 1, pkg 0 1 3]),
      (∃ n ∈ p.provNames, n ≤ 2) → decide (p.name ≤ 2) = true := by decide +kernel
    exact key p hp ⟨n, (provides_iff p n).1 hpn, hn'⟩
  · decide +kernel
  · rintro _ _ ⟨p, hp, rfl⟩ ⟨p', hp', rfl⟩
    revert p p'
    decide +kernel

/-- packages that can be reached do matter: if there is also 2-9, then it is installed -/
example : solved ((solver [pkg 9 1 1] [pkg 0 2 2 [dep 1], pkg 0 1 3]).solve insertionOrder (request [install (req 2)])) ≠
    solved ((solver [pkg 9 1 1] [pkg 0 2 2 [dep 1], pkg 0 1 3, pkg 0 2 9]).solve insertionOrder (request [install (req 2)])) := by
  decide +kernel

end LocalExample
end Verif.Props
