import Verif.Props.Monotone
import Verif.Props.Total
import Verif.Props.Repositories
/-
C131: the order in which repositories are listed and packages were added.
-/
set_option linter.unusedSectionVars false
namespace Verif.Props
open Verif Verif.Pkg Verif.Rules Verif.Solve

variable {N S U : Type} [LinearOrder N] [DecidableEq S] [LinearOrder U] [Syntax S U]
variable {rs rs' : List (Repository N S U)} {s s' : DependencySolver N S U}

/-! ### Specification -/

/-- two solvers with the same packages, available, installed and remote; nothing is said about their order, about the
repositories that they are in, or how often they occur -/
structure SamePackages (rs rs' : List (Repository N S U)) (s s' : DependencySolver N S U) : Prop where
  available : ∀ p, p ∈ allPackages rs ↔ p ∈ allPackages rs'
  installed : ∀ p, p ∈ s.installed.iter ↔ p ∈ s'.installed.iter
  remote : ∀ p, p ∈ remotePackages s ↔ p ∈ remotePackages s'

/-- no two different packages are equally good for a hard update -/
def Unambiguous (avail : List (Package N S U)) (installed : PKey N S U → Prop) (jobs : List (Job N U)) : Prop :=
  ∀ j ∈ jobs, j.kind = .hardUpdate → ∀ r, j.requirement = some r → ∀ p ∈ avail, ∀ p' ∈ avail, MeetsJob r p → MeetsJob r p' →
    p.version = p'.version → (installed p.key ↔ installed p'.key) → p.key = p'.key

/-- the packages of `l'` are those of `l`, added in another order, and packages of the same name and version are identical -/
def Shuffled (l l' : List (Package N S U)) : Prop :=
  l.Perm l' ∧ ∀ a ∈ l, ∀ b ∈ l, a.name = b.name → a.version = b.version → a = b

/-! ### Proofs -/

theorem SamePackages.symm (h : SamePackages rs rs' s s') : SamePackages rs' rs s' s :=
  ⟨fun p => (h.available p).symm, fun p => (h.installed p).symm, fun p => (h.remote p).symm⟩

theorem SamePackages.keys (h : SamePackages rs rs' s s') (k : PKey N S U) : InstalledKeys s k ↔ InstalledKeys s' k := by
  unfold InstalledKeys
  simp only [h.installed]

theorem updateTarget_best {avail : List (Package N S U)} {inst : PKey N S U → Prop} {r : Requirement N U} {q : Package N S U}
    (h : UpdateTarget avail inst r q) : q ∈ avail ∧ MeetsJob r q ∧ ∀ p ∈ avail, MeetsJob r p → ¬ Below inst q p := by
  obtain ⟨b, a, e, hq, hb, ha⟩ := h
  refine ⟨by rw [e]; simp, hq, fun p hp hm hbel => ?_⟩
  rw [e, List.mem_append, List.mem_cons] at hp
  rcases hp with hp | rfl | hp
  · exact below_asymm hbel (hb p hp hm)
  · exact below_asymm hbel hbel
  · exact ha p hp hm hbel

/-- two packages of which none is below the other -/
theorem not_below {inst : PKey N S U → Prop} {p q : Package N S U} (h : ¬ Below inst p q) (h' : ¬ Below inst q p) :
    p.version = q.version ∧ (inst p.key ↔ inst q.key) := by
  have hv : p.version = q.version := by
    rcases lt_trichotomy p.version q.version with hlt | heq | hlt
    · exact absurd (Or.inl hlt) h
    · exact heq
    · exact absurd (Or.inl hlt) h'
  refine ⟨hv, ?_, ?_⟩
  · intro hp
    by_contra hq
    exact h' (Or.inr ⟨hv.symm, hq, hp⟩)
  · intro hq
    by_contra hp
    exact h (Or.inr ⟨hv, hp, hq⟩)

theorem jobSatisfied_same {avail avail' : List (Package N S U)} (ha : ∀ p, p ∈ avail ↔ p ∈ avail')
    {inst inst' I : PKey N S U → Prop} (hi : ∀ k, inst k ↔ inst' k) {jobs : List (Job N U)} (hu : Unambiguous avail inst jobs)
    {j : Job N U} (hj : j ∈ jobs) (h : JobSatisfied avail inst I j) : JobSatisfied avail' inst' I j := by
  have hii : inst = inst' := funext fun k => propext (hi k)
  subst hii
  obtain ⟨r, hr, h⟩ := h
  refine ⟨r, hr, ?_⟩
  cases hk : j.kind with
  | install => rw [hk] at h; simpa only [ha] using h
  | softUpdate => rw [hk] at h; simpa only [ha] using h
  | remove => rw [hk] at h; simpa only [ha] using h
  | upgrade => rw [hk] at h; exact h
  | hardUpdate =>
    rw [hk] at h
    intro q hq
    obtain ⟨h1, h2, h3⟩ := updateTarget_best hq
    obtain ⟨q0, hq0⟩ := updateTarget_exists (inst := inst) ⟨q, (ha q).2 h1, h2⟩
    obtain ⟨g1, g2, g3⟩ := updateTarget_best hq0
    have hn := not_below (g3 q ((ha q).2 h1) h2) (h3 q0 ((ha q0).1 g1) g2)
    have := hu j hj hk r hr q0 g1 q ((ha q).2 h1) g2 h2 hn.1 hn.2
    rw [← this]
    exact h q0 hq0

/-- the jobs of an upgrade are the same jobs, though perhaps in another order -/
theorem effectiveJobs_same (h : SamePackages rs rs' s s') (q : Request N U) {j : Job N U} (hj : j ∈ effectiveJobs s q) :
    j ∈ effectiveJobs s' q := by
  by_cases hk : ∃ j0, q.jobs = [j0] ∧ j0.kind = .upgrade
  · obtain ⟨j0, hq, hk⟩ := hk
    obtain ⟨h1, p, hp, r, hr, h2, h3, h4⟩ := (C49_jobs s q).2.2 j0 hq hk j hj
    obtain ⟨r', hr', h5, h6, h7⟩ := upgrade_job s' hq hk ((h.installed p).1 hp) ((h.remote r).1 hr) h2
    have hv : r.version = r'.version :=
      le_antisymm (h6 r ((h.remote r).1 hr) h2) (h3 r' ((h.remote r').2 hr') h5)
    rw [← hv, ← h4] at h7
    obtain ⟨req, kind⟩ := j
    simp only at h1
    subst h1
    exact h7
  · have hp : ∀ t : DependencySolver N S U, effectiveJobs t q = q.jobs := by
      intro t
      unfold effectiveJobs convertUpgrade
      split
      · rename_i j0 hq
        rw [if_neg (fun h => hk ⟨j0, hq, h⟩)]
      · rfl
    rw [hp] at hj ⊢
    exact hj

theorem solves_same (h : SamePackages rs rs' s s') {q : Request N U}
    (hu : Unambiguous (allPackages rs) (InstalledKeys s) (effectiveJobs s q)) {I : PKey N S U → Prop} (hI : Solves rs s q I) :
    Solves rs' s' q I := by
  obtain ⟨⟨h1, h2, h3, h4⟩, h5⟩ := hI
  simp only [h.available] at h1 h2 h4
  refine ⟨⟨h1, h2, h3, h4⟩, fun j hj => ?_⟩
  have hj' := effectiveJobs_same h.symm q hj
  exact jobSatisfied_same h.available h.keys hu hj' (h5 j hj')

theorem Unambiguous.same (h : SamePackages rs rs' s s') {q : Request N U}
    (hu : Unambiguous (allPackages rs) (InstalledKeys s) (effectiveJobs s q)) :
    Unambiguous (allPackages rs') (InstalledKeys s') (effectiveJobs s' q) := by
  intro j hj hk r hr p hp p' hp' h1 h2 hv hi
  exact hu j (effectiveJobs_same h.symm q hj) hk r hr p ((h.available p).2 hp) p' ((h.available p').2 hp') h1 h2 hv
    (by rw [h.keys, h.keys]; exact hi)

theorem WellFormed.same (h : SamePackages rs rs' s s') (hst : s'.strict = s.strict) {q : Request N U} (hw : WellFormed rs s q) :
    WellFormed rs' s' q := by
  refine ⟨fun p hp => hw.readable p ((h.available p).2 hp), fun k hk => ?_, by rw [hst]; exact hw.lenient,
    fun j hj => hw.jobs j (effectiveJobs_same h.symm q hj)⟩
  obtain ⟨p, hp, e⟩ := hw.installed k ((h.keys k).2 hk)
  exact ⟨p, (h.available p).1 hp, e⟩

/-! ### C131 -/

/-- C131 (partial): two solvers with the same packages, in whatever order and in whatever repositories, and a request in
which no hard update has two equally good candidates: if one returns a transaction, the other does not find the request
unsatisfiable. Missing: hard updates with several candidates, see `C131_violated`. -/
theorem C131_never_contradict_partial (hs : SolverFor rs s) (hs' : SolverFor rs' s') (h : SamePackages rs rs' s s') {o o' : Orders}
    {q : Request N U} (hu : Unambiguous (allPackages rs) (InstalledKeys s) (effectiveJobs s q)) :
    ((∃ t, s.solve o q = .ok t) → ∀ u, s'.solve o' q ≠ .error (.sat (.satisfiability u))) ∧
    ((∃ t, s'.solve o' q = .ok t) → ∀ u, s.solve o q ≠ .error (.sat (.satisfiability u))) := by
  have h1 := C40_decides hs o q
  have h2 := C40_decides hs' o' q
  constructor
  · rintro ⟨t, ht⟩ u hu'
    rw [ht] at h1
    rw [hu'] at h2
    obtain ⟨I, hI⟩ := h1
    exact h2 ⟨I, solves_same h hu hI⟩
  · rintro ⟨t, ht⟩ u hu'
    rw [ht] at h2
    rw [hu'] at h1
    obtain ⟨I, hI⟩ := h2
    exact h1 ⟨I, solves_same h.symm (hu.same h) hI⟩

/-- C131 (partial): if moreover the packages are well formed (C61), one raises SatisfiabilityError exactly if the other does,
and NoPackageFound because of a job exactly if the other does. -/
theorem C131_same_failures_partial (hs : SolverFor rs s) (hs' : SolverFor rs' s') (h : SamePackages rs rs' s s')
    (hst : s'.strict = s.strict) (o o' : Orders) {q : Request N U} (hw : WellFormed rs s q)
    (hu : Unambiguous (allPackages rs) (InstalledKeys s) (effectiveJobs s q)) :
    ((∃ u, s.solve o q = .error (.sat (.satisfiability u))) ↔ ∃ u, s'.solve o' q = .error (.sat (.satisfiability u))) ∧
    ((∃ j ∈ effectiveJobs s q, ¬ JobPossible (allPackages rs) j) →
      s.solve o q = .error (.pkg .noPackageFound) ∧ s'.solve o' q = .error (.pkg .noPackageFound)) := by
  have hw' := hw.same h hst
  have himp : (∃ j ∈ effectiveJobs s q, ¬ JobPossible (allPackages rs) j) →
      s.solve o q = .error (.pkg .noPackageFound) ∧ s'.solve o' q = .error (.pkg .noPackageFound) := by
    rintro ⟨j, hj, hn⟩
    refine ⟨C61_no_package_found hs o hw ⟨j, hj, hn⟩, C61_no_package_found hs' o' hw' ⟨j, effectiveJobs_same h q hj, ?_⟩⟩
    unfold JobPossible at hn ⊢
    simpa only [h.available] using hn
  refine ⟨?_, himp⟩
  by_cases hp : ∃ j ∈ effectiveJobs s q, ¬ JobPossible (allPackages rs) j
  · obtain ⟨h1, h2⟩ := himp hp
    rw [h1, h2]
  · have hp1 : ∀ j ∈ effectiveJobs s q, JobPossible (allPackages rs) j := by
      intro j hj
      by_contra hn
      exact hp ⟨j, hj, hn⟩
    have hp2 : ∀ j ∈ effectiveJobs s' q, JobPossible (allPackages rs') j := by
      intro j hj
      have := hp1 j (effectiveJobs_same h.symm q hj)
      unfold JobPossible at this ⊢
      simpa only [h.available] using this
    rw [C61_unsatisfiable_iff hs o hw hp1, C61_unsatisfiable_iff hs' o' hw' hp2]
    exact not_congr ⟨fun ⟨I, hI⟩ => ⟨I, solves_same h hu hI⟩, fun ⟨I, hI⟩ => ⟨I, solves_same h.symm (hu.same h) hI⟩⟩

/-! #### packages added in another order -/

theorem contains_find (r : Repository N S U) (p : Package N S U) :
    r.contains p = (r.findPackages p.name).any (fun q => p.same q) := by
  unfold Repository.contains Repository.findPackages
  cases dget r.nameToPackages p.name <;> rfl

theorem Shuffled.iter {l l' : List (Package N S U)} (h : Shuffled l l') : (Repository.ofList l).iter = (Repository.ofList l').iter :=
  C31_order_independent_partial h.1 h.2

theorem Shuffled.find {l l' : List (Package N S U)} (h : Shuffled l l') (n : N) :
    (Repository.ofList l).findPackages n = (Repository.ofList l').findPackages n := by
  unfold Repository.findPackages
  rw [(Repository.inv_ofList l).get n, (Repository.inv_ofList l').get n]
  refine sortBy_perm_eq _ (h.1.filter _) ?_
  intro a ha b hb hv
  rw [List.mem_filter, decide_eq_true_eq] at ha hb
  exact h.2 a ha.1 b hb.1 (ha.2.trans hb.2.symm) hv

theorem Shuffled.contains {l l' : List (Package N S U)} (h : Shuffled l l') :
    (Repository.ofList l).contains = (Repository.ofList l').contains := by
  funext p
  rw [contains_find, contains_find, h.find]

theorem jobIds_installed (pool : Pool N S U) {r r' : Repository N S U} (h : r.contains = r'.contains) (js : List (Job N U))
    (ids : List Nat) (soft : List (Package N S U)) : jobIds pool r js ids soft = jobIds pool r' js ids soft := by
  have hk : hardKey r = hardKey r' := by
    funext p
    unfold hardKey
    rw [h]
  induction js generalizing ids soft with
  | nil => rfl
  | cons j js ih =>
    unfold jobIds
    simp only [hk, h, ih]

theorem addRepositories_iter {rs rs' : List (Repository N S U)} (h : rs.map Repository.iter = rs'.map Repository.iter)
    (pool : Pool N S U) : Pool.addRepositories rs pool = Pool.addRepositories rs' pool := by
  induction rs generalizing rs' pool with
  | nil =>
    cases rs' with
    | nil => rfl
    | cons => simp at h
  | cons r rs ih =>
    cases rs' with
    | nil => simp at h
    | cons r' rs' =>
      rw [List.map_cons, List.map_cons, List.cons.injEq] at h
      unfold Pool.addRepositories
      rw [h.1]
      split
      · rfl
      · exact ih h.2 _

theorem forall₂_iter {ls ls' : List (List (Package N S U))} (h : List.Forall₂ Shuffled ls ls') :
    (ls.map Repository.ofList).map Repository.iter = (ls'.map Repository.ofList).map Repository.iter := by
  induction h with
  | nil => rfl
  | cons h _ ih => simp only [List.map_cons, h.iter, ih]

/-- C131: the outcome of a call, transaction or exception, is exactly the same if packages were added to the repositories in
another order, provided that packages of one repository with the same name and version are identical. -/
theorem C131_added_in_any_order {avail avail' remote remote' : List (List (Package N S U))} {inst inst' : List (Package N S U)}
    (ha : List.Forall₂ Shuffled avail avail') (hr : List.Forall₂ Shuffled remote remote') (hi : Shuffled inst inst')
    (m : Option (Modifiers N)) (prune strict : Bool) (o : Orders) (q : Request N U) :
    let make (avail remote : List (List (Package N S U))) (inst : List (Package N S U)) : DependencySolver N S U :=
      { pool := (Pool.addRepositories (avail.map Repository.ofList) (Pool.empty m)).1
        remote := remote.map Repository.ofList
        installed := Repository.ofList inst
        usePruning := prune
        strict := strict }
    (make avail remote inst).solve o q = (make avail' remote' inst').solve o q := by
  intro make
  have hp : (make avail remote inst).pool = (make avail' remote' inst').pool := by
    change (Pool.addRepositories _ _).1 = (Pool.addRepositories _ _).1
    rw [addRepositories_iter (forall₂_iter ha)]
  have hq : convertUpgrade q (make avail remote inst).remote (make avail remote inst).installed =
      convertUpgrade q (make avail' remote' inst').remote (make avail' remote' inst').installed := by
    have hf : ∀ {a b : List (Repository N S U)} (r : Repository N S U), a.map Repository.iter = b.map Repository.iter →
        a.foldl (fun m r => m.update r.iter) r = b.foldl (fun m r => m.update r.iter) r := by
      intro a b r h
      have e : ∀ c : List (Repository N S U), c.foldl (fun m r => m.update r.iter) r =
          (c.map Repository.iter).foldl Repository.update r := by
        intro c; rw [List.foldl_map]
      rw [e a, e b, h]
    unfold convertUpgrade
    rw [show (make avail remote inst).installed.iter = (make avail' remote' inst').installed.iter from hi.iter,
      hf _ (forall₂_iter hr : (make avail remote inst).remote.map _ = (make avail' remote' inst').remote.map _)]
  have hc : ∀ pool q, createRules (make avail remote inst) o pool q = createRules (make avail' remote' inst') o pool q := by
    intro pool q
    unfold createRules
    rw [show (make avail remote inst).installed.iter = (make avail' remote' inst').installed.iter from hi.iter,
      jobIds_installed pool (hi.contains : (make avail remote inst).installed.contains = (make avail' remote' inst').installed.contains)]
  have hfin : ∀ pool ids a, finish (make avail remote inst) o pool ids a = finish (make avail' remote' inst') o pool ids a := by
    intro pool ids a
    unfold finish
    rw [show (make avail remote inst).installed.iter = (make avail' remote' inst').installed.iter from hi.iter]
  unfold DependencySolver.solve DependencySolver.solvePool
  simp only [hq, hp, hc, hfin]

/-! ### concrete cases -/
namespace RepositoryOrderExample
open Verif.Pkg.Example Verif.Solve.Example SolveExample

/-- a solver for two remote repositories -/
def two (a b : List P) : DependencySolver Nat Str Nat :=
  { pool := poolOf [Repository.ofList [], Repository.ofList a, Repository.ofList b]
    remote := [Repository.ofList a, Repository.ofList b]
    installed := Repository.ofList []
    usePruning := true
    strict := false }

def reposOf (a b : List P) : List (Repository Nat Str Nat) := [Repository.ofList [], Repository.ofList a, Repository.ofList b]

theorem solverFor_two {a b : List P} (h : (Pool.addRepositories (reposOf a b) (Pool.empty none)).2 = none)
    (hm : (poolOf (reposOf a b)).modifiers = none) : SolverFor (reposOf a b) (two a b) := by
  refine ⟨⟨none, none, poolOf (reposOf a b), ?_, ?_⟩, [], rfl⟩
  · unfold poolOf
    rw [← h]
  · rw [← hm]
    rfl

theorem same_two (a b : List P) : SamePackages (reposOf a b) (reposOf b a) (two a b) (two b a) := by
  refine ⟨fun p => ?_, fun p => Iff.rfl, fun p => ?_⟩
  · simp only [allPackages, reposOf, List.flatMap_cons, List.flatMap_nil, List.mem_append]
    tauto
  · simp only [remotePackages, two, List.flatMap_cons, List.flatMap_nil, List.mem_append]
    tauto

/-- 1-1 of the first repository needs a package that does not exist -/
def a : List P := [pkg 0 1 1 [dep 5], pkg 0 2 1]
def b : List P := [pkg 1 1 1, pkg 1 2 2 [dep 1]]

/-- SatisfiabilityError was raised -/
def unsat {α : Type} : Except (SErr Nat Nat) α → Bool
  | .error (.sat (.satisfiability _)) => true
  | _ => false

/-- C131 is violated: whether a hard update is unsatisfiable depends on which of two repositories with the same version of the
package is listed first. -/
theorem C131_violated : SolverFor (reposOf a b) (two a b) ∧ SolverFor (reposOf b a) (two b a) ∧
    SamePackages (reposOf a b) (reposOf b a) (two a b) (two b a) ∧
    unsat ((two a b).solve insertionOrder (request [hardUpdate (req 1)])) = true ∧
    solved ((two b a).solve insertionOrder (request [hardUpdate (req 1)])) =
      some (.ok ([.install (pkg 1 1 1)], [.install (pkg 1 1 1)])) :=
  ⟨solverFor_two (by decide +kernel) (by decide +kernel), solverFor_two (by decide +kernel) (by decide +kernel), same_two a b,
    by decide +kernel, by decide +kernel⟩

/-- C131: two repositories with the same package: the same request, and which of the two packages is installed -/
theorem C131_transaction_depends_on_order :
    solved ((two [pkg 0 1 1] [pkg 1 1 1 [] [dep 9]]).solve insertionOrder (request [install (req 1)])) ≠
    solved ((two [pkg 1 1 1 [] [dep 9]] [pkg 0 1 1]).solve insertionOrder (request [install (req 1)])) := by decide +kernel

/-- C131: an install job is fine -/
example (o o' : Orders) : (∃ t, (two a b).solve o (request [install (req 2)]) = .ok t) →
    ∀ u, (two b a).solve o' (request [install (req 2)]) ≠ .error (.sat (.satisfiability u)) :=
  (C131_never_contradict_partial (solverFor_two (by decide +kernel) (by decide +kernel))
    (solverFor_two (by decide +kernel) (by decide +kernel)) (same_two a b) (by
      intro j hj hk
      change j ∈ [install (req 2)] at hj
      rw [List.mem_singleton] at hj
      subst hj
      cases hk)).1

example : solved ((two a b).solve insertionOrder (request [install (req 2)])) =
    some (.ok ([.install (pkg 1 1 1), .install (pkg 1 2 2 [dep 1])], [.install (pkg 1 1 1), .install (pkg 1 2 2 [dep 1])])) := by
  decide +kernel

/-- C131: packages added in another order -/
example : Shuffled [pkg 0 1 1, pkg 0 1 2, pkg 0 2 1] [pkg 0 2 1, pkg 0 1 2, pkg 0 1 1] := by
  refine ⟨?_, ?_⟩
  · exact (List.Perm.swap _ _ _).trans (((List.Perm.swap _ _ _).cons _).trans (List.Perm.swap _ _ _)) |>.trans (by
      decide +kernel)
  · decide +kernel

end RepositoryOrderExample

end Verif.Props
