import Verif.Solve.Functions
import Verif.Props.Total
import Verif.Props.Pools
import Mathlib.Data.Set.Finite.Basic
import Mathlib.Data.Fintype.Card
/-
Properties C51, C53, C62, C64: the functions on lists of packages and requirements.
-/
set_option linter.unusedSectionVars false
namespace Verif.Props
open Verif Verif.Pkg Verif.Solve Verif.Rules Verif.Graph
open Relation

variable {N S U K : Type} [LinearOrder N] [DecidableEq S] [LinearOrder U] [Syntax S U] [LinearOrder K]

/-! ### Specification -/

/-- the set of the packages of a list -/
def Keys (l : List (Package N S U)) (k : PKey N S U) : Prop := ∃ p ∈ l, p.key = k

/-- `I` consists of packages of `ps`, everything in it is in order, and every requirement is met by a package of it -/
def Fulfils (ps : List (Package N S U)) (m : Modifiers N) (reqs : List (Requirement N U)) (I : PKey N S U → Prop) : Prop :=
  Consistent ps (some m) I ∧ ∀ r ∈ reqs, ∃ q ∈ ps, I q.key ∧ MeetsJob r q

/-- the metadata of the packages is well formed, and the names they provide have no version -/
structure WellFormedPackages (ps : List (Package N S U)) (m : Modifiers N) : Prop where
  readable : ∀ p ∈ ps, Readable (some m) p
  unversioned : ∀ p ∈ ps, ∀ t ∈ p.declaredProvides, Unversioned (U := U) t

/-! ### Auxiliary results -/

theorem consistent_congr {l l' : List (Package N S U)} (h : ∀ p, p ∈ l ↔ p ∈ l') {m : Option (Modifiers N)}
    {I : PKey N S U → Prop} : Consistent l m I ↔ Consistent l' m I := by
  constructor
  · rintro ⟨h1, h2, h3, h4⟩
    simp only [h] at h1 h2 h4
    exact ⟨h1, h2, h3, h4⟩
  · rintro ⟨h1, h2, h3, h4⟩
    simp only [← h] at h1 h2 h4
    exact ⟨h1, h2, h3, h4⟩

theorem mem_all (ps : List (Package N S U)) (p : Package N S U) :
    p ∈ allPackages [Repository.ofList ps] ↔ p ∈ ps := by
  unfold allPackages
  simp only [List.flatMap_cons, List.flatMap_nil, List.append_nil]
  exact (C30_iteration ps).1.mem_iff

theorem mkPool_ok {rs : List (Repository N S U)} {m : Option (Modifiers N)} {pool : Pool N S U} :
    mkPool rs m = .ok pool ↔ Pool.addRepositories rs (Pool.empty m) = (pool, none) := by
  unfold mkPool
  split
  · next p h => rw [h]; simp
  · next p e h => rw [h]; simp

theorem addRepositories_modifiers (rs : List (Repository N S U)) : ∀ pool : Pool N S U,
    (Pool.addRepositories rs pool).1.modifiers = pool.modifiers := by
  induction rs with
  | nil => intro pool; rfl
  | cons r rs ih =>
    intro pool
    have h := Pool.addPackages_modifiers r.iter pool
    unfold Pool.addRepositories
    split
    · next p e hp => rw [hp] at h; exact h
    · next p hp => rw [hp] at h; rw [ih]; exact h

theorem mkPool_built {rs : List (Repository N S U)} {m : Option (Modifiers N)} {pool : Pool N S U}
    (h : mkPool rs m = .ok pool) : Built rs m pool := by
  rw [mkPool_ok] at h
  have hm := addRepositories_modifiers rs (Pool.empty m)
  rw [h] at hm
  refine ⟨m, pool, h, ?_⟩
  rw [show m = pool.modifiers from hm.symm]

theorem mkPool_total {ps : List (Package N S U)} (h : ∀ p ∈ ps, ∀ t ∈ p.declaredProvides, Unversioned (U := U) t)
    (m : Option (Modifiers N)) : ∃ pool, mkPool [Repository.ofList ps] m = .ok pool := by
  have := (C34_versioned_provides_rejected [Repository.ofList ps] (Pool.empty m)).2 (by
    intro repo hr p hp
    rw [List.mem_singleton] at hr
    subst hr
    exact h p ((C30_iteration ps).1.mem_iff.1 hp))
  unfold mkPool
  split
  · next p _ => exact ⟨p, rfl⟩
  · next p e he => rw [he] at this; simp at this

theorem freshSolver_for {rs : List (Repository N S U)} {m : Option (Modifiers N)} {pool : Pool N S U}
    (h : mkPool rs m = .ok pool) : SolverFor rs (freshSolver rs pool) := ⟨⟨m, mkPool_built h⟩, [], rfl⟩

theorem fresh_not_installed (rs : List (Repository N S U)) (pool : Pool N S U) (k : PKey N S U) :
    ¬ InstalledKeys (freshSolver rs pool) k := by
  rintro ⟨p, hp, -⟩
  have := (C30_iteration ([] : List (Package N S U))).1.mem_iff.1 hp
  simp at this

/-- the jobs of a request to install everything -/
def installJobs (reqs : List (Requirement N U)) : List (Job N U) := reqs.map (fun r => ⟨some r, .install⟩)

theorem installAll_ok (reqs : List (Requirement N U)) : ∀ (m : Modifiers N) (js : List (Job N U)),
    (∀ j ∈ js, j.kind ≠ .upgrade) → installAll reqs ⟨m, js⟩ = .ok ⟨m, js ++ installJobs reqs⟩ := by
  induction reqs with
  | nil => intro m js _; simp [installAll, installJobs]
  | cons r reqs ih =>
    intro m js hj
    have : Request.addJob (⟨m, js⟩ : Request N U) (some r) .install = .ok ⟨m, js ++ [⟨some r, .install⟩]⟩ := by
      unfold Request.addJob
      rw [if_neg, if_neg (by simp)]
      rintro ⟨-, h | h⟩
      · rw [List.any_eq_true] at h
        obtain ⟨j, h1, h2⟩ := h
        exact hj j h1 (by simpa using h2)
      · cases h
    unfold installAll
    rw [this]
    simp only
    rw [ih]
    · simp [installJobs]
    · intro j h
      rcases List.mem_append.1 h with h | h
      · exact hj j h
      · rw [List.mem_singleton] at h; subst h; simp

theorem installAll_eq (reqs : List (Requirement N U)) (m : Modifiers N) :
    installAll reqs ⟨m, []⟩ = .ok ⟨m, installJobs reqs⟩ := installAll_ok reqs m [] (by simp)

theorem installJobs_kind {reqs : List (Requirement N U)} {j : Job N U} (h : j ∈ installJobs reqs) :
    ∃ r ∈ reqs, j = ⟨some r, .install⟩ := by
  unfold installJobs at h
  rw [List.mem_map] at h
  obtain ⟨r, h1, rfl⟩ := h
  exact ⟨r, h1, rfl⟩

theorem fresh_jobs (s : DependencySolver N S U) (reqs : List (Requirement N U)) (m : Modifiers N) :
    effectiveJobs s ⟨m, installJobs reqs⟩ = installJobs reqs :=
  effectiveJobs_plain s (by
    intro j hj
    obtain ⟨r, -, rfl⟩ := installJobs_kind hj
    simp)

theorem solves_fresh (ps : List (Package N S U)) (pool : Pool N S U) (reqs : List (Requirement N U)) (m : Modifiers N)
    (I : PKey N S U → Prop) :
    Solves [Repository.ofList ps] (freshSolver [Repository.ofList ps] pool) ⟨m, installJobs reqs⟩ I ↔
      Fulfils ps m reqs I := by
  unfold Solves Fulfils
  rw [fresh_jobs]
  constructor
  · rintro ⟨h1, h2⟩
    refine ⟨(consistent_congr (mem_all ps)).1 h1, ?_⟩
    intro r hr
    obtain ⟨r', hr', q, hq, h3, h4⟩ := h2 ⟨some r, .install⟩ (by unfold installJobs; exact List.mem_map.2 ⟨r, hr, rfl⟩)
    cases hr'
    exact ⟨q, (mem_all ps q).1 hq, h3, h4⟩
  · rintro ⟨h1, h2⟩
    refine ⟨(consistent_congr (mem_all ps)).2 h1, ?_⟩
    intro j hj
    obtain ⟨r, hr, rfl⟩ := installJobs_kind hj
    obtain ⟨q, hq, h3, h4⟩ := h2 r hr
    exact ⟨r, rfl, q, (mem_all ps q).2 hq, h3, h4⟩

theorem fresh_wellFormed {ps : List (Package N S U)} {m : Modifiers N} (h : WellFormedPackages ps m) (pool : Pool N S U)
    (reqs : List (Requirement N U)) :
    WellFormed [Repository.ofList ps] (freshSolver [Repository.ofList ps] pool) ⟨m, installJobs reqs⟩ := by
  refine ⟨fun p hp => h.readable p ((mem_all ps p).1 hp), fun k hk => absurd hk (fresh_not_installed _ _ k), rfl, ?_⟩
  rw [fresh_jobs]
  intro j hj
  obtain ⟨r, -, rfl⟩ := installJobs_kind hj
  exact ⟨by simp, r, rfl⟩

theorem fresh_possible {ps : List (Package N S U)} (s : DependencySolver N S U) {reqs : List (Requirement N U)}
    {m : Modifiers N} :
    (∀ j ∈ effectiveJobs s ⟨m, installJobs reqs⟩, JobPossible (allPackages [Repository.ofList ps]) j) ↔
      ∀ r ∈ reqs, ∃ p ∈ ps, MeetsJob r p := by
  rw [fresh_jobs]
  constructor
  · intro h r hr
    obtain ⟨-, r', hr', p, hp, hm⟩ := h ⟨some r, .install⟩ (List.mem_map.2 ⟨r, hr, rfl⟩)
    cases hr'
    exact ⟨p, (mem_all ps p).1 hp, hm⟩
  · intro h j hj
    obtain ⟨r, hr, rfl⟩ := installJobs_kind hj
    obtain ⟨p, hp, hm⟩ := h r hr
    exact ⟨by simp, r, rfl, p, (mem_all ps p).2 hp, hm⟩

/-! ### C51 -/

theorem installedPackages_map (l : List (Package N S U)) : installedPackages (l.map Op.install) = .ok l := by
  induction l with
  | nil => rfl
  | cons p l ih => simp [installedPackages, ih]

/-- the operations of a solver without installed packages -/
theorem fresh_operations {ps : List (Package N S U)} {m0 : Option (Modifiers N)} {pool : Pool N S U}
    (hp : mkPool [Repository.ofList ps] m0 = .ok pool) {o : Orders} {q : Request N U} {t : Transaction N S U}
    (h : (freshSolver [Repository.ofList ps] pool).solve o q = .ok t) :
    ∃ res : List (Package N S U), t.operations = res.map .install ∧ (∀ p ∈ res, p ∈ ps) ∧ (res.map Package.key).Nodup ∧
      (∀ p ∈ res, ∀ q' ∈ res, p.key ≠ q'.key → DependsOn ps (some q.modifiers) p.key q'.key → [q', p].Sublist res) ∧
      (∀ k, Result (freshSolver [Repository.ofList ps] pool) t k ↔ Keys res k) := by
  have hs := freshSolver_for hp
  obtain ⟨pool', st, a, installed, D, hc, -, ht⟩ := solve_ok hs h
  obtain ⟨hspec, -⟩ := mkTransaction_spec hc.built.ok hc.decisions hc.hI ht
  obtain ⟨rem, ins, loc, he, -, hins, hrem, hnd1, -, ho1, -⟩ := ops_facts hc.built hc.decisions hc.hI hspec
  have hrem0 : rem = [] := by
    rw [List.eq_nil_iff_forall_not_mem]
    intro p hp
    obtain ⟨i, -, hk, h3, -⟩ := (hrem p).1 hp
    exact fresh_not_installed _ _ _ ((hc.installed_iff p.key).1 ⟨i, hk, h3⟩)
  subst hrem0
  have he' : t.operations = ins.map .install := by rw [he]; rfl
  refine ⟨ins, he', ?_, hnd1, ?_, ?_⟩
  · intro p hp
    obtain ⟨i, h1, hk, -⟩ := (hins p).1 hp
    obtain ⟨p', h2, -, h3, -⟩ := IdOf.get hc.built.ok hk
    rw [h1] at h3
    cases h3
    exact (mem_all ps p).1 h2
  · intro p hp q' hq hne hd
    refine ho1 p hp q' hq hne ?_
    rw [dependsOn_active]
    obtain ⟨t, h1, d, h2, h3⟩ := hd
    exact ⟨t, h1, d, (mem_all ps d).2 h2, h3⟩
  · intro k
    unfold Result Apply
    rw [he', ← List.nil_append (ins.map Op.install), ← List.map_nil (f := Op.remove), installedBy_iff]
    constructor
    · rintro (⟨h1, -⟩ | h1)
      · exact absurd h1 (fresh_not_installed _ _ _)
      · exact h1
    · exact Or.inr

/-- C51: the result of `satisfy_requirements` consists of given packages, each at most once; every requirement is met by
one of them (up to equality of packages); and every package comes after those it depends on. -/
theorem C51_result {o : Orders} {ps : List (Package N S U)} {reqs : List (Requirement N U)} {m : Modifiers N}
    {res : List (Package N S U)} (h : satisfyRequirements o ps reqs (some m) = .ok res) :
    (∀ p ∈ res, p ∈ ps) ∧ res.Pairwise (fun p q => ¬ SamePackage p q) ∧
    (∀ r ∈ reqs, ∃ p ∈ res, ∃ q ∈ ps, SamePackage p q ∧ MeetsJob r q) ∧
    (∀ p ∈ res, ∀ q ∈ res, ¬ SamePackage p q → DependsOn ps (some m) p.key q.key → [q, p].Sublist res) := by
  unfold satisfyRequirements at h
  simp only [installAll_eq] at h
  cases hp : mkPool [Repository.ofList ps] (some m) with
  | error e => simp only [hp] at h; cases h
  | ok pool =>
    simp only [hp] at h
    cases ht : (freshSolver [Repository.ofList ps] pool).solve o ⟨m, installJobs reqs⟩ with
    | error e => simp only [ht] at h; cases h
    | ok t =>
      simp only [ht] at h
      obtain ⟨res', he, h1, h2, h3, h4⟩ := fresh_operations hp ht
      rw [he, installedPackages_map] at h
      cases h
      refine ⟨h1, ?_, ?_, ?_⟩
      · rw [List.Nodup, List.pairwise_map] at h2
        simp only [samePackage_iff]
        exact h2
      · intro r hr
        have hj := C41_jobs_satisfied (freshSolver_for hp) ht
          ⟨fun k k' hk => absurd hk (fresh_not_installed _ _ _), fun p _ q _ hk => absurd hk (fresh_not_installed _ _ _)⟩
          (j := ⟨some r, .install⟩) (by rw [fresh_jobs]; exact List.mem_map.2 ⟨r, hr, rfl⟩)
        obtain ⟨r', hr', q, hq, h5, h6⟩ := hj
        cases hr'
        obtain ⟨p, hp1, hp2⟩ := (h4 q.key).1 h5
        exact ⟨p, hp1, q, (mem_all ps q).1 hq, samePackage_iff.2 hp2, h6⟩
      · intro p hp q hq hne
        rw [samePackage_iff] at hne
        exact h3 p hp q hq hne

/-- a package that shares a name with one that meets a requirement shares a name with all those that meet it -/
def TidyRequirements (ps : List (Package N S U)) (reqs : List (Requirement N U)) : Prop :=
  ∀ r ∈ reqs, ∀ p ∈ ps, ∀ q ∈ ps, ∀ q' ∈ ps, SamePackage q q' → MeetsJob r q → ShareName p q' →
    ∀ c ∈ ps, MeetsJob r c → ShareName p c

theorem PlainNames.tidyRequirements {ps : List (Package N S U)} (h : PlainNames ps) (reqs : List (Requirement N U)) :
    TidyRequirements ps reqs := by
  rintro r hr p hp q hq q' hq' hs hm ⟨n, h1, h2⟩ c hc hmc
  refine ⟨n, h1, Or.inl ?_⟩
  rw [h q' hq' n h2, ← hs.1, ← h q hq _ hm.1, ← h c hc _ hmc.1]

theorem fresh_tidy {ps : List (Package N S U)} {reqs : List (Requirement N U)} (h : TidyRequirements ps reqs)
    (pool : Pool N S U) (m : Modifiers N) :
    Tidy (allPackages [Repository.ofList ps]) (InstalledKeys (freshSolver [Repository.ofList ps] pool))
      (effectiveJobs (freshSolver [Repository.ofList ps] pool) ⟨m, installJobs reqs⟩) := by
  rw [fresh_jobs]
  refine ⟨fun p _ r _ _ hk => absurd hk (fresh_not_installed _ _ _), ?_⟩
  intro p hp r hr hs j hj hk
  obtain ⟨rq, hrq, rfl⟩ := installJobs_kind hj
  right; right
  refine ⟨by simp, ?_⟩
  rintro c hc ⟨rq1, h1, h2⟩
  cases h1
  obtain ⟨q, ⟨rq2, h3, h4⟩, h5⟩ := hk
  cases h3
  rw [if_neg (by simp)] at h2 h4
  exact h rq hrq p ((mem_all ps p).1 hp) q ((mem_all ps q).1 h4.1) r ((mem_all ps r).1 hr) (samePackage_iff.2 h5) h4.2 hs c
    ((mem_all ps c).1 hc) h2.2

theorem exclusive_all {ps : List (Package N S U)} {m : Option (Modifiers N)} (h : Exclusive ps m) :
    Exclusive (allPackages [Repository.ofList ps]) m := by
  intro p hp q hq
  exact h p ((mem_all ps p).1 hp) q ((mem_all ps q).1 hq)

/-- C51 (partial): everything in the result is in order (in particular it contains a package for each dependency of each of
its packages), provided that packages which provide a common name exclude each other, and that a package which shares a name
with one that meets a requirement shares a name with all those that meet it. What is missing: the property fails without
these conditions, see `C51_violated`. -/
theorem C51_result_valid_partial {o : Orders} {ps : List (Package N S U)} {reqs : List (Requirement N U)} {m : Modifiers N}
    {res : List (Package N S U)} (h : satisfyRequirements o ps reqs (some m) = .ok res) (hE : Exclusive ps (some m))
    (hT : TidyRequirements ps reqs) : Fulfils ps m reqs (Keys res) := by
  unfold satisfyRequirements at h
  simp only [installAll_eq] at h
  cases hp : mkPool [Repository.ofList ps] (some m) with
  | error e => simp only [hp] at h; cases h
  | ok pool =>
    simp only [hp] at h
    cases ht : (freshSolver [Repository.ofList ps] pool).solve o ⟨m, installJobs reqs⟩ with
    | error e => simp only [ht] at h; cases h
    | ok t =>
      simp only [ht] at h
      obtain ⟨res', he, -, -, -, h4⟩ := fresh_operations hp ht
      rw [he, installedPackages_map] at h
      cases h
      have hv := C41_valid_installation_partial (freshSolver_for hp) ht rfl (exclusive_all hE) (fresh_tidy hT pool m)
          ⟨fun k k' hk => absurd hk (fresh_not_installed _ _ _), fun p _ q _ hk => absurd hk (fresh_not_installed _ _ _)⟩
      rw [solves_fresh] at hv
      rw [← show Result _ t = Keys res from funext fun k => propext (h4 k)]
      exact hv

/-- C51 (partial): in particular if packages provide nothing but their own names -/
theorem C51_result_valid_plain_partial {o : Orders} {ps : List (Package N S U)} {reqs : List (Requirement N U)}
    {m : Modifiers N} {res : List (Package N S U)} (h : satisfyRequirements o ps reqs (some m) = .ok res)
    (hown : PlainNames ps) : Fulfils ps m reqs (Keys res) :=
  C51_result_valid_partial h (hown.exclusive _) (hown.tidyRequirements reqs)

/-- the solver of these functions finds a solution if there is one -/
theorem fresh_solve_iff {ps : List (Package N S U)} {m : Modifiers N} {pool : Pool N S U}
    (hp : mkPool [Repository.ofList ps] (some m) = .ok pool) (hw : WellFormedPackages ps m) (hown : PlainNames ps)
    (hc : ¬ ∃ k, TransGen (OtherDep ps (some m)) k k) {reqs : List (Requirement N U)}
    (hj : ∀ r ∈ reqs, ∃ p ∈ ps, MeetsJob r p) (o : Orders) :
    (∃ t, (freshSolver [Repository.ofList ps] pool).solve o ⟨m, installJobs reqs⟩ = .ok t) ↔
      ∃ I, Fulfils ps m reqs I := by
  have h := C61_solution_found_iff (freshSolver_for hp) o (fresh_wellFormed hw pool reqs) rfl
    (by intro p hp; exact hown p ((mem_all ps p).1 hp)) (by
      rintro ⟨k, hk⟩
      refine hc ⟨k, TransGen.mono (fun a b h => ?_) k k hk⟩
      obtain ⟨h1, t, h2, d, h3, h4⟩ := h
      exact ⟨h1, t, h2, d, (mem_all ps d).1 h3, h4⟩)
    (fun k k' hk => absurd hk (fresh_not_installed _ _ _)) (by
      rw [fresh_jobs]
      intro j hj hk
      obtain ⟨r, -, rfl⟩ := installJobs_kind hj
      cases hk) ((fresh_possible _).2 hj)
  simp only [solves_fresh] at h
  exact h

/-- C51: if packages provide nothing but their own names, their dependencies have no cycle, their metadata is well formed,
and every requirement is met by some package, then `satisfy_requirements` returns packages exactly if there is a set of
packages that fulfils the requirements. -/
theorem C51_found_iff (o : Orders) {ps : List (Package N S U)} {m : Modifiers N} (hw : WellFormedPackages ps m)
    (hown : PlainNames ps) (hc : ¬ ∃ k, TransGen (OtherDep ps (some m)) k k) {reqs : List (Requirement N U)}
    (hj : ∀ r ∈ reqs, ∃ p ∈ ps, MeetsJob r p) :
    (∃ res, satisfyRequirements o ps reqs (some m) = .ok res) ↔ ∃ I, Fulfils ps m reqs I := by
  obtain ⟨pool, hp⟩ := mkPool_total hw.unversioned (some m)
  rw [← fresh_solve_iff hp hw hown hc hj o]
  unfold satisfyRequirements
  simp only [installAll_eq, hp]
  constructor
  · rintro ⟨res, h⟩
    split at h
    · cases h
    · next t ht => exact ⟨t, ht⟩
  · rintro ⟨t, ht⟩
    obtain ⟨res, he, -⟩ := fresh_operations hp ht
    simp only [ht, he, installedPackages_map]
    exact ⟨res, rfl⟩

/-- C51: SatisfiabilityError is raised exactly if no set of packages fulfils the requirements, provided the metadata is
well formed and every requirement is met by some package. -/
theorem C51_unsatisfiable_iff (o : Orders) {ps : List (Package N S U)} {m : Modifiers N} (hw : WellFormedPackages ps m)
    {reqs : List (Requirement N U)} (hj : ∀ r ∈ reqs, ∃ p ∈ ps, MeetsJob r p) :
    (∃ u, satisfyRequirements o ps reqs (some m) = .error (.sat (.satisfiability u))) ↔ ¬ ∃ I, Fulfils ps m reqs I := by
  obtain ⟨pool, hp⟩ := mkPool_total hw.unversioned (some m)
  have h := C61_unsatisfiable_iff (freshSolver_for hp) o (fresh_wellFormed hw pool reqs) ((fresh_possible _).2 hj)
  simp only [solves_fresh] at h
  rw [← h]
  unfold satisfyRequirements
  simp only [installAll_eq, hp]
  constructor
  · rintro ⟨u, h⟩
    split at h
    · next e he => cases h; exact ⟨u, he⟩
    · next t ht =>
      cases hl : installedPackages t.operations <;> rw [hl] at h <;> cases h
  · rintro ⟨u, hu⟩
    simp only [hu]
    exact ⟨u, rfl⟩

/-- C51: the default value of `modifiers` is not accepted: without modifiers the function always raises TypeError. -/
theorem C51_default_modifiers_type_error (o : Orders) (ps : List (Package N S U)) (reqs : List (Requirement N U)) :
    satisfyRequirements o ps reqs none = .error (.pkg .typeError) := rfl

/-! ### C64 -/

theorem satisfiable_cases {o : Orders} {ps : List (Package N S U)} {reqs : List (Requirement N U)}
    {m : Option (Modifiers N)} {b : Bool} (h : requirementsAreSatisfiable o ps reqs m = .ok b) :
    ∃ pool, mkPool [Repository.ofList ps] (some (m.getD Modifiers.empty)) = .ok pool ∧
      if b = true then ∃ t, (freshSolver [Repository.ofList ps] pool).solve o ⟨m.getD Modifiers.empty, installJobs reqs⟩ = .ok t
      else ∃ u, (freshSolver [Repository.ofList ps] pool).solve o ⟨m.getD Modifiers.empty, installJobs reqs⟩ =
        .error (.sat (.satisfiability u)) := by
  unfold requirementsAreSatisfiable at h
  simp only [installAll_eq] at h
  cases hp : mkPool [Repository.ofList ps] (some (m.getD Modifiers.empty)) with
  | error e => simp only [hp] at h; cases h
  | ok pool =>
    simp only [hp] at h
    refine ⟨pool, rfl, ?_⟩
    split at h
    · next t ht => cases h; simp only [if_true]; exact ⟨t, ht⟩
    · next u hu => cases h; simp only [Bool.false_eq_true, if_false]; exact ⟨u, hu⟩
    · cases h

/-- C64: if `requirements_are_satisfiable` returns, its field `is_satisfiable` says whether some set of the packages fulfils
the requirements. -/
theorem C64_satisfiable_correct {o : Orders} {ps : List (Package N S U)} {reqs : List (Requirement N U)}
    {m : Option (Modifiers N)} {b : Bool} (h : requirementsAreSatisfiable o ps reqs m = .ok b) :
    b = true ↔ ∃ I, Fulfils ps (m.getD Modifiers.empty) reqs I := by
  obtain ⟨pool, hp, hb⟩ := satisfiable_cases h
  have hd := C40_decides (freshSolver_for hp) o ⟨m.getD Modifiers.empty, installJobs reqs⟩
  simp only [solves_fresh] at hd
  split at hb
  · next hb' =>
    obtain ⟨t, ht⟩ := hb
    rw [ht] at hd
    exact ⟨fun _ => hd, fun _ => hb'⟩
  · next hb' =>
    obtain ⟨u, hu⟩ := hb
    rw [hu] at hd
    exact ⟨fun h => absurd h hb', fun h => absurd h hd⟩

/-- C64: it returns "not satisfiable" exactly if no set of packages fulfils the requirements, provided the metadata is well
formed and every requirement is met by some package -/
theorem C64_unsatisfiable_iff (o : Orders) {ps : List (Package N S U)} {m : Option (Modifiers N)}
    (hw : WellFormedPackages ps (m.getD Modifiers.empty)) {reqs : List (Requirement N U)}
    (hj : ∀ r ∈ reqs, ∃ p ∈ ps, MeetsJob r p) :
    requirementsAreSatisfiable o ps reqs m = .ok false ↔ ¬ ∃ I, Fulfils ps (m.getD Modifiers.empty) reqs I := by
  constructor
  · intro h hx
    have := (C64_satisfiable_correct h).2 hx
    cases this
  · intro hx
    obtain ⟨pool, hp⟩ := mkPool_total hw.unversioned (some (m.getD Modifiers.empty))
    have h := C61_unsatisfiable_iff (freshSolver_for hp) o (fresh_wellFormed hw pool reqs) ((fresh_possible _).2 hj)
    simp only [solves_fresh] at h
    obtain ⟨u, hu⟩ := h.2 hx
    unfold requirementsAreSatisfiable
    simp only [installAll_eq, hp, hu]

/-- C64: and "satisfiable" exactly if there is one, if moreover packages provide nothing but their own names and their
dependencies have no cycle -/
theorem C64_satisfiable_iff (o : Orders) {ps : List (Package N S U)} {m : Option (Modifiers N)}
    (hw : WellFormedPackages ps (m.getD Modifiers.empty)) (hown : PlainNames ps)
    (hc : ¬ ∃ k, TransGen (OtherDep ps (some (m.getD Modifiers.empty))) k k) {reqs : List (Requirement N U)}
    (hj : ∀ r ∈ reqs, ∃ p ∈ ps, MeetsJob r p) :
    requirementsAreSatisfiable o ps reqs m = .ok true ↔ ∃ I, Fulfils ps (m.getD Modifiers.empty) reqs I := by
  constructor
  · intro h
    exact (C64_satisfiable_correct h).1 rfl
  · intro hx
    obtain ⟨pool, hp⟩ := mkPool_total hw.unversioned (some (m.getD Modifiers.empty))
    obtain ⟨t, ht⟩ := (fresh_solve_iff hp hw hown hc hj o).2 hx
    unfold requirementsAreSatisfiable
    simp only [installAll_eq, hp, ht]

/-- C64: a requirement that no package meets is not reported as unsatisfiable: NoPackageFound is raised -/
theorem C64_no_package_found (o : Orders) {ps : List (Package N S U)} {m : Option (Modifiers N)}
    (hw : WellFormedPackages ps (m.getD Modifiers.empty)) {reqs : List (Requirement N U)}
    (hj : ∃ r ∈ reqs, ¬ ∃ p ∈ ps, MeetsJob r p) :
    requirementsAreSatisfiable o ps reqs m = .error (.pkg .noPackageFound) := by
  obtain ⟨pool, hp⟩ := mkPool_total hw.unversioned (some (m.getD Modifiers.empty))
  have h := C61_no_package_found (freshSolver_for hp) o (fresh_wellFormed hw pool reqs) (by
    apply Classical.byContradiction
    intro hn
    obtain ⟨r, hr, hr'⟩ := hj
    refine hr' ((fresh_possible (ps := ps) (freshSolver [Repository.ofList ps] pool) (m := m.getD Modifiers.empty)).1 ?_ r hr)
    intro j hj
    apply Classical.byContradiction
    intro hnj
    exact hn ⟨j, hj, hnj⟩)
  unfold requirementsAreSatisfiable
  simp only [installAll_eq, hp, h]

theorem meetsJob_exactly (n : N) (v : Version U) (q : Package N S U) :
    MeetsJob (Requirement.exactly .install n v) q ↔ Provides q n ∧ q.version = v := by
  unfold MeetsJob Meets
  refine and_congr Iff.rfl ?_
  unfold Looked ReqAccepts
  constructor
  · rintro ⟨r', hr, h⟩
    subst hr
    have := h (.equal v) (by simp [Requirement.exactly])
    exact (sameVersion_iff _ _).1 this
  · intro h
    refine ⟨_, rfl, ?_⟩
    intro c hc
    simp only [Requirement.exactly, List.mem_singleton] at hc
    subst hc
    exact (sameVersion_iff _ _).2 h

/-- C64 (partial): if packages provide nothing but their own names and there is only one package per name and version, then
`packages_are_consistent`, if it returns, says whether all packages together are in order. What is missing: without the
condition it may accept packages that cannot be installed together, see `C64_consistent_violated`. -/
theorem C64_consistent_correct_partial {o : Orders} {ps : List (Package N S U)} {m : Option (Modifiers N)} {b : Bool}
    (h : packagesAreConsistent o ps m = .ok b) (hown : PlainNames ps)
    (huniq : ∀ p ∈ ps, ∀ q ∈ ps, p.name = q.name → p.version = q.version → SamePackage p q) :
    b = true ↔ Consistent ps (some (m.getD Modifiers.empty)) (Keys ps) := by
  rw [C64_satisfiable_correct h]
  have key : ∀ I, Fulfils ps (m.getD Modifiers.empty) (requirementsFromPackages ps) I → ∀ k, Keys ps k → I k := by
    rintro I ⟨-, h2⟩ k ⟨p, hp, rfl⟩
    obtain ⟨q, hq, hI, hm⟩ := h2 (Requirement.exactly .install p.name p.version) (List.mem_map.2 ⟨p, hp, rfl⟩)
    rw [meetsJob_exactly] at hm
    rw [samePackage_iff.1 (huniq p hp q hq (hown q hq _ hm.1) hm.2.symm)]
    exact hI
  constructor
  · rintro ⟨I, hI⟩
    have : I = Keys ps := by
      funext k
      exact propext ⟨hI.1.available k, key I hI k⟩
    rw [← this]
    exact hI.1
  · intro hc
    refine ⟨Keys ps, hc, ?_⟩
    intro r hr
    obtain ⟨p, hp, rfl⟩ := List.mem_map.1 hr
    exact ⟨p, hp, ⟨p, hp, rfl⟩, (meetsJob_exactly _ _ _).2 ⟨Or.inl rfl, rfl⟩⟩

/-- C64 (partial): under these conditions it returns False exactly if they are not in order, provided the metadata is well
formed. What is missing: see above. -/
theorem C64_inconsistent_iff_partial (o : Orders) {ps : List (Package N S U)} {m : Option (Modifiers N)}
    (hw : WellFormedPackages ps (m.getD Modifiers.empty)) (hown : PlainNames ps)
    (huniq : ∀ p ∈ ps, ∀ q ∈ ps, p.name = q.name → p.version = q.version → SamePackage p q) :
    packagesAreConsistent o ps m = .ok false ↔ ¬ Consistent ps (some (m.getD Modifiers.empty)) (Keys ps) := by
  constructor
  · intro h hc
    have := (C64_consistent_correct_partial h hown huniq).2 hc
    cases this
  · intro hc
    refine (C64_unsatisfiable_iff o hw ?_).2 ?_
    · intro r hr
      obtain ⟨p, hp, rfl⟩ := List.mem_map.1 hr
      exact ⟨p, hp, (meetsJob_exactly _ _ _).2 ⟨Or.inl rfl, rfl⟩⟩
    · rintro ⟨I, hI⟩
      have key : ∀ k, Keys ps k → I k := by
        rintro k ⟨p, hp, rfl⟩
        obtain ⟨q, hq, hI, hm⟩ := hI.2 (Requirement.exactly .install p.name p.version) (List.mem_map.2 ⟨p, hp, rfl⟩)
        rw [meetsJob_exactly] at hm
        rw [samePackage_iff.1 (huniq p hp q hq (hown q hq _ hm.1) hm.2.symm)]
        exact hI
      have : I = Keys ps := by
        funext k
        exact propext ⟨hI.1.available k, key k⟩
      rw [this] at hI
      exact hc hI.1

/-! ### C53 -/

theorem addNew_spec (ps : List (Package N S U)) : ∀ acc : List (Package N S U), (acc.map Package.key).Nodup →
    ((addNew acc ps).map Package.key).Nodup ∧ (∀ p ∈ addNew acc ps, p ∈ acc ∨ p ∈ ps) ∧
    ∀ k, Keys (addNew acc ps) k ↔ Keys acc k ∨ Keys ps k := by
  induction ps with
  | nil =>
    intro acc h
    exact ⟨h, fun p hp => Or.inl hp, fun k => ⟨Or.inl, fun h => h.elim id (by rintro ⟨p, hp, -⟩; simp at hp)⟩⟩
  | cons x ps ih =>
    intro acc h
    have hstep : addNew acc (x :: ps) = addNew (if acc.any (fun q => x.same q) then acc else acc ++ [x]) ps := rfl
    rw [hstep]
    have hany : acc.any (fun q => x.same q) = true ↔ Keys acc x.key := by
      simp only [List.any_eq_true, Package.same, decide_eq_true_eq, Keys]
      exact exists_congr fun q => and_congr_right fun _ => eq_comm
    split
    · next hx =>
      rw [hany] at hx
      obtain ⟨h1, h2, h3⟩ := ih acc h
      refine ⟨h1, fun p hp => (h2 p hp).imp id (List.mem_cons_of_mem x), fun k => ?_⟩
      rw [h3]
      constructor
      · rintro (h | ⟨p, hp, hk⟩)
        · exact Or.inl h
        · exact Or.inr ⟨p, List.mem_cons_of_mem x hp, hk⟩
      · rintro (h | ⟨p, hp, hk⟩)
        · exact Or.inl h
        · rcases List.mem_cons.1 hp with rfl | hp
          · rw [← hk]; exact Or.inl hx
          · exact Or.inr ⟨p, hp, hk⟩
    · next hx =>
      rw [hany] at hx
      obtain ⟨h1, h2, h3⟩ := ih (acc ++ [x]) (by
        rw [List.map_append, List.nodup_append]
        refine ⟨h, by simp, ?_⟩
        intro a ha b hb e
        simp only [List.map_cons, List.map_nil, List.mem_singleton] at hb
        obtain ⟨p, hp, rfl⟩ := List.mem_map.1 ha
        exact hx ⟨p, hp, e.trans hb⟩)
      refine ⟨h1, ?_, fun k => ?_⟩
      · intro p hp
        rcases h2 p hp with h | h
        · rcases List.mem_append.1 h with h | h
          · exact Or.inl h
          · rw [List.mem_singleton] at h
            exact Or.inr (by rw [h]; simp)
        · exact Or.inr (List.mem_cons_of_mem x h)
      · rw [h3]
        constructor
        · rintro (⟨p, hp, hk⟩ | ⟨p, hp, hk⟩)
          · rcases List.mem_append.1 hp with h | h
            · exact Or.inl ⟨p, h, hk⟩
            · rw [List.mem_singleton] at h
              exact Or.inr ⟨p, by rw [h]; simp, hk⟩
          · exact Or.inr ⟨p, List.mem_cons_of_mem x hp, hk⟩
        · rintro (⟨p, hp, hk⟩ | ⟨p, hp, hk⟩)
          · exact Or.inl ⟨p, List.mem_append_left _ hp, hk⟩
          · rcases List.mem_cons.1 hp with rfl | hp
            · exact Or.inl ⟨p, by simp, hk⟩
            · exact Or.inr ⟨p, hp, hk⟩

theorem listProviders_spec {pool : Pool N S U} {ps : List (Package N S U)} (hok : pool.OK ps)
    (reqs : List (Requirement N U)) : ∀ {acc l : List (Package N S U)}, (acc.map Package.key).Nodup →
      listProviders pool reqs acc = .ok l →
    (l.map Package.key).Nodup ∧
    (∀ p ∈ l, p ∈ acc ∨ p ∈ ps ∧ ∃ r ∈ reqs, Meets pool.modifiers true r p) ∧
    ∀ k, Keys l k ↔ Keys acc k ∨ ∃ p ∈ ps, p.key = k ∧ ∃ r ∈ reqs, Meets pool.modifiers true r p := by
  induction reqs with
  | nil =>
    intro acc l hn h
    cases h
    exact ⟨hn, fun p hp => Or.inl hp, fun k => ⟨Or.inl, fun h => h.elim id (by rintro ⟨p, -, -, r, hr, -⟩; simp at hr)⟩⟩
  | cons r reqs ih =>
    intro acc l hn h
    unfold listProviders at h
    split at h
    · cases h
    · next qs hq =>
      have hm := fun p => mem_whatProvides hok hq p
      obtain ⟨h1, h2, h3⟩ := addNew_spec qs acc hn
      obtain ⟨h4, h5, h6⟩ := ih h1 h
      refine ⟨h4, ?_, fun k => ?_⟩
      · intro p hp
        rcases h5 p hp with h | ⟨ha, r', hr', hm'⟩
        · rcases h2 p h with h | h
          · exact Or.inl h
          · obtain ⟨ha, hm'⟩ := (hm p).1 h
            exact Or.inr ⟨ha, r, by simp, hm'⟩
        · exact Or.inr ⟨ha, r', List.mem_cons_of_mem r hr', hm'⟩
      · rw [h6, h3]
        constructor
        · rintro ((h | ⟨p, hp, hk⟩) | ⟨p, hp, hk, r', hr', hm'⟩)
          · exact Or.inl h
          · obtain ⟨ha, hm'⟩ := (hm p).1 hp
            exact Or.inr ⟨p, ha, hk, r, by simp, hm'⟩
          · exact Or.inr ⟨p, hp, hk, r', List.mem_cons_of_mem r hr', hm'⟩
        · rintro (h | ⟨p, hp, hk, r', hr', hm'⟩)
          · exact Or.inl (Or.inl h)
          · rcases List.mem_cons.1 hr' with rfl | hr'
            · exact Or.inl (Or.inr ⟨p, (hm p).2 ⟨hp, hm'⟩, hk⟩)
            · exact Or.inr ⟨p, hp, hk, r', hr', hm'⟩

theorem built_ok_modifiers {rs : List (Repository N S U)} {m : Option (Modifiers N)} {pool : Pool N S U}
    (h : Built rs m pool) : pool.modifiers = m := by
  obtain ⟨m0, pool0, -, rfl⟩ := h
  rfl

theorem sortKey_nameVersion (rank : List (CTuple N S) → K) {p q : Package N S U} (h : sortKey rank p ≤ sortKey rank q) :
    NameVersionLE p q := by
  unfold sortKey at h
  rw [Prod.Lex.toLex_le_toLex] at h
  rcases h with h | ⟨h1, h2⟩
  · exact Or.inl h
  · rw [Prod.Lex.toLex_le_toLex] at h2
    rcases h2 with h2 | ⟨h2, -⟩
    · exact Or.inr ⟨h1, le_of_lt h2⟩
    · exact Or.inr ⟨h1, le_of_eq h2⟩

/-- C53: if `packages_from_requirements` returns (C53_returns_iff), it returns given packages, none twice, exactly those that provide one of the
requirements as modified (up to equality of packages), in the order of names and versions. -/
theorem C53_packages_from_requirements_partial {rank : List (CTuple N S) → K} {ps : List (Package N S U)}
    {reqs : List (Requirement N U)} {m : Option (Modifiers N)} {res : List (Package N S U)}
    (h : packagesFromRequirements rank ps reqs m = .ok res) :
    (∀ p ∈ res, p ∈ ps ∧ ∃ r ∈ reqs, Meets m true r p) ∧
    (∀ p ∈ ps, (∃ r ∈ reqs, Meets m true r p) → ∃ q ∈ res, SamePackage q p) ∧
    res.Pairwise (fun p q => ¬ SamePackage p q) ∧ res.Pairwise NameVersionLE := by
  unfold packagesFromRequirements at h
  split at h
  · cases h
  · next pool hp =>
    have hb := mkPool_built hp
    split at h
    · cases h
    · next l hl =>
      split at h
      · cases h
        obtain ⟨h1, h2, h3⟩ := listProviders_spec hb.ok reqs (acc := []) (by simp) hl
        rw [built_ok_modifiers hb] at h2 h3
        refine ⟨?_, ?_, ?_, ?_⟩
        · intro p hp
          rw [mem_sortBy] at hp
          rcases h2 p hp with h | ⟨h4, h5⟩
          · simp at h
          · exact ⟨(mem_all ps p).1 h4, h5⟩
        · intro p hp hr
          obtain ⟨q, hq, hk⟩ := (h3 p.key).2 (Or.inr ⟨p, (mem_all ps p).2 hp, rfl, hr⟩)
          exact ⟨q, (mem_sortBy _ _ _).2 hq, samePackage_iff.2 hk⟩
        · have : ((sortBy (sortKey rank) l).map Package.key).Nodup :=
            (((sortBy_perm (sortKey rank) l).map Package.key).nodup_iff).2 h1
          rw [List.Nodup, List.pairwise_map] at this
          simp only [samePackage_iff]
          exact this
        · exact (sortBy_sorted (sortKey rank) l).imp (fun h => sortKey_nameVersion rank h)
      · cases h

theorem listProviders_total {pool : Pool N S U} {reqs : List (Requirement N U)} (h : ∀ r ∈ reqs, r.cls = .install) :
    ∀ acc : List (Package N S U), ∃ l, listProviders pool reqs acc = .ok l := by
  induction reqs with
  | nil => intro acc; exact ⟨acc, rfl⟩
  | cons r reqs ih =>
    intro acc
    obtain ⟨ps, hps⟩ := whatProvides_install (pool := pool) (h r (by simp)) true
    unfold listProviders
    simp only [hps]
    exact ih (fun r hr => h r (List.mem_cons_of_mem _ hr)) _

/-- two packages differ only in the repository they come from, or one of them does not come from a repository -/
def Incomparable (p q : Package N S U) : Prop :=
  (p.name = q.name ∧ p.version = q.version ∧ p.installRequires = q.installRequires ∧ p.conflicts = q.conflicts ∧
    p.repo ≠ q.repo) ∨ (p.repo = none ∧ q.repo ≠ none)

/-- C53: for install requirements and packages that provide no versioned names it returns, unless two of the packages to be
returned cannot be compared: then it raises TypeError. -/
theorem C53_returns_iff (rank : List (CTuple N S) → K) {ps : List (Package N S U)} {reqs : List (Requirement N U)}
    (m : Option (Modifiers N)) (hu : ∀ p ∈ ps, ∀ t ∈ p.declaredProvides, Unversioned (U := U) t)
    (hr : ∀ r ∈ reqs, r.cls = .install) :
    ((∃ p ∈ ps, (∃ r ∈ reqs, Meets m true r p) ∧ ∃ q ∈ ps, (∃ r ∈ reqs, Meets m true r q) ∧ Incomparable p q) →
      packagesFromRequirements rank ps reqs m = .error .typeError) ∧
    ((¬ ∃ p ∈ ps, (∃ r ∈ reqs, Meets m true r p) ∧ ∃ q ∈ ps, (∃ r ∈ reqs, Meets m true r q) ∧ Incomparable p q) →
      ∃ res, packagesFromRequirements rank ps reqs m = .ok res) := by
  obtain ⟨pool, hp⟩ := mkPool_total hu m
  obtain ⟨l, hl⟩ := listProviders_total (pool := pool) hr []
  have hb := mkPool_built hp
  obtain ⟨h1, h2, h3⟩ := listProviders_spec hb.ok reqs (acc := []) (by simp) hl
  rw [built_ok_modifiers hb] at h2 h3
  have hc : comparable l = false ↔ ∃ p ∈ ps, (∃ r ∈ reqs, Meets m true r p) ∧ ∃ q ∈ ps, (∃ r ∈ reqs, Meets m true r q) ∧
      Incomparable p q := by
    have hkeys : ∀ p ∈ ps, (∃ r ∈ reqs, Meets m true r p) → ∃ q ∈ l, q.key = p.key := by
      intro p hp hr
      exact (h3 p.key).2 (Or.inr ⟨p, (mem_all ps p).2 hp, rfl, hr⟩)
    have hmem : ∀ p ∈ l, p ∈ ps ∧ ∃ r ∈ reqs, Meets m true r p := by
      intro p hp
      rcases h2 p hp with h | ⟨h4, h5⟩
      · simp at h
      · exact ⟨(mem_all ps p).1 h4, h5⟩
    rw [← Bool.not_eq_true]
    unfold comparable
    simp only [List.all_eq_true, decide_eq_true_eq]
    constructor
    · intro h
      simp only [not_forall] at h
      obtain ⟨p, hp, q, hq, h⟩ := h
      obtain ⟨hp1, hp2⟩ := hmem p hp
      obtain ⟨hq1, hq2⟩ := hmem q hq
      by_cases hs : p.repo.isSome = q.repo.isSome
      · refine ⟨p, hp1, hp2, q, hq1, hq2, Or.inl ?_⟩
        simp only [hs, true_and, not_forall] at h
        obtain ⟨⟨a, b, c, d⟩, e⟩ := h
        exact ⟨a, b, c, d, e⟩
      · cases ha : p.repo with
        | none =>
          refine ⟨p, hp1, hp2, q, hq1, hq2, Or.inr ⟨ha, ?_⟩⟩
          rintro hb
          rw [ha, hb] at hs
          exact hs rfl
        | some a =>
          refine ⟨q, hq1, hq2, p, hp1, hp2, Or.inr ⟨?_, by rw [ha]; simp⟩⟩
          cases hb : q.repo with
          | none => rfl
          | some b => rw [ha, hb] at hs; exact absurd rfl hs
    · rintro ⟨p, hp, hpr, q, hq, hqr, hi⟩ hall
      obtain ⟨p', hp', hpk⟩ := hkeys p hp hpr
      obtain ⟨q', hq', hqk⟩ := hkeys q hq hqr
      obtain ⟨h4, h5⟩ := hall p' hp' q' hq'
      obtain ⟨a1, a2, a3, a4, a5⟩ := samePackage_iff.2 hpk
      obtain ⟨b1, b2, b3, b4, b5⟩ := samePackage_iff.2 hqk
      rw [a1, a2, a3, a4, a5, b1, b2, b3, b4, b5] at h5
      rw [a5, b5] at h4
      rcases hi with ⟨c1, c2, c3, c4, c5⟩ | ⟨c1, c2⟩
      · exact c5 (h5 ⟨c1, c2, c3, c4⟩)
      · rw [c1] at h4
        cases hqr : q.repo with
        | none => exact c2 hqr
        | some b => rw [hqr] at h4; simp at h4
  unfold packagesFromRequirements
  simp only [hp, hl]
  rw [← hc]
  cases comparable l
  · simp
  · simp

/-- C53: the requirement generated for a package is an install requirement for its name, and matches exactly its version;
there is one for each package, in the same order. -/
theorem C53_requirements_from_packages (ps : List (Package N S U)) :
    List.Forall₂ (fun p (r : Requirement N U) => r.cls = .install ∧ r.name = p.name ∧ ∀ v, r.matches v = true ↔ v = p.version)
      ps (requirementsFromPackages ps) := by
  induction ps with
  | nil => exact List.Forall₂.nil
  | cons p ps ih =>
  refine List.Forall₂.cons ⟨rfl, rfl, fun v => ?_⟩ ih
  rw [C24_matches_meaning]
  unfold ReqAccepts Requirement.exactly
  simp only [List.mem_singleton, forall_eq, Accepts, sameVersion_iff]

/-- C53: so the packages that provide it are those of that version that provide the name: not only those *of* that name
(C53_violated). -/
theorem C53_requirement_matches_partial (m : Modifiers N) (hm : m.targets = []) (p q : Package N S U) :
    Meets (some m) true (Requirement.exactly .install p.name p.version) q ↔ Provides q p.name ∧ q.version = p.version := by
  rw [← meetsJob_exactly]
  unfold MeetsJob Meets Looked
  simp only [modifyRequirement_noTargets hm, Except.ok.injEq, eq_comm]

/-- C53: the packages for which requirements were generated are selected again by them, and every package that is selected
provides the name of one of them in its version; if packages provide only their own names, exactly the given packages are
selected (up to name and version). -/
theorem C53_round_trip_partial {rank : List (CTuple N S) → K} {ps sel res : List (Package N S U)}
    (h : packagesFromRequirements rank ps (requirementsFromPackages sel) (some Modifiers.empty) = .ok res) :
    (∀ p ∈ sel, p ∈ ps → ∃ q ∈ res, SamePackage q p) ∧
    (∀ q ∈ res, q ∈ ps ∧ ∃ p ∈ sel, Provides q p.name ∧ q.version = p.version) ∧
    (PlainNames ps → ∀ q ∈ res, ∃ p ∈ sel, q.name = p.name ∧ q.version = p.version) := by
  obtain ⟨h1, h2, -, -⟩ := C53_packages_from_requirements_partial h
  have hm : ∀ p : Package N S U, ∀ r : Requirement N U, r ∈ requirementsFromPackages sel →
      (Meets (some Modifiers.empty) true r p ↔ ∃ s ∈ sel, r = Requirement.exactly .install s.name s.version ∧
        Provides p s.name ∧ p.version = s.version) := by
    intro p r hr
    unfold requirementsFromPackages at hr
    obtain ⟨s, hs, rfl⟩ := List.mem_map.1 hr
    rw [C53_requirement_matches_partial _ rfl s p]
    constructor
    · intro k; exact ⟨s, hs, rfl, k⟩
    · rintro ⟨s', -, e, k⟩
      have e1 : s.name = s'.name := congrArg Requirement.name e
      have e2 : s.version = s'.version := by
        have := congrArg Requirement.constraints e
        simpa [Requirement.exactly] using this
      rw [e1, e2]; exact k
  have hb : ∀ q ∈ res, q ∈ ps ∧ ∃ p ∈ sel, Provides q p.name ∧ q.version = p.version := by
    intro q hq
    obtain ⟨k1, r, hr, k2⟩ := h1 q hq
    obtain ⟨s, hs, -, k⟩ := (hm q r hr).1 k2
    exact ⟨k1, s, hs, k⟩
  refine ⟨?_, hb, ?_⟩
  · intro p hp hps
    have hr : Requirement.exactly .install p.name p.version ∈ requirementsFromPackages sel :=
      List.mem_map.2 ⟨p, hp, rfl⟩
    exact h2 p hps ⟨_, hr, (hm p _ hr).2 ⟨p, hp, rfl, Or.inl rfl, rfl⟩⟩
  · intro hpl q hq
    obtain ⟨k1, p, hp, k2, k3⟩ := hb q hq
    exact ⟨p, hp, (hpl q k1 _ k2).symm, k3⟩

/-! ### C64: requirements_are_complete -/

/-- C64: if `requirements_are_complete` returns, its field `is_satisfiable` says whether the requirements can be fulfilled
using only packages that meet one of the requirements as modified (if equal packages are identical). -/
theorem C64_complete_correct {rank : List (CTuple N S) → K} {o : Orders} {ps : List (Package N S U)}
    {reqs : List (Requirement N U)} {m : Option (Modifiers N)} {b : Bool}
    (h : requirementsAreComplete rank o ps reqs m = .ok b) (huniq : ∀ p ∈ ps, ∀ q ∈ ps, SamePackage p q → p = q) :
    b = true ↔ ∃ I, Fulfils ps (m.getD Modifiers.empty) reqs I ∧ ∀ p ∈ ps, I p.key → ∃ r ∈ reqs, Meets m true r p := by
  unfold requirementsAreComplete at h
  split at h
  · cases h
  · next res hres =>
    obtain ⟨h1, h2, -, -⟩ := C53_packages_from_requirements_partial hres
    rw [C64_satisfiable_correct h]
    have hin : ∀ p ∈ ps, (∃ r ∈ reqs, Meets m true r p) → p ∈ res := by
      intro p hp hr
      obtain ⟨q, hq, hs⟩ := h2 p hp hr
      rw [← huniq q (h1 q hq).1 p hp hs]
      exact hq
    constructor
    · rintro ⟨I, hc, hr⟩
      have hI : ∀ p ∈ ps, I p.key → p ∈ res := by
        intro p hp hk
        obtain ⟨q, hq, hqk⟩ := hc.available p.key hk
        rw [← huniq q (h1 q hq).1 p hp (samePackage_iff.2 hqk)]
        exact hq
      refine ⟨I, ⟨⟨?_, ?_, hc.names, ?_⟩, ?_⟩, fun p hp hk => (h1 p (hI p hp hk)).2⟩
      · intro k hk
        obtain ⟨p, hp, hpk⟩ := hc.available k hk
        exact ⟨p, (h1 p hp).1, hpk⟩
      · intro k hk t ht
        obtain ⟨q, hq, h3⟩ := hc.deps k hk t ht
        exact ⟨q, (h1 q hq).1, h3⟩
      · intro k hk t ht q hq hqk
        exact hc.conflicts k hk t ht q (hI q hq hqk) hqk
      · intro r hr'
        obtain ⟨q, hq, h3⟩ := hr r hr'
        exact ⟨q, (h1 q hq).1, h3⟩
    · rintro ⟨I, ⟨hc, hr⟩, hI⟩
      refine ⟨I, ⟨?_, ?_, hc.names, ?_⟩, ?_⟩
      · intro k hk
        obtain ⟨p, hp, rfl⟩ := hc.available k hk
        exact ⟨p, hin p hp (hI p hp hk), rfl⟩
      · intro k hk t ht
        obtain ⟨q, hq, h3, h4⟩ := hc.deps k hk t ht
        exact ⟨q, hin q hq (hI q hq h3), h3, h4⟩
      · intro k hk t ht q hq
        exact hc.conflicts k hk t ht q (h1 q hq).1
      · intro r hr'
        obtain ⟨q, hq, h3, h4⟩ := hr r hr'
        exact ⟨q, hin q hq (hI q hq h3), h3, h4⟩

/-! ### C62 -/

/-- the package is one of the given ones and meets one of the requirements -/
def Needed (ps : List (Package N S U)) (reqs : List (Requirement N U)) (p : Package N S U) : Prop :=
  p ∈ ps ∧ ∃ r ∈ reqs, MeetsJob r p

/-- one of the needed packages has a dependency that the package meets -/
def NeededDependency (ps : List (Package N S U)) (reqs : List (Requirement N U)) (p : Package N S U) : Prop :=
  ∃ q, Needed ps reqs q ∧ DependsOn ps none q.key p.key

theorem meets_none (r : Requirement N U) (p : Package N S U) : Meets none true r p ↔ MeetsJob r p := Iff.rfl

theorem dependencyCandidates_spec {pool : Pool N S U} {l : List (Package N S U)} (hok : pool.OK l)
    (hm : pool.modifiers = none) : ∀ {ts : List (CTuple N S)} {res : List (Package N S U)},
    dependencyCandidates pool ts = .ok res → ∀ p, p ∈ res ↔ p ∈ l ∧ ∃ t ∈ ts, MeetsDep none t p := by
  intro ts
  induction ts with
  | nil =>
    intro res h p
    cases h
    simp
  | cons t ts ih =>
    intro res h p
    unfold dependencyCandidates at h
    split at h
    · cases h
    · next r hr =>
      split at h
      · cases h
      · next qs hq =>
        split at h
        · cases h
        · next qs' hq' =>
          cases h
          have h1 := mem_whatProvides hok hq p
          rw [hm] at h1
          rw [List.mem_append, ih hq' p, h1]
          constructor
          · rintro (⟨h2, h3⟩ | ⟨h2, t', h3, h4⟩)
            · exact ⟨h2, t, by simp, r, hr, h3⟩
            · exact ⟨h2, t', List.mem_cons_of_mem t h3, h4⟩
          · rintro ⟨h2, t', h3, h4⟩
            rcases List.mem_cons.1 h3 with rfl | h3
            · obtain ⟨r', h5, h6⟩ := h4
              rw [hr] at h5
              cases h5
              exact Or.inl ⟨h2, h6⟩
            · exact Or.inr ⟨h2, t', h3, h4⟩

/-- C62: `simplify_requirements` returns the requirements for exactly name and version of the needed packages that no
needed package depends on: one for each of them (up to equality of packages), in the order of names and versions. -/
theorem C62_simplified {rank : List (CTuple N S) → K} {ps : List (Package N S U)} {reqs out : List (Requirement N U)}
    (h : simplifyRequirements rank ps reqs = .ok out) :
    ∃ top : List (Package N S U), out = top.map (fun p => Requirement.exactly .install p.name p.version) ∧
      (∀ p ∈ top, Needed ps reqs p ∧ ¬ NeededDependency ps reqs p) ∧
      (∀ p, Needed ps reqs p → ¬ NeededDependency ps reqs p → ∃ q ∈ top, SamePackage q p) ∧
      top.Pairwise (fun p q => ¬ SamePackage p q) ∧ top.Pairwise NameVersionLE := by
  unfold simplifyRequirements at h
  split at h
  · cases h
  · next needed hn =>
    split at h
    · cases h
    · next pool hp =>
      split at h
      · cases h
      · next deps hd =>
        cases h
        obtain ⟨h1, h2, h3, h4⟩ := C53_packages_from_requirements_partial hn
        have hb := mkPool_built hp
        have hd' := dependencyCandidates_spec hb.ok (built_ok_modifiers hb) hd
        have hany : ∀ p, deps.any (fun q => p.same q) = true ↔ NeededDependency ps reqs p := by
          intro p
          simp only [List.any_eq_true, Package.same, decide_eq_true_eq, hd', List.mem_flatMap]
          constructor
          · rintro ⟨d, ⟨h5, t, ⟨q, h6, h7⟩, h8⟩, hk⟩
            exact ⟨q, h1 q h6, t, h7, d, (mem_all ps d).1 h5, hk.symm, h8⟩
          · rintro ⟨q, ⟨h5, h6⟩, t, h7, d, h8, h9, h10⟩
            obtain ⟨q', h11, h12⟩ := h2 q h5 h6
            refine ⟨d, ⟨(mem_all ps d).2 h8, t, ⟨q', h11, ?_⟩, h10⟩, h9.symm⟩
            rw [h12.2.2.1]
            exact h7
        refine ⟨needed.filter (fun p => !(deps.any (fun q => p.same q))), rfl, ?_, ?_, h3.filter _, h4.filter _⟩
        · intro p hp
          rw [List.mem_filter] at hp
          refine ⟨h1 p hp.1, ?_⟩
          rw [← hany]
          simpa using hp.2
        · intro p hp hnd
          obtain ⟨q, hq, hs⟩ := h2 p hp.1 hp.2
          refine ⟨q, List.mem_filter.2 ⟨hq, ?_⟩, hs⟩
          rw [Bool.not_eq_true', ← Bool.not_eq_true, hany]
          rintro ⟨q', hq', hd⟩
          rw [samePackage_iff.1 hs] at hd
          exact hnd ⟨q', hq', hd⟩

theorem C62_mem {rank : List (CTuple N S) → K} {ps : List (Package N S U)} {reqs out : List (Requirement N U)}
    (h : simplifyRequirements rank ps reqs = .ok out) (r : Requirement N U) :
    r ∈ out ↔ ∃ p, Needed ps reqs p ∧ ¬ NeededDependency ps reqs p ∧ r = Requirement.exactly .install p.name p.version := by
  obtain ⟨top, rfl, h1, h2, -, -⟩ := C62_simplified h
  rw [List.mem_map]
  constructor
  · rintro ⟨p, hp, rfl⟩
    exact ⟨p, (h1 p hp).1, (h1 p hp).2, rfl⟩
  · rintro ⟨p, hp, hd, rfl⟩
    obtain ⟨q, hq, hs⟩ := h2 p hp hd
    exact ⟨q, hq, by rw [hs.1, hs.2.1]⟩

/-- the packages that meet something are all equal -/
def AtMostOne (ps : List (Package N S U)) (meets : Package N S U → Prop) : Prop :=
  ∀ p ∈ ps, ∀ q ∈ ps, meets p → meets q → SamePackage p q

/-- The requirements and the dependencies are pinned: each is met by one package only, and so is the requirement of exactly
the name and version of a package. -/
structure Pinned (ps : List (Package N S U)) (reqs : List (Requirement N U)) : Prop where
  requirements : ∀ r ∈ reqs, AtMostOne ps (MeetsJob r)
  dependencies : ∀ p ∈ ps, ∀ t ∈ p.installRequires, AtMostOne ps (MeetsDep none t)
  exact : ∀ p ∈ ps, AtMostOne ps (MeetsJob (Requirement.exactly .install p.name p.version))

/-- a package of `I` meets the requirement -/
def MetIn (ps : List (Package N S U)) (I : PKey N S U → Prop) (r : Requirement N U) : Prop :=
  ∃ q ∈ ps, I q.key ∧ MeetsJob r q

theorem wellFounded_deps {ps : List (Package N S U)} (hc : ¬ ∃ k, TransGen (DependsOn ps none) k k) :
    WellFounded (fun a b : {k : PKey N S U // k ∈ ps.map Package.key} => TransGen (DependsOn ps none) a.1 b.1) := by
  have : Finite {k : PKey N S U // k ∈ ps.map Package.key} := (List.finite_toSet (ps.map Package.key)).to_subtype
  have : IsTrans {k : PKey N S U // k ∈ ps.map Package.key} (fun a b => TransGen (DependsOn ps none) a.1 b.1) :=
    ⟨fun a b c h1 h2 => TransGen.trans h1 h2⟩
  have : Std.Irrefl (fun a b : {k : PKey N S U // k ∈ ps.map Package.key} => TransGen (DependsOn ps none) a.1 b.1) :=
    ⟨fun a h => hc ⟨a.1, h⟩⟩
  exact Finite.wellFounded_of_trans_of_irrefl _

/-- C62 (partial): if the requirements and dependencies are pinned, the dependencies have no cycle, and every requirement is
met by some package, then the simplified requirements are equivalent: a set of packages that is in order meets all of them
exactly if it meets all requirements. What is missing: the property fails without these conditions, see
`C62_violated_versions` and `C62_violated_cycle`. -/
theorem C62_equivalent_partial {rank : List (CTuple N S) → K} {ps : List (Package N S U)} {reqs out : List (Requirement N U)}
    (h : simplifyRequirements rank ps reqs = .ok out) (hpin : Pinned ps reqs) (hc : ¬ ∃ k, TransGen (DependsOn ps none) k k)
    (hj : ∀ r ∈ reqs, ∃ p ∈ ps, MeetsJob r p) {I : PKey N S U → Prop} (hI : Consistent ps none I) :
    (∀ r ∈ out, MetIn ps I r) ↔ ∀ r ∈ reqs, MetIn ps I r := by
  constructor
  · intro ho
    have key : ∀ p, Needed ps reqs p → I p.key := by
      suffices ∀ x : {k : PKey N S U // k ∈ ps.map Package.key}, ∀ p, p.key = x.1 → Needed ps reqs p → I p.key from
        fun p hp => this ⟨p.key, List.mem_map.2 ⟨p, hp.1, rfl⟩⟩ p rfl hp
      intro x
      induction x using (wellFounded_deps hc).induction with
      | _ x ih =>
        intro p hk hp
        by_cases hd : NeededDependency ps reqs p
        · obtain ⟨q, hq, hdep⟩ := hd
          have hIq := ih ⟨q.key, List.mem_map.2 ⟨q, hq.1, rfl⟩⟩ (by rw [← hk]; exact TransGen.single hdep) q rfl hq
          obtain ⟨t, ht, d, hd, hdk, hm⟩ := hdep
          obtain ⟨d', hd', hId', -, hm'⟩ := hI.deps q.key hIq t ht
          have hs := hpin.dependencies q hq.1 t ht d hd d' hd' hm hm'
          rw [← hdk, samePackage_iff.1 hs]
          exact hId'
        · obtain ⟨q, hq, hIq, hm⟩ := ho _ ((C62_mem h _).2 ⟨p, hp, hd, rfl⟩)
          have hs := hpin.exact p hp.1 q hq p hp.1 hm ((meetsJob_exactly _ _ _).2 ⟨Or.inl rfl, rfl⟩)
          rw [← samePackage_iff.1 hs]
          exact hIq
    intro r hr
    obtain ⟨p, hp, hm⟩ := hj r hr
    exact ⟨p, hp, key p ⟨hp, r, hr, hm⟩, hm⟩
  · intro hr r hr'
    obtain ⟨p, ⟨hp, r', hr'', hm⟩, -, rfl⟩ := (C62_mem h r).1 hr'
    obtain ⟨q, hq, hIq, hm'⟩ := hr r' hr''
    have hs := hpin.requirements r' hr'' p hp q hq hm hm'
    exact ⟨p, hp, by rw [samePackage_iff.1 hs]; exact hIq, (meetsJob_exactly _ _ _).2 ⟨Or.inl rfl, rfl⟩⟩

/-- C62: none of the simplified requirements is redundant, if the needed packages together are in order and there is only
one package for the name and version of each: there is a set of packages, in order, that meets all but this one. -/
theorem C62_irredundant {rank : List (CTuple N S) → K} {ps : List (Package N S U)} {reqs out : List (Requirement N U)}
    (h : simplifyRequirements rank ps reqs = .ok out)
    (hpin : ∀ p ∈ ps, AtMostOne ps (MeetsJob (Requirement.exactly .install p.name p.version)))
    (hI : Consistent ps none (fun k => ∃ p, Needed ps reqs p ∧ p.key = k)) {r : Requirement N U} (hr : r ∈ out) :
    ∃ I, Consistent ps none I ∧ ¬ MetIn ps I r ∧ ∀ r' ∈ out, r' ≠ r → MetIn ps I r' := by
  obtain ⟨p, hp, hd, rfl⟩ := (C62_mem h r).1 hr
  refine ⟨fun k => (∃ p, Needed ps reqs p ∧ p.key = k) ∧ k ≠ p.key, ⟨?_, ?_, ?_, ?_⟩, ?_, ?_⟩
  · exact fun k hk => hI.available k hk.1
  · rintro k ⟨hk, hne⟩ t ht
    obtain ⟨q, hq, h1, h2, h3⟩ := hI.deps k hk t ht
    refine ⟨q, hq, ⟨h1, ?_⟩, h2, h3⟩
    intro hqp
    obtain ⟨p', hp', rfl⟩ := hk
    exact hd ⟨p', hp', t, ht, q, hq, hqp, h3⟩
  · exact fun k k' hk hk' => hI.names k k' hk.1 hk'.1
  · exact fun k hk t ht q hq hqk => hI.conflicts k hk.1 t ht q hq hqk.1
  · rintro ⟨q, hq, hIq, hm⟩
    exact hIq.2 (samePackage_iff.1 (hpin p hp.1 q hq p hp.1 hm ((meetsJob_exactly _ _ _).2 ⟨Or.inl rfl, rfl⟩)))
  · intro r' hr' hne
    obtain ⟨p', hp', -, rfl⟩ := (C62_mem h r').1 hr'
    refine ⟨p', hp'.1, ⟨⟨p', hp', rfl⟩, ?_⟩, (meetsJob_exactly _ _ _).2 ⟨Or.inl rfl, rfl⟩⟩
    intro hk
    obtain ⟨h1, h2, -⟩ := samePackage_iff.2 hk
    exact hne (by rw [h1, h2])

/-- C62: for install requirements and readable metadata it returns, unless `packages_from_requirements` raises. -/
theorem C62_returns {rank : List (CTuple N S) → K} {ps needed : List (Package N S U)} {reqs : List (Requirement N U)}
    (h : packagesFromRequirements rank ps reqs none = .ok needed)
    (hr : ∀ p ∈ ps, ∀ t ∈ p.installRequires, ∃ r : Requirement N U, fromConstraints .install t = .ok r) :
    ∃ out, simplifyRequirements rank ps reqs = .ok out := by
  unfold simplifyRequirements
  simp only [h]
  have hpool : ∃ pool, mkPool [Repository.ofList ps] (none : Option (Modifiers N)) = .ok pool := by
    unfold packagesFromRequirements at h
    split at h
    · cases h
    · next pool hp => exact ⟨pool, hp⟩
  obtain ⟨pool, hp⟩ := hpool
  simp only [hp]
  have hts : ∀ ts : List (CTuple N S), (∀ t ∈ ts, ∃ r : Requirement N U, fromConstraints .install t = .ok r) →
      ∃ l, dependencyCandidates pool ts = .ok l := by
    intro ts
    induction ts with
    | nil => intro _; exact ⟨[], rfl⟩
    | cons t ts ih =>
      intro ht
      obtain ⟨r, hr⟩ := ht t (by simp)
      have hcls : r.cls = .install := fromConstraints_cls hr
      obtain ⟨l, hl⟩ := whatProvides_install (pool := pool) hcls true
      obtain ⟨l', hl'⟩ := ih (fun t ht' => ht t (List.mem_cons_of_mem _ ht'))
      unfold dependencyCandidates
      simp only [hr, hl, hl']
      exact ⟨_, rfl⟩
  obtain ⟨l, hl⟩ := hts (needed.flatMap Package.installRequires) (by
    intro t ht
    obtain ⟨p, hp', ht⟩ := List.mem_flatMap.1 ht
    exact hr p ((C53_packages_from_requirements_partial h).1 p hp').1 t ht)
  simp only [hl]
  exact ⟨_, rfl⟩

/-! ### Concrete cases -/

namespace FunctionsExample
open Verif.Pkg.Example Verif.Solve.Example Verif.Solve.Check SolveExample

instance (ps : List P) (m : Modifiers Nat) (reqs : List (Requirement Nat Nat)) (l : List (PKey Nat Str Nat)) :
    Decidable (Fulfils ps m reqs (Of l)) := by unfold Fulfils; infer_instance

instance (p q : P) : Decidable (SamePackage p q) := by unfold SamePackage; infer_instance

theorem keys_eq (l : List P) : Keys l = Of (l.map Package.key) := by
  funext k
  simp [Keys, Of]

/-- an outcome that can be compared; `none`: an exception of the SAT solver -/
def got {α : Type} : Except (SErr Nat Nat) α → Option (Except PErr α)
  | .ok a => some (.ok a)
  | .error (.pkg e) => some (.error e)
  | .error _ => none

theorem got_ok {α : Type} {x : Except (SErr Nat Nat) α} {a : α} (h : got x = some (.ok a)) : x = .ok a := by
  cases x with
  | ok b => simp only [got, Option.some.injEq, Except.ok.injEq] at h; rw [h]
  | error e => cases e <;> simp [got] at h

def rank : List (CTuple Nat Str) → Nat := List.length

theorem plain_of {ps : List P} (h : ∀ p ∈ ps, p.provides.map Prod.fst = [p.name]) : PlainNames ps := by
  intro p hp n hn
  have h1 := (mem_provides_names p n).2 hn
  rw [h p hp, List.mem_singleton] at h1
  exact h1

theorem wellFormed_of {ps : List P} (h1 : ∀ p ∈ ps,
      (∀ t ∈ p.installRequires, ∃ r : Requirement Nat Nat, fromConstraints .install t = .ok r) ∧
      (∀ t ∈ p.conflicts, ∃ r : Requirement Nat Nat, fromConstraints .conflict t = .ok r) ∧ p.declaredProvides = []) :
    WellFormedPackages ps Modifiers.empty :=
  ⟨fun p hp => readable_of (h1 p hp).1 (h1 p hp).2.1, fun p hp t ht => by rw [(h1 p hp).2.2] at ht; simp at ht⟩

theorem acyclic_of {ps : List P} {R : PKey Nat Str Nat → PKey Nat Str Nat → Prop}
    (h1 : ∀ p ∈ ps, ∀ k', R p.key k' → (∃ q ∈ ps, q.key = k') ∧ k'.name < p.name)
    (h2 : ∀ k k', R k k' → ∃ q ∈ ps, q.key = k') : ¬ ∃ k, TransGen R k k := by
  have h4 : ∀ k k', TransGen R k k' → (∃ p ∈ ps, p.key = k') ∧ ((∃ p ∈ ps, p.key = k) → k'.name < k.name) := by
    intro k k' h
    induction h with
    | single h => exact ⟨h2 _ _ h, by rintro ⟨p, hp, rfl⟩; exact (h1 p hp _ h).2⟩
    | tail _ h ih =>
      refine ⟨h2 _ _ h, fun hk => ?_⟩
      obtain ⟨q, hq, rfl⟩ := ih.1
      exact lt_trans (h1 q hq _ h).2 (ih.2 hk)
  rintro ⟨k, hk⟩
  exact absurd ((h4 k k hk).2 (h4 k k hk).1) (lt_irrefl _)

/-- 1-1 and 1-2; 2-1 depends on 1 ≥ 2; 3-1 depends on 2; 4-1 conflicts with 3 -/
def packages : List P := [pkg 0 1 1, pkg 0 1 2, pkg 0 2 1 [depc 1 (.geq (v 2))], pkg 0 3 1 [dep 2], pkg 0 4 1 [] [dep 3]]

theorem dependsOn_smaller {ps : List P} {m : Option (Modifiers Nat)}
    (h : ∀ p ∈ ps, ∀ t ∈ p.installRequires, ∀ d ∈ ps, MeetsDep m t d → d.name < p.name) :
    ¬ ∃ k, TransGen (DependsOn ps m) k k := by
  refine acyclic_of (ps := ps) ?_ ?_
  · rintro p hp k' ⟨t, ht, d, hd, rfl, hm⟩
    exact ⟨⟨d, hd, rfl⟩, h p hp t ht d hd hm⟩
  · rintro k k' ⟨t, ht, d, hd, hk, hm⟩
    exact ⟨d, hd, hk⟩

/-- C51: `satisfy_requirements` on these packages -/
theorem example_satisfy : got (satisfyRequirements insertionOrder packages [req 3] (some Modifiers.empty)) =
    some (.ok [pkg 0 1 2, pkg 0 2 1 [depc 1 (.geq (v 2))], pkg 0 3 1 [dep 2]]) := by decide +kernel

example : Fulfils packages Modifiers.empty [req 3] (Keys [pkg 0 1 2, pkg 0 2 1 [depc 1 (.geq (v 2))], pkg 0 3 1 [dep 2]]) :=
  C51_result_valid_plain_partial (got_ok example_satisfy) (plain_of (by decide +kernel))

/-- C51: whatever the iteration orders -/
example (o : Orders) : ∃ res, satisfyRequirements o packages [req 3] (some Modifiers.empty) = .ok res := by
  refine (C51_found_iff o (wellFormed_of (by decide +kernel)) (plain_of (by decide +kernel)) ?_ (by decide +kernel)).2
    ⟨_, C51_result_valid_plain_partial (got_ok example_satisfy) (plain_of (by decide +kernel))⟩
  have := dependsOn_smaller (ps := packages) (m := some Modifiers.empty) (by decide +kernel)
  rintro ⟨k, hk⟩
  exact this ⟨k, TransGen.mono (fun a b h => h.2) k k hk⟩

/-- C51, C64: 3 and 4 conflict -/
theorem example_unsatisfiable : got (requirementsAreSatisfiable insertionOrder packages [req 3, req 4] none) =
    some (.ok false) := by decide +kernel

example (o : Orders) : ∃ u, satisfyRequirements o packages [req 3, req 4] (some Modifiers.empty) =
    .error (.sat (.satisfiability u)) :=
  (C51_unsatisfiable_iff o (wellFormed_of (by decide +kernel)) (by decide +kernel)).2 (fun h =>
    absurd ((C64_satisfiable_correct (got_ok example_unsatisfiable)).2 h) (by decide))

/-- C51 fails when two packages that do not exclude each other provide a name: 1-1 depends on 2 > 1 and on 3; 3-1 provides
2. The result does not contain 2-2. -/
theorem C51_violated : ∃ res, satisfyRequirements insertionOrder
      [pkg 0 1 1 [depc 2 (.gt (v 1)), dep 3], pkg 0 2 2, pkg 0 3 1 [] [] [dep 2]] [req 1] (some Modifiers.empty) = .ok res ∧
    ¬ Fulfils [pkg 0 1 1 [depc 2 (.gt (v 1)), dep 3], pkg 0 2 2, pkg 0 3 1 [] [] [dep 2]] Modifiers.empty [req 1]
      (Keys res) := by
  refine ⟨[pkg 0 3 1 [] [] [dep 2], pkg 0 1 1 [depc 2 (.gt (v 1)), dep 3]], got_ok (by decide +kernel), ?_⟩
  rw [keys_eq]
  decide +kernel

/-- C64: for each outcome a case that meets the hypotheses -/
example : ∃ I, Fulfils packages Modifiers.empty [req 3, req 1 [.gt (v 1)]] I :=
  (C64_satisfiable_correct (o := insertionOrder) (m := none) (b := true) (got_ok (by decide +kernel))).1 rfl
example (o : Orders) : requirementsAreSatisfiable o packages [req 3, req 4] none = .ok false :=
  (C64_unsatisfiable_iff o (wellFormed_of (by decide +kernel)) (by decide +kernel)).2 (fun h =>
    absurd ((C64_satisfiable_correct (got_ok example_unsatisfiable)).2 h) (by decide))
example (o : Orders) : requirementsAreSatisfiable o packages [req 3, req 7] none = .error (.pkg .noPackageFound) :=
  C64_no_package_found o (wellFormed_of (by decide +kernel)) (by decide +kernel)

/-- C64: `packages_are_consistent`: 4 conflicts with 3; without it all is in order -/
example : Consistent [pkg 0 1 2, pkg 0 2 1 [depc 1 (.geq (v 2))], pkg 0 3 1 [dep 2]] (some Modifiers.empty)
    (Keys [pkg 0 1 2, pkg 0 2 1 [depc 1 (.geq (v 2))], pkg 0 3 1 [dep 2]]) :=
  (C64_consistent_correct_partial (o := insertionOrder) (m := none) (b := true) (got_ok (by decide +kernel))
    (plain_of (by decide +kernel)) (by decide +kernel)).1 rfl
example (o : Orders) : packagesAreConsistent o [pkg 0 3 1, pkg 0 4 1 [] [dep 3]] none = .ok false :=
  (C64_inconsistent_iff_partial o (wellFormed_of (by decide +kernel)) (plain_of (by decide +kernel)) (by decide +kernel)).2 (by
    rw [keys_eq]; decide +kernel)

/-- C64 fails when a package provides the name of another: 1-1 provides 2, 2-1 conflicts with 1 and so cannot be installed
together with it; still the packages are reported as consistent. -/
theorem C64_consistent_violated :
    packagesAreConsistent insertionOrder [pkg 0 1 1 [] [] [dep 2], pkg 0 2 1 [] [dep 1]] none = .ok true ∧
    ¬ Consistent [pkg 0 1 1 [] [] [dep 2], pkg 0 2 1 [] [dep 1]] (some Modifiers.empty)
      (Keys [pkg 0 1 1 [] [] [dep 2], pkg 0 2 1 [] [dep 1]]) := by
  refine ⟨got_ok (by decide +kernel), ?_⟩
  rw [keys_eq]
  decide +kernel

/-- C64: `requirements_are_complete`: 2 needs 1 ≥ 2, which meets none of the requirements, unless one is added -/
example : ¬ ∃ I, Fulfils packages Modifiers.empty [req 3, req 2] I ∧ ∀ p ∈ packages, I p.key →
    ∃ r ∈ [req 3, req 2], Meets none true r p := by
  have := C64_complete_correct (rank := rank) (o := insertionOrder) (ps := packages) (reqs := [req 3, req 2]) (m := none)
    (b := false) (got_ok (by decide +kernel)) (by decide +kernel)
  intro h
  exact absurd (this.2 h) (by decide)
example : ∃ I, Fulfils packages Modifiers.empty [req 3, req 2, req 1] I ∧ ∀ p ∈ packages, I p.key →
    ∃ r ∈ [req 3, req 2, req 1], Meets none true r p :=
  (C64_complete_correct (rank := rank) (o := insertionOrder) (ps := packages) (reqs := [req 3, req 2, req 1]) (m := none)
    (b := true) (got_ok (by decide +kernel)) (by decide +kernel)).1 rfl

/-- C53: `packages_from_requirements` on packages that are given in another order -/
theorem example_from_requirements :
    packagesFromRequirements rank [pkg 0 3 1, pkg 0 2 2, pkg 0 1 1, pkg 0 2 1, pkg 0 2 3] [req 3, req 2 [.leq (v 2)], req 2 [.lt (v 2)]]
      none = .ok [pkg 0 2 1, pkg 0 2 2, pkg 0 3 1] := by decide +kernel

example := C53_packages_from_requirements_partial example_from_requirements

/-- C53: two packages that differ only in their repository -/
theorem C53_type_error : packagesFromRequirements rank [pkg 0 1 1, pkg 1 1 1] [req 1] none = .error .typeError :=
  (C53_returns_iff rank none (by
    intro p hp t ht
    simp only [List.mem_cons, List.not_mem_nil, or_false] at hp
    rcases hp with rfl | rfl <;> simp [pkg] at ht) (by decide)).1
    ⟨pkg 0 1 1, by simp, by decide +kernel, pkg 1 1 1, by simp, by decide +kernel, Or.inl ⟨rfl, rfl, rfl, rfl, by decide⟩⟩

/-- C53: the requirement generated for 1-1 selects 2-1 as well, which provides the name 1. -/
theorem C53_violated : packagesFromRequirements rank [pkg 0 1 1, pkg 0 2 1 [] [] [dep 1]] (requirementsFromPackages [pkg 0 1 1])
    (some Modifiers.empty) = .ok [pkg 0 1 1, pkg 0 2 1 [] [] [dep 1]] := by decide +kernel

example := C53_round_trip_partial C53_violated

example : ∃ res, packagesFromRequirements rank packages [req 3, req 1] none = .ok res := by
  refine (C53_returns_iff rank none (wellFormed_of (by decide +kernel)).unversioned (by decide)).2 ?_
  have : ∀ p ∈ packages, ∀ q ∈ packages, p.repo = q.repo := by decide +kernel
  rintro ⟨p, hp, -, q, hq, -, h⟩
  rcases h with ⟨-, -, -, -, h⟩ | ⟨h1, h2⟩
  · exact h (this p hp q hq)
  · exact h2 ((this q hq p hp).trans h1)

/-- 3-1 depends on 2-1 exactly, and this on 1-1; 4-1 depends on nothing -/
def pinned : List P := [pkg 0 1 1, pkg 0 1 2, pkg 0 2 1 [depc 1 (.equal (v 1))], pkg 0 3 1 [depc 2 (.equal (v 1))], pkg 0 4 1]

/-- C62: the requirements for 1-1, 3-1, 2-1 and 4-1 are simplified -/
theorem example_simplify :
    simplifyRequirements rank pinned [req 1 [.equal (v 1)], req 3 [.equal (v 1)], req 2 [.equal (v 1)], req 4] =
      .ok [req 3 [.equal (v 1)], req 4 [.equal (v 1)]] := by decide +kernel

instance (ps : List P) (f : P → Prop) [DecidablePred f] : Decidable (AtMostOne ps f) := by
  unfold AtMostOne SamePackage; infer_instance

example {I : PKey Nat Str Nat → Prop} (hI : Consistent pinned none I) :
    (∀ r ∈ [req 3 [.equal (v 1)], req 4 [.equal (v 1)]], MetIn pinned I r) ↔
      ∀ r ∈ [req 1 [.equal (v 1)], req 3 [.equal (v 1)], req 2 [.equal (v 1)], req 4], MetIn pinned I r :=
  C62_equivalent_partial example_simplify ⟨by decide +kernel, by decide +kernel, by decide +kernel⟩
    (dependsOn_smaller (by decide +kernel)) (by decide +kernel) hI

/-- ... and there are sets of packages that are in order and meet them -/
example : Consistent pinned none (Of (([pkg 0 1 1, pkg 0 2 1 [depc 1 (.equal (v 1))], pkg 0 3 1 [depc 2 (.equal (v 1))],
    pkg 0 4 1] : List P).map Package.key)) := by decide +kernel

example {r : Requirement Nat Nat} (hr : r ∈ [req 3 [.equal (v 1)], req 4 [.equal (v 1)]]) :
    ∃ I, Consistent pinned none I ∧ ¬ MetIn pinned I r ∧
      ∀ r' ∈ [req 3 [.equal (v 1)], req 4 [.equal (v 1)]], r' ≠ r → MetIn pinned I r' := by
  refine C62_irredundant example_simplify (by decide +kernel) ?_ hr
  have h1 : ∀ p ∈ pinned, (∃ r ∈ [req 1 [.equal (v 1)], req 3 [.equal (v 1)], req 2 [.equal (v 1)], req 4], MeetsJob r p) ↔
      p.key ∈ ([pkg 0 1 1, pkg 0 2 1 [depc 1 (.equal (v 1))], pkg 0 3 1 [depc 2 (.equal (v 1))], pkg 0 4 1] : List P).map
        Package.key := by decide +kernel
  have h2 : ∀ k ∈ ([pkg 0 1 1, pkg 0 2 1 [depc 1 (.equal (v 1))], pkg 0 3 1 [depc 2 (.equal (v 1))], pkg 0 4 1] : List P).map
        Package.key, ∃ p ∈ pinned, p.key = k := by decide +kernel
  have : (fun k => ∃ p, Needed pinned [req 1 [.equal (v 1)], req 3 [.equal (v 1)], req 2 [.equal (v 1)], req 4] p ∧ p.key = k) =
      Of (([pkg 0 1 1, pkg 0 2 1 [depc 1 (.equal (v 1))], pkg 0 3 1 [depc 2 (.equal (v 1))], pkg 0 4 1] : List P).map
        Package.key) := by
    funext k
    apply propext
    constructor
    · rintro ⟨p, hp, rfl⟩
      exact (h1 p hp.1).1 hp.2
    · intro hk
      obtain ⟨p, hp, rfl⟩ := h2 k hk
      exact ⟨p, ⟨hp, (h1 p hp).2 hk⟩, rfl⟩
  rw [this]
  decide +kernel

/-- C62: the simplified requirements are not equivalent if a requirement is met by two versions: 1 is simplified to both 1-1
and 1-2, which cannot be installed together, although 1 can. -/
theorem C62_violated_versions :
    simplifyRequirements rank [pkg 0 1 1, pkg 0 1 2] [req 1] = .ok [req 1 [.equal (v 1)], req 1 [.equal (v 2)]] ∧
    (∃ I, Consistent [pkg 0 1 1, pkg 0 1 2] none I ∧ ∀ r ∈ [req 1], MetIn [pkg 0 1 1, pkg 0 1 2] I r) ∧
    ¬ ∃ I, Consistent [pkg 0 1 1, pkg 0 1 2] none I ∧
      ∀ r ∈ [req 1 [.equal (v 1)], req 1 [.equal (v 2)]], MetIn [pkg 0 1 1, pkg 0 1 2] I r := by
  refine ⟨by decide +kernel, ⟨Of [(pkg 0 1 2).key], by decide +kernel, ?_⟩, ?_⟩
  · unfold MetIn; decide +kernel
  · rintro ⟨I, hc, h⟩
    obtain ⟨p, hp, hI, hm⟩ := h (req 1 [.equal (v 1)]) (by simp)
    obtain ⟨q, hq, hI', hm'⟩ := h (req 1 [.equal (v 2)]) (by simp)
    have : ∀ p ∈ [pkg 0 1 1, pkg 0 1 2], ∀ q ∈ [pkg 0 1 1, pkg 0 1 2], MeetsJob (req 1 [.equal (v 1)]) p →
        MeetsJob (req 1 [.equal (v 2)]) q → p.key.name = q.key.name ∧ p.key ≠ q.key := by decide +kernel
    obtain ⟨h1, h2⟩ := this p hp q hq hm hm'
    exact h2 (hc.names _ _ hI hI' h1)

/-- C62: nor if there is a cycle of dependencies: nothing is left, and so nothing has to be installed -/
theorem C62_violated_cycle :
    simplifyRequirements rank [pkg 0 1 1 [dep 2], pkg 0 2 1 [dep 1]] [req 1, req 2] = .ok [] ∧
    Consistent [pkg 0 1 1 [dep 2], pkg 0 2 1 [dep 1]] none (fun _ => False) ∧
    ¬ ∀ r ∈ [req 1, req 2], MetIn [pkg 0 1 1 [dep 2], pkg 0 2 1 [dep 1]] (fun _ => False) r := by
  refine ⟨by decide +kernel, ⟨fun k h => h.elim, fun k h => h.elim, fun k k' h => h.elim, fun k h => h.elim⟩, ?_⟩
  intro h
  obtain ⟨q, -, h, -⟩ := h (req 1) (by simp)
  exact h

end FunctionsExample

end Verif.Props
