import Verif.Solve.Iterables
import Verif.Props.Functions
/-
C126: the functions on packages and requirements, given as containers or as iterators.
-/
set_option linter.unusedSectionVars false
namespace Verif.Props
open Verif Verif.Pkg Verif.Graph Verif.Rules Verif.Solve Relation

variable {N S U K : Type} [LinearOrder N] [DecidableEq S] [LinearOrder U] [Syntax S U] [LinearOrder K]

/-- with no requirement there is nothing to do, whatever the packages -/
theorem solve_nothing (o : Orders) (ps : List (Package N S U)) (m : Modifiers N) (pool : Pool N S U) : ∃ t, (freshSolver [Repository.ofList ps] pool).solve o ⟨m, []⟩ = .ok t := by
  have h1 : o.prefer [] = [] := List.Perm.eq_nil (o.preferPerm [])
  have h2 : o.roots [] = [] := List.Perm.eq_nil (o.rootsPerm [])
  have h3 : o.installed [] = [] := List.Perm.eq_nil (o.installedPerm [])
  have hi : (freshSolver [Repository.ofList ps] pool).installed.iter = [] := rfl
  let pool' : Pool N S U := { pool with modifiers := activeModifiers m }
  have e1 : createRules (freshSolver [Repository.ofList ps] pool) o pool' ⟨m, []⟩ = .ok ⟨[], ⟨[], []⟩, [], []⟩ := by
    have : preferIds pool' o.prefer (freshSolver [Repository.ofList ps] pool).installed.iter [] = .ok [] := by
      simp only [preferIds, hi]
      change (do
        let pairs ← mapE (fun i => match pool'.idToPkg i with
          | .error e => .error e
          | .ok p => .ok (i, p.version)) (o.prefer [])
        Except.ok ((sortBy Prod.snd pairs).map (fun iv => (iv.1 : Int))) : Except PErr (List Int)) = _
      rw [h1]; rfl
    unfold createRules
    change (do
      let prefer ← preferIds pool' o.prefer (freshSolver [Repository.ofList ps] pool).installed.iter []
      let gen ← iterRules false pool' [] []
      Except.ok (⟨[], gen, prefer, []⟩ : Setup N S U)) = _
    rw [this]
    rfl
  have e2 : search o pool' ⟨[], ⟨[], []⟩, [], []⟩ = .ok ASet.empty := by
    rfl
  have e3 : ∃ t, finish (freshSolver [Repository.ofList ps] pool) o pool' [] ASet.empty = .ok t := by
    unfold finish
    simp only [hi]
    refine ⟨?_, ?_⟩
    rotate_left
    change (do
      let decisions ← connectedPackages o pool' [] (supdate [] (o.installed []))
      mkTransaction pool' decisions (o.installed [])) = _
    have e4 : connectedPackages o pool' [] (supdate [] (o.installed [])) = .ok [] := by
      rw [h3]
      unfold connectedPackages
      change (match includeAll o.pop _ 2 (o.roots []) [] with
        | .error e => .error e
        | .ok included => _ : Except PErr (List Int)) = _
      rw [h2]
      rfl
    rw [e4, h3]
    rfl
  obtain ⟨t, e3⟩ := e3
  refine ⟨t, ?_⟩
  unfold DependencySolver.solve
  change (do
    let st ← liftP (createRules (freshSolver [Repository.ofList ps] pool) o pool' ⟨m, []⟩)
    let a ← liftS (search o pool' st)
    liftP (finish (freshSolver [Repository.ofList ps] pool) o pool' st.requirementIds a)) = _
  rw [e1]
  change (do
    let a ← liftS (search o pool' ⟨[], ⟨[], []⟩, [], []⟩)
    liftP (finish (freshSolver [Repository.ofList ps] pool) o pool' [] a)) = _
  rw [e2]
  change liftP (finish (freshSolver [Repository.ofList ps] pool) o pool' [] ASet.empty) = _
  rw [e3]
  rfl

theorem satisfiable_nothing (o : Orders) {ps : List (Package N S U)}
    (hu : ∀ p ∈ ps, ∀ t ∈ p.declaredProvides, Unversioned (U := U) t) (m : Option (Modifiers N)) :
    requirementsAreSatisfiable o ps [] m = .ok true := by
  obtain ⟨pool, hp⟩ := mkPool_total hu (some (m.getD Modifiers.empty))
  obtain ⟨t, ht⟩ := solve_nothing o ps (m.getD Modifiers.empty) pool
  unfold requirementsAreSatisfiable
  simp only [installAll, hp, ht]

/-- C126: for containers, each function is the one of C51, C53, C62 and C64, and leaves its arguments as they were. -/
theorem C126_containers (rank : List (CTuple N S) → K) (o : Orders) (ps : List (Package N S U))
    (reqs : List (Requirement N U)) (m : Option (Modifiers N)) :
    requirementsFromPackagesI (.container ps) = (requirementsFromPackages ps, .container ps) ∧
    packagesFromRequirementsI rank (.container ps) (.container reqs) m =
      (packagesFromRequirements rank ps reqs m, ⟨.container ps, .container reqs⟩) ∧
    requirementsAreSatisfiableI o (.container ps) (.container reqs) m =
      (requirementsAreSatisfiable o ps reqs m, ⟨.container ps, .container reqs⟩) ∧
    packagesAreConsistentI o (.container ps) m = (packagesAreConsistent o ps m, .container ps) ∧
    requirementsAreCompleteI rank o (.container ps) (.container reqs) m =
      (requirementsAreComplete rank o ps reqs m, ⟨.container ps, .container reqs⟩) ∧
    satisfyRequirementsI o (.container ps) (.container reqs) m =
      (satisfyRequirements o ps reqs m, ⟨.container ps, .container reqs⟩) ∧
    simplifyRequirementsI rank (.container ps) (.container reqs) =
      (simplifyRequirements rank ps reqs, ⟨.container ps, .container reqs⟩) := by
  refine ⟨rfl, rfl, rfl, rfl, ?_, ?_, ?_⟩
  · simp only [requirementsAreCompleteI, packagesFromRequirementsI, Iterable.read, requirementsAreComplete]
    cases packagesFromRequirements rank ps reqs m <;> rfl
  · cases m <;> rfl
  · simp only [simplifyRequirementsI, packagesFromRequirementsI, Iterable.read, simplifyRequirements, simplifyNeeded]
    cases packagesFromRequirements rank ps reqs none <;> rfl

/-- C126, the part that holds: `requirements_from_packages`, `packages_from_requirements`,
`requirements_are_satisfiable` and `satisfy_requirements` answer the same whatever kind of iterables they are given; so do
`requirements_are_complete` if the requirements are a container, and `simplify_requirements` if the packages are. -/
theorem C126_any_iterable_partial (rank : List (CTuple N S) → K) (o : Orders) (ps : Iterable (Package N S U))
    (reqs : Iterable (Requirement N U)) (m : Option (Modifiers N)) :
    (requirementsFromPackagesI ps).1 = requirementsFromPackages ps.toList ∧
    (packagesFromRequirementsI rank ps reqs m).1 = packagesFromRequirements rank ps.toList reqs.toList m ∧
    (requirementsAreSatisfiableI o ps reqs m).1 = requirementsAreSatisfiable o ps.toList reqs.toList m ∧
    (satisfyRequirementsI o ps reqs m).1 = satisfyRequirements o ps.toList reqs.toList m ∧
    (∀ l, reqs = .container l →
      (requirementsAreCompleteI rank o ps reqs m).1 = requirementsAreComplete rank o ps.toList l m) ∧
    (∀ l, ps = .container l →
      (packagesAreConsistentI o ps m).1 = packagesAreConsistent o l m ∧
      (simplifyRequirementsI rank ps reqs).1 = simplifyRequirements rank l reqs.toList) := by
  have h1 : ∀ {α : Type} (i : Iterable α), i.read.1 = i.toList := by intro α i; cases i <;> rfl
  refine ⟨?_, ?_, ?_, ?_, ?_, ?_⟩
  · simp only [requirementsFromPackagesI, h1]
  · simp only [packagesFromRequirementsI, h1]
  · simp only [requirementsAreSatisfiableI, h1]
  · cases m with
    | none => rfl
    | some m => simp only [satisfyRequirementsI, h1]
  · rintro l rfl
    simp only [requirementsAreCompleteI, packagesFromRequirementsI, h1, requirementsAreComplete]
    change _ = match packagesFromRequirements rank ps.toList (Iterable.container l).toList m with
      | .error e => (Except.error (.pkg e) : Except (SErr N U) Bool)
      | .ok ps' => requirementsAreSatisfiable o ps' l m
    cases packagesFromRequirements rank ps.toList (Iterable.container l).toList m <;> rfl
  · rintro l rfl
    refine ⟨rfl, ?_⟩
    simp only [simplifyRequirementsI, packagesFromRequirementsI, h1, simplifyRequirements]
    change _ = match packagesFromRequirements rank (Iterable.container l).toList reqs.toList none with
      | .error e => Except.error e
      | .ok needed => simplifyNeeded l needed
    cases packagesFromRequirements rank (Iterable.container l).toList reqs.toList none <;> rfl

/-- C126 fails for `packages_are_consistent`, whose packages are documented as an iterable: given an iterator over any
packages at all it raises NoPackageFound, for the packages were read to make the requirements. -/
theorem C126_consistent_violated (o : Orders) (p : Package N S U) (ps : List (Package N S U)) (m : Option (Modifiers N)) :
    (packagesAreConsistentI o (.iterator (p :: ps)) m).1 = .error (.pkg .noPackageFound) := by
  change requirementsAreSatisfiable o [] (requirementsFromPackages (p :: ps)) m = _
  refine C64_no_package_found o ⟨by simp, by simp⟩ ⟨Requirement.exactly .install p.name p.version, ?_, by simp⟩
  simp [requirementsFromPackages]

/-- C126 fails for `requirements_are_complete`, whose requirements are documented as an iterable: given an iterator, it
says yes whatever the packages and the requirements (unless selecting the packages raises). -/
theorem C126_complete_violated (rank : List (CTuple N S) → K) (o : Orders) (ps : Iterable (Package N S U))
    (reqs : List (Requirement N U)) (m : Option (Modifiers N))
    (hu : ∀ p ∈ ps.toList, ∀ t ∈ p.declaredProvides, Unversioned (U := U) t) {listed : List (Package N S U)}
    (hl : packagesFromRequirements rank ps.toList reqs m = .ok listed) :
    (requirementsAreCompleteI rank o ps (.iterator reqs) m).1 = .ok true := by
  have h1 : ∀ {α : Type} (i : Iterable α), i.read.1 = i.toList := by intro α i; cases i <;> rfl
  simp only [requirementsAreCompleteI, packagesFromRequirementsI, h1]
  change (match packagesFromRequirements rank ps.toList reqs m with
    | .error e => _
    | .ok listed => _ : Except (SErr N U) Bool × Left N S U).1 = _
  rw [hl]
  refine satisfiable_nothing o ?_ m
  intro p hp
  exact hu p ((C53_packages_from_requirements_partial hl).1 p hp).1

/-- C126 fails for `simplify_requirements`: given an iterator over the packages it does not simplify anything; it returns
one requirement for each package that meets one of the requirements. -/
theorem C126_simplify_violated (rank : List (CTuple N S) → K) (ps : List (Package N S U)) (reqs : Iterable (Requirement N U))
    {res : List (Requirement N U)} (h : (simplifyRequirementsI rank (.iterator ps) reqs).1 = .ok res) :
    ∃ needed, packagesFromRequirements rank ps reqs.toList none = .ok needed ∧ res = requirementsFromPackages needed := by
  have h1 : ∀ {α : Type} (i : Iterable α), i.read.1 = i.toList := by intro α i; cases i <;> rfl
  simp only [simplifyRequirementsI, packagesFromRequirementsI, h1] at h
  simp only [Iterable.read] at h
  cases hn : packagesFromRequirements rank (Iterable.iterator ps).toList reqs.toList none with
  | error e => rw [hn] at h; cases h
  | ok needed =>
    rw [hn] at h
    simp only [simplifyNeeded] at h
    refine ⟨needed, hn, ?_⟩
    obtain ⟨pool, hp⟩ := mkPool_total (ps := ([] : List (Package N S U))) (by simp) none
    rw [show mkPool [Repository.ofList (Iterable.iterator ([] : List (Package N S U))).toList] none = .ok pool from hp] at h
    simp only at h
    have hb := mkPool_built hp
    split at h
    · cases h
    · rename_i deps hd
      cases h
      have hdeps : deps = [] := by
        rw [List.eq_nil_iff_forall_not_mem]
        intro p hpd
        have := ((dependencyCandidates_spec hb.ok (built_ok_modifiers hb) hd p).1 hpd).1
        rw [mem_all] at this
        simp at this
      subst hdeps
      simp

/-! ### non-vacuity -/
namespace IterablesExample
open Verif.Pkg.Example Verif.Solve.Example Verif.Solve.Check SolveExample FunctionsExample

/-- consistent packages; the answer for a list, and for an iterator over the same packages -/
def three : List P := [pkg 0 1 2, pkg 0 2 1 [depc 1 (.geq (v 2))], pkg 0 3 1 [dep 2]]
example : (packagesAreConsistentI insertionOrder (.container three) none).1 = .ok true ∧
    (packagesAreConsistentI insertionOrder (.iterator three) none).1 = .error (.pkg .noPackageFound) :=
  ⟨got_ok (by decide +kernel), C126_consistent_violated _ _ _ _⟩

/-- requirements that are not complete; an iterator over them is called complete -/
example : (requirementsAreCompleteI rank insertionOrder (.container packages) (.container [req 3, req 2]) none).1 = .ok false ∧
    (requirementsAreCompleteI rank insertionOrder (.container packages) (.iterator [req 3, req 2]) none).1 = .ok true := by
  refine ⟨got_ok (by decide +kernel), ?_⟩
  refine C126_complete_violated rank insertionOrder (.container packages) _ none
    (wellFormed_of (ps := packages) (by decide +kernel)).unversioned
    (listed := [pkg 0 2 1 [depc 1 (.geq (v 2))], pkg 0 3 1 [dep 2]]) ?_
  decide +kernel

/-- the requirements of C62's example; with an iterator over the packages nothing is simplified -/
example : (simplifyRequirementsI rank (.container pinned)
      (.container [req 1 [.equal (v 1)], req 3 [.equal (v 1)], req 2 [.equal (v 1)], req 4])).1 =
      .ok [req 3 [.equal (v 1)], req 4 [.equal (v 1)]] ∧
    (simplifyRequirementsI rank (.iterator pinned)
      (.container [req 1 [.equal (v 1)], req 3 [.equal (v 1)], req 2 [.equal (v 1)], req 4])).1 =
      .ok [req 1 [.equal (v 1)], req 2 [.equal (v 1)], req 3 [.equal (v 1)], req 4 [.equal (v 1)]] := by
  decide +kernel

/-- `satisfy_requirements` with iterators -/
example : got (satisfyRequirementsI insertionOrder (.iterator packages) (.iterator [req 3]) (some Modifiers.empty)).1 =
    some (.ok [pkg 0 1 2, pkg 0 2 1 [depc 1 (.geq (v 2))], pkg 0 3 1 [dep 2]]) := by decide +kernel

end IterablesExample
end Verif.Props
