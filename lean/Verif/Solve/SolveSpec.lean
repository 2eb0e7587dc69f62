import Verif.Solve.Model
import Verif.Solve.Spec
import Verif.Props.RulesGen
/-
Specification for `DependencySolver.solve`: what a request asks for, which packages are related to it, and the conditions
under which the pruned transaction is a valid installation. `avail` is the list of the packages of all repositories.
-/
set_option linter.unusedSectionVars false
namespace Verif.Props
open Verif Verif.Pkg Verif.Solve

variable {N S U : Type} [LinearOrder N] [DecidableEq S] [LinearOrder U] [Syntax S U]

/-! ### the solver and the request -/

/-- the installed packages as a set -/
def InstalledKeys (s : DependencySolver N S U) (k : PKey N S U) : Prop := ∃ p ∈ s.installed.iter, p.key = k

/-- `s` is a solver whose pool was made from the repositories `rs`, and whose installed repository was made by adding
packages -/
structure SolverFor (rs : List (Repository N S U)) (s : DependencySolver N S U) : Prop where
  pool : ∃ m, Built rs m s.pool
  installed : ∃ l, s.installed = Repository.ofList l

/-- the package `p` is among those that a job asks for -/
def Requested (avail : List (Package N S U)) (installed : PKey N S U → Prop) (j : Job N U) (p : Package N S U) : Prop :=
  ∃ r, j.requirement = some r ∧
    if j.kind = .hardUpdate then UpdateTarget avail installed r p else p ∈ avail ∧ MeetsJob r p

/-- the package `k` is installed but the job `j` (a soft update) asks not to prefer it -/
def SoftlyUpdated (avail : List (Package N S U)) (installed : PKey N S U → Prop) (j : Job N U) (k : PKey N S U) : Prop :=
  j.kind = .softUpdate ∧ installed k ∧ ∃ r, j.requirement = some r ∧ ∃ p ∈ avail, p.key = k ∧ MeetsJob r p

/-- the job is known and some package meets its requirement -/
def JobPossible (avail : List (Package N S U)) (j : Job N U) : Prop :=
  j.kind ≠ .upgrade ∧ ∃ r, j.requirement = some r ∧ ∃ p ∈ avail, MeetsJob r p

/-- the jobs that are solved: those of the request, unless it is an upgrade, which C49 describes -/
def effectiveJobs (s : DependencySolver N S U) (q : Request N U) : List (Job N U) :=
  (convertUpgrade q s.remote s.installed).jobs

/-- `I` is a valid installation for the request -/
def Solves (rs : List (Repository N S U)) (s : DependencySolver N S U) (q : Request N U) (I : PKey N S U → Prop) : Prop :=
  ValidInstall (allPackages rs) (some q.modifiers) (InstalledKeys s) (effectiveJobs s q) I

/-- the set of installed packages after the transaction -/
def Result (s : DependencySolver N S U) (t : Transaction N S U) : PKey N S U → Prop :=
  Apply t.operations (InstalledKeys s)

/-! ### modifiers without targets

`solve` gives the pool no modifiers at all if they have no targets. This makes no difference. -/

theorem targets_nil {m : Modifiers N} (h : m.targets = []) :
    m.allowNewer = [] ∧ m.allowAny = [] ∧ m.allowOlder = [] := by
  have hm : ∀ x, x ∈ m.targets ↔ x ∈ m.allowOlder ∨ x ∈ m.allowAny ∨ x ∈ m.allowNewer := by
    intro x
    unfold Modifiers.targets
    simp only [mem_supdate]
  rw [h] at hm
  refine ⟨?_, ?_, ?_⟩ <;> rw [List.eq_nil_iff_forall_not_mem] <;> intro x hx
  · exact absurd ((hm x).2 (Or.inr (Or.inr hx))) (by simp)
  · exact absurd ((hm x).2 (Or.inr (Or.inl hx))) (by simp)
  · exact absurd ((hm x).2 (Or.inl hx)) (by simp)

theorem modifyRequirement_noTargets {m : Modifiers N} (h : m.targets = []) (r : Requirement N U) :
    modifyRequirement r m = .ok r := by
  obtain ⟨h1, h2, h3⟩ := targets_nil h
  have : modifyInstall r m = none := by
    unfold modifyInstall applyMap
    rw [h1, h2, h3]
    simp
  unfold modifyRequirement
  rw [this]
  split
  · rfl
  · split <;> rfl

theorem looked_active (m : Modifiers N) (b : Bool) (r r' : Requirement N U) :
    Looked (activeModifiers m) b r r' ↔ Looked (some m) b r r' := by
  unfold activeModifiers
  split
  · next h =>
    unfold Looked
    cases b
    · simp
    · simp [modifyRequirement_noTargets h, eq_comm]
  · exact Iff.rfl

theorem meets_active (m : Modifiers N) (b : Bool) (r : Requirement N U) (p : Package N S U) :
    Meets (activeModifiers m) b r p ↔ Meets (some m) b r p := by
  unfold Meets
  simp only [looked_active]

theorem meetsDep_active (m : Modifiers N) (t : CTuple N S) (p : Package N S U) :
    MeetsDep (activeModifiers m) t p ↔ MeetsDep (some m) t p := by
  unfold MeetsDep
  simp only [meets_active]

theorem meetsConflict_active (m : Modifiers N) (t : CTuple N S) (p : Package N S U) :
    MeetsConflict (activeModifiers m) t p ↔ MeetsConflict (some m) t p := by
  unfold MeetsConflict
  simp only [meets_active]

theorem consistent_active (avail : List (Package N S U)) (m : Modifiers N) (I : PKey N S U → Prop) :
    Consistent avail (activeModifiers m) I ↔ Consistent avail (some m) I := by
  constructor
  · rintro ⟨h1, h2, h3, h4⟩
    simp only [meetsDep_active, meetsConflict_active] at h2 h4
    exact ⟨h1, h2, h3, h4⟩
  · rintro ⟨h1, h2, h3, h4⟩
    simp only [← meetsDep_active, ← meetsConflict_active] at h2 h4
    exact ⟨h1, h2, h3, h4⟩

theorem validInstall_active (avail : List (Package N S U)) (m : Modifiers N) (installed : PKey N S U → Prop)
    (jobs : List (Job N U)) (I : PKey N S U → Prop) :
    ValidInstall avail (activeModifiers m) installed jobs I ↔ ValidInstall avail (some m) installed jobs I :=
  ⟨fun ⟨h1, h2⟩ => ⟨(consistent_active avail m I).1 h1, h2⟩, fun ⟨h1, h2⟩ => ⟨(consistent_active avail m I).2 h1, h2⟩⟩

theorem solves_active {rs : List (Repository N S U)} {s : DependencySolver N S U} {q : Request N U} {I : PKey N S U → Prop} :
    Solves rs s q I ↔
      ValidInstall (allPackages rs) (activeModifiers q.modifiers) (InstalledKeys s) (effectiveJobs s q) I :=
  (validInstall_active _ _ _ _ _).symm

theorem dependsOn_active (avail : List (Package N S U)) (m : Modifiers N) (k k' : PKey N S U) :
    DependsOn avail (activeModifiers m) k k' ↔ DependsOn avail (some m) k k' := by
  unfold DependsOn
  simp only [meetsDep_active]

/-! ### which packages a request is about -/

/-- `p` and `q` provide a common name -/
def ShareName (p q : Package N S U) : Prop := ∃ n, Provides p n ∧ Provides q n

/-- `k` is the package of one of those that the job asks for -/
def RequestedKey (avail : List (Package N S U)) (installed : PKey N S U → Prop) (j : Job N U) (k : PKey N S U) : Prop :=
  ∃ p, Requested avail installed j p ∧ p.key = k

/-- `p` is related to the request: it shares a provided name with an installed package or with one that a job asks for,
or it provides a name that a related package depends on -/
inductive Related (avail : List (Package N S U)) (installed : PKey N S U → Prop) (jobs : List (Job N U)) :
    Package N S U → Prop where
  | ofInstalled {p r} : p ∈ avail → r ∈ avail → installed r.key → ShareName p r → Related avail installed jobs p
  | ofJob {p r j} : p ∈ avail → r ∈ avail → j ∈ jobs → RequestedKey avail installed j r.key → ShareName p r →
      Related avail installed jobs p
  | dep {p q t} : Related avail installed jobs p → t ∈ p.installRequires → q ∈ avail → Provides q t.1 →
      Related avail installed jobs q

/-! ### conditions under which pruning is right -/

/-- two packages that provide a common name have the same package name, or each of them declares a conflict with the
other one -/
def Exclusive (avail : List (Package N S U)) (mods : Option (Modifiers N)) : Prop :=
  ∀ p ∈ avail, ∀ q ∈ avail, ShareName p q → p.name = q.name ∨
    ((∃ t ∈ p.conflicts, MeetsConflict mods t q) ∧ ∃ t ∈ q.conflicts, MeetsConflict mods t p)

theorem exclusive_active (avail : List (Package N S U)) (m : Modifiers N) :
    Exclusive avail (activeModifiers m) ↔ Exclusive avail (some m) := by
  unfold Exclusive
  simp only [meetsConflict_active]

/-- `p` provides the name of an installed package -/
def NearInstalled (installed : PKey N S U → Prop) (p : Package N S U) : Prop := ∃ k, installed k ∧ Provides p k.name

/-- a package that shares a provided name with an installed package provides the name of an installed one; a package that
shares a provided name with one that a job asks for provides the name of an installed one, or is itself asked to be
removed (if the job is a removal), or shares a name with everything that the job asks for (if it is not) -/
structure Tidy (avail : List (Package N S U)) (installed : PKey N S U → Prop) (jobs : List (Job N U)) : Prop where
  ofInstalled : ∀ p ∈ avail, ∀ r ∈ avail, ShareName p r → installed r.key → NearInstalled installed p
  ofJobs : ∀ p ∈ avail, ∀ r ∈ avail, ShareName p r → ∀ j ∈ jobs, RequestedKey avail installed j r.key →
    NearInstalled installed p ∨ (j.kind = .remove ∧ Requested avail installed j p) ∨
      (j.kind ≠ .remove ∧ ∀ c ∈ avail, Requested avail installed j c → ShareName p c)

/-- an installed package and an available one of the same name and version differ at most in the repository they come
from, and no two installed packages have the same name and version -/
structure SameMetadata (avail : List (Package N S U)) (installed : PKey N S U → Prop) : Prop where
  unique : ∀ k k', installed k → installed k' → SameNameVersion k k' → k = k'
  same : ∀ p ∈ avail, ∀ q ∈ avail, installed q.key → SameNameVersion p.key q.key →
    p.installRequires = q.installRequires ∧ p.conflicts = q.conflicts ∧ ∀ n, Provides p n ↔ Provides q n

/-! ### the order in which Python goes through a set -/

/-- different packages have different versions -/
def DistinctVersions (l : List (Package N S U)) : Prop := ∀ p ∈ l, ∀ q ∈ l, p.version = q.version → p.key = q.key

/-- two choices of the iteration orders of Python's sets that cannot matter: the order of the candidates of the policy is the
same, or no two available packages have the same version; the order of the installed packages that are preferred is the same,
or no two installed packages have the same version; no two installed packages have the same name and version. Nothing is
asked of the other orders. -/
structure Harmless (rs : List (Repository N S U)) (s : DependencySolver N S U) (o o' : Orders) : Prop where
  policy : o.policy = o'.policy ∨ (allPackages rs).Pairwise (fun p q => p.version ≠ q.version)
  prefer : o.prefer = o'.prefer ∨ DistinctVersions s.installed.iter
  unique : ∀ k k', InstalledKeys s k → InstalledKeys s k' → SameNameVersion k k' → k = k'

end Verif.Props
