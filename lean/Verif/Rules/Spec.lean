import Verif.Pkg.PoolSpec
/-
Specification for the rules: valid installations, and where a requirement comes from. Nothing here refers to the pool or to
the generator: `avail` is the list of the packages of all repositories, in the order in which they were added to the pool.

An installation is a set of packages; packages are identified by what `PackageMetadata.__eq__` compares (`PKey`).
-/
set_option linter.unusedSectionVars false
namespace Verif.Props
open Verif Verif.Pkg

variable {N S U : Type} [LinearOrder N] [DecidableEq S] [LinearOrder U] [Syntax S U]

/-- `q` satisfies the dependency `t` of a package, as relaxed by the modifiers -/
def MeetsDep (mods : Option (Modifiers N)) (t : CTuple N S) (q : Package N S U) : Prop :=
  ∃ r, fromConstraints .install t = .ok r ∧ Meets mods true r q

/-- `q` falls under the declared conflict `t` of a package -/
def MeetsConflict (mods : Option (Modifiers N)) (t : CTuple N S) (q : Package N S U) : Prop :=
  ∃ r, fromConstraints .conflict t = .ok r ∧ Meets mods true r q

/-- `q` satisfies the requirement of a job (which modifiers do not touch) -/
def MeetsJob (r : Requirement N U) (q : Package N S U) : Prop := Meets none false r q

/-- `p` is older than `q`, or as old but, unlike `q`, not installed -/
def Below (installed : PKey N S U → Prop) (p q : Package N S U) : Prop :=
  p.version < q.version ∨ (p.version = q.version ∧ ¬ installed p.key ∧ installed q.key)

/-- `q` is the package that a hard update to `r` asks for: the newest one, among these an installed one, among these the
first one. -/
def UpdateTarget (avail : List (Package N S U)) (installed : PKey N S U → Prop) (r : Requirement N U)
    (q : Package N S U) : Prop :=
  ∃ before after, avail = before ++ q :: after ∧ MeetsJob r q ∧
    (∀ p ∈ before, MeetsJob r p → Below installed p q) ∧ (∀ p ∈ after, MeetsJob r p → ¬ Below installed q p)

/-- the set `I` satisfies the job -/
def JobSatisfied (avail : List (Package N S U)) (installed : PKey N S U → Prop) (I : PKey N S U → Prop)
    (j : Job N U) : Prop :=
  ∃ r, j.requirement = some r ∧ match j.kind with
    | .install => ∃ q ∈ avail, I q.key ∧ MeetsJob r q
    | .softUpdate => ∃ q ∈ avail, I q.key ∧ MeetsJob r q
    | .remove => ∀ q ∈ avail, I q.key → ¬ MeetsJob r q
    | .hardUpdate => ∀ q, UpdateTarget avail installed r q → I q.key
    | .upgrade => False

/-- `I` is an installation in which everything is in order, whatever the request -/
structure Consistent (avail : List (Package N S U)) (mods : Option (Modifiers N)) (I : PKey N S U → Prop) : Prop where
  /-- it consists of available packages -/
  available : ∀ k, I k → ∃ p ∈ avail, p.key = k
  /-- every dependency is satisfied by another package of the installation -/
  deps : ∀ k, I k → ∀ t ∈ k.installRequires, ∃ q ∈ avail, I q.key ∧ q.key ≠ k ∧ MeetsDep mods t q
  /-- one package per name -/
  names : ∀ k k', I k → I k' → k.name = k'.name → k = k'
  /-- no declared conflict -/
  conflicts : ∀ k, I k → ∀ t ∈ k.conflicts, ∀ q ∈ avail, I q.key → q.key ≠ k → ¬ MeetsConflict mods t q

/-- `I` is a valid installation for the request -/
structure ValidInstall (avail : List (Package N S U)) (mods : Option (Modifiers N)) (installed : PKey N S U → Prop)
    (jobs : List (Job N U)) (I : PKey N S U → Prop) : Prop where
  consistent : Consistent avail mods I
  jobs : ∀ j ∈ jobs, JobSatisfied avail installed I j

/-- `l` is the chain of requirements that leads from a job to the package `p`: a job's requirement, a dependency of a
package that satisfies it, a dependency of a package that satisfies this one, and so on up to a requirement that `p`
satisfies. -/
inductive Trail (avail : List (Package N S U)) (mods : Option (Modifiers N)) (jobs : List (Job N U)) :
    List (Requirement N U) → Package N S U → Prop where
  | job {j r p} : j ∈ jobs → j.requirement = some r → j.kind ≠ .remove → p ∈ avail → MeetsJob r p →
      Trail avail mods jobs [r] p
  | dep {l p t r q} : Trail avail mods jobs l p → t ∈ p.installRequires → fromConstraints .install t = .ok r →
      q ∈ avail → Meets mods true r q → Trail avail mods jobs (l ++ [r]) q

/-- `p` is connected to an installed package: it provides its name, or is a dependency candidate of such a package -/
inductive FromInstalled (avail : List (Package N S U)) (mods : Option (Modifiers N))
    (installed : List (Package N S U)) : Package N S U → Prop where
  | self {p} : p ∈ installed → FromInstalled avail mods installed p
  | name {i p} : i ∈ installed → p ∈ avail → Provides p i.name → FromInstalled avail mods installed p
  | dep {p t q} : FromInstalled avail mods installed p → t ∈ p.installRequires → q ∈ avail → MeetsDep mods t q →
      FromInstalled avail mods installed q

/-- the history of requirements that accompanies a package in the generator -/
def Origin (avail : List (Package N S U)) (mods : Option (Modifiers N)) (jobs : List (Job N U))
    (installed : List (Package N S U)) : Option (List (Requirement N U)) → Package N S U → Prop
  | some l, p => Trail avail mods jobs l p
  | none, p => FromInstalled avail mods installed p

end Verif.Props
