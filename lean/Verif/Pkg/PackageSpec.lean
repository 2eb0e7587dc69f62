import Verif.Pkg.Package
/-
When two packages are equal.
-/
namespace Verif.Props
open Verif Verif.Pkg

variable {N S U : Type}

/-- Equality of packages, as `PackageMetadata.__eq__` defines it: what they provide does not count. -/
def SamePackage (p q : Package N S U) : Prop :=
  p.name = q.name ∧ p.version = q.version ∧ p.installRequires = q.installRequires ∧ p.conflicts = q.conflicts ∧
    p.repo = q.repo

theorem samePackage_iff {p q : Package N S U} : SamePackage p q ↔ p.key = q.key := by
  simp [SamePackage, Package.key]

end Verif.Props
