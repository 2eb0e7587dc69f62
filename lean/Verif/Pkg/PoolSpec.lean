import Verif.Pkg.PoolLemmas
import Verif.Pkg.PackageSpec
import Verif.Pkg.ConstraintsSpec
import Verif.Props.Constraints
/-
What it means for a package to provide a requirement, independently of the pool.
-/
set_option linter.unusedSectionVars false
namespace Verif.Props
open Verif Verif.Pkg

variable {N S U : Type} [LinearOrder N] [DecidableEq S] [LinearOrder U] [Syntax S U]

/-- `p` provides `name`: it is its name or one of the names it declares to provide -/
def Provides (p : Package N S U) (name : N) : Prop := name = p.name ∨ ∃ t ∈ p.declaredProvides, t.1 = name

theorem provides_iff (p : Package N S U) (n : N) : Provides p n ↔ n ∈ p.provNames := by
  simp [Provides, Package.provNames]

/-- The requirement that is actually looked up: unchanged if modifiers are not to be used or there are none. -/
def Looked (mods : Option (Modifiers N)) (useModifiers : Bool) (r r' : Requirement N U) : Prop :=
  match mods, useModifiers with
  | some m, true => modifyRequirement r m = .ok r'
  | _, _ => r' = r

theorem looked_iff (pool : Pool N S U) (b : Bool) (r r' : Requirement N U) :
    (if b then pool.modifyRequirement r else .ok r) = .ok r' ↔ Looked pool.modifiers b r r' := by
  unfold Looked Pool.modifyRequirement
  cases b <;> cases pool.modifiers <;> simp [eq_comm]

theorem looked_name {mods : Option (Modifiers N)} {b : Bool} {r r' : Requirement N U} (h : Looked mods b r r') :
    r'.name = r.name := by
  unfold Looked at h
  split at h
  · unfold modifyRequirement at h
    split at h
    · cases h
      rw [modifyInstall_eq]
      split <;> rfl
    · split at h
      · split at h
        · simp at h
        · cases h; rfl
      · cases h; rfl
  · rw [h]

/-- `p` meets the requirement `r`: it provides its name and its version is accepted (by `r` as modified, if modifiers
are to be used). -/
def Meets (mods : Option (Modifiers N)) (useModifiers : Bool) (r : Requirement N U) (p : Package N S U) : Prop :=
  Provides p r.name ∧ ∃ r', Looked mods useModifiers r r' ∧ ReqAccepts r' p.version

/-- `what_provides` returns the packages that meet the requirement -/
theorem mem_whatProvides {pool : Pool N S U} {l : List (Package N S U)} (hok : pool.OK l) {b : Bool}
    {r : Requirement N U} {res : List (Package N S U)} (h : pool.whatProvides r b = .ok res) (p : Package N S U) :
    p ∈ res ↔ p ∈ l ∧ Meets pool.modifiers b r p := by
  rw [hok.names.whatProvides_eq] at h
  split at h
  · next hn =>
    cases hl : (if b = true then pool.modifyRequirement r else Except.ok r) with
    | error e => rw [hl] at h; simp at h
    | ok r' =>
      rw [hl] at h
      simp only [Except.ok.injEq] at h
      rw [looked_iff] at hl
      have hname := looked_name hl
      subst h
      rw [List.mem_filter, mem_providersIn, hname, ← provides_iff, C24_matches_meaning]
      constructor
      · rintro ⟨⟨h1, h2⟩, h3⟩
        exact ⟨h1, h2, r', hl, h3⟩
      · rintro ⟨h1, h2, r'', h3, h4⟩
        have : r'' = r' := by
          rw [← looked_iff] at hl
          have h3' := (looked_iff pool b r r'').2 h3
          rw [hl] at h3'
          cases h3'; rfl
        subst this
        exact ⟨⟨h1, h2⟩, h4⟩
  · next hn =>
    cases h
    constructor
    · intro hp; simp at hp
    · rintro ⟨h1, h2, -⟩
      exact absurd ⟨p, h1, (provides_iff p _).1 h2⟩ hn

end Verif.Props
