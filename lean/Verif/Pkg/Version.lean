import Mathlib.Order.Defs.LinearOrder
/-
Versions. `EnpkgVersion` is not part of this repository (okonomiyaki.versions); it is modelled by a pair of an upstream
version, from an arbitrary linearly ordered type `U`, and a build number, compared lexicographically.
-/
namespace Verif.Pkg

/-- `EnpkgVersion`: `.upstream` and `.build`. -/
structure Version (U : Type) where
  upstream : U
  build : Nat
deriving DecidableEq

variable {U : Type} [LinearOrder U]

/-- The order of versions: the upstream part first, then the build number. -/
def Version.le (a b : Version U) : Prop := a.upstream < b.upstream ∨ (a.upstream = b.upstream ∧ a.build ≤ b.build)

def Version.lt (a b : Version U) : Prop := a.upstream < b.upstream ∨ (a.upstream = b.upstream ∧ a.build < b.build)

instance : LE (Version U) := ⟨Version.le⟩
instance : LT (Version U) := ⟨Version.lt⟩

instance (a b : Version U) : Decidable (a ≤ b) :=
  inferInstanceAs (Decidable (a.upstream < b.upstream ∨ (a.upstream = b.upstream ∧ a.build ≤ b.build)))
instance (a b : Version U) : Decidable (a < b) :=
  inferInstanceAs (Decidable (a.upstream < b.upstream ∨ (a.upstream = b.upstream ∧ a.build < b.build)))

theorem Version.le_def (a b : Version U) :
    a ≤ b ↔ a.upstream < b.upstream ∨ (a.upstream = b.upstream ∧ a.build ≤ b.build) := Iff.rfl
theorem Version.lt_def (a b : Version U) :
    a < b ↔ a.upstream < b.upstream ∨ (a.upstream = b.upstream ∧ a.build < b.build) := Iff.rfl

instance : LinearOrder (Version U) where
  le_refl a := Or.inr ⟨rfl, Nat.le_refl _⟩
  le_trans a b c h1 h2 := by
    rw [Version.le_def] at *
    rcases h1 with h1 | ⟨e1, h1⟩ <;> rcases h2 with h2 | ⟨e2, h2⟩
    · exact Or.inl (lt_trans h1 h2)
    · exact Or.inl (e2 ▸ h1)
    · exact Or.inl (e1 ▸ h2)
    · exact Or.inr ⟨e1.trans e2, Nat.le_trans h1 h2⟩
  le_antisymm a b h1 h2 := by
    rw [Version.le_def] at *
    obtain ⟨u, n⟩ := a
    obtain ⟨w, k⟩ := b
    rcases h1 with h1 | ⟨e1, h1⟩ <;> rcases h2 with h2 | ⟨e2, h2⟩
    · exact absurd (lt_trans h1 h2) (lt_irrefl _)
    · exact absurd h1 (by rw [e2]; exact lt_irrefl _)
    · exact absurd h2 (by rw [e1]; exact lt_irrefl _)
    · simp only at e1 h1 h2
      rw [e1, Nat.le_antisymm h1 h2]
  le_total a b := by
    rw [Version.le_def, Version.le_def]
    rcases lt_trichotomy a.upstream b.upstream with h | h | h
    · exact Or.inl (Or.inl h)
    · rcases Nat.le_total a.build b.build with k | k
      · exact Or.inl (Or.inr ⟨h, k⟩)
      · exact Or.inr (Or.inr ⟨h.symm, k⟩)
    · exact Or.inr (Or.inl h)
  lt_iff_le_not_ge a b := by
    rw [Version.le_def, Version.lt_def, Version.le_def]
    constructor
    · rintro (h | ⟨e, h⟩)
      · refine ⟨Or.inl h, ?_⟩
        rintro (k | ⟨k, -⟩)
        · exact lt_irrefl _ (lt_trans h k)
        · rw [k] at h; exact lt_irrefl _ h
      · refine ⟨Or.inr ⟨e, Nat.le_of_lt h⟩, ?_⟩
        rintro (k | ⟨-, k⟩)
        · rw [e] at k; exact lt_irrefl _ k
        · omega
    · rintro ⟨h | ⟨e, h⟩, k⟩
      · exact Or.inl h
      · right
        refine ⟨e, ?_⟩
        apply Classical.byContradiction
        intro hn
        exact k (Or.inr ⟨e.symm, by omega⟩)
  toDecidableLE := inferInstance
  toDecidableEq := inferInstance
  toDecidableLT := inferInstance

end Verif.Pkg
