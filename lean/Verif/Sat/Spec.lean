/-
Propositional logic, independently of the solver: what it means for an assignment of truth values to
satisfy a set of clauses given as lists of nonzero integers.
-/
namespace Verif.Sat

/-- The truth value that `m` gives to a literal: `+v` is true when `m v`, `-v` when `m v` is false. -/
def litTrue (m : Nat → Bool) (l : Int) : Prop := m l.natAbs = decide (0 < l)

/-- `m` satisfies a clause: one of its literals is true. -/
def SatC (m : Nat → Bool) (c : List Int) : Prop := ∃ l ∈ c, litTrue m l

/-- `m` satisfies every clause of `F`. -/
def Sat (m : Nat → Bool) (F : List (List Int)) : Prop := ∀ c ∈ F, SatC m c

def Satisfiable (F : List (List Int)) : Prop := ∃ m, Sat m F

/-- Every assignment that satisfies `F` satisfies the clause `c`. -/
def Entails (F : List (List Int)) (c : List Int) : Prop := ∀ m, Sat m F → SatC m c

theorem litTrue_neg (m : Nat → Bool) {l : Int} (h : l ≠ 0) : litTrue m (-l) ↔ ¬ litTrue m l := by
  unfold litTrue
  rw [Int.natAbs_neg]
  by_cases hp : 0 < l
  · have : decide (0 < -l) = false := by simp; omega
    rw [this]; simp [hp]
  · have : decide (0 < -l) = true := by simp; omega
    rw [this]; simp [hp]

instance (m : Nat → Bool) (l : Int) : Decidable (litTrue m l) := by unfold litTrue; infer_instance

end Verif.Sat
