/-
Model of simplesat/examples/van_der_waerden.py, which makes clauses for the binary van der Waerden problem.
-/
namespace Verif.Sat

/-- Python's `range(a, b)` -/
def pyRange (a b : Int) : List Int := (List.range (b - a).toNat).map (fun i => a + (i : Nat))

/-- `_van_der_waerden_helper(j, n, sign)`; van_der_waerden.py:10-17. `none` stands for the ZeroDivisionError for `j = 1`;
`//` rounds down. -/
def waerdenHelper (j n sign : Int) : Option (List (List Int)) :=
  if j - 1 = 0 then none
  else some ((pyRange 1 ((n - 1).fdiv (j - 1) + 1 + 1)).flatMap (fun d =>
    (pyRange 1 (n - (j - 1) * d + 1)).map (fun i => (pyRange 0 j).map (fun p => sign * (i + p * d)))))

/-- `van_der_waerden(j, k, n)`; van_der_waerden.py:20-26 -/
def vanDerWaerden (j k n : Int) : Option (List (List Int)) :=
  match waerdenHelper j n 1 with
  | none => none
  | some a => match waerdenHelper k n (-1) with
    | none => none
    | some b => some (a ++ b)

/-! ### what it is for -/

/-- the `len` terms `a, a + d, a + 2d, …` are numbers from 1 to `n` and all have the colour `b` -/
structure Progression (m : Nat → Bool) (b : Bool) (len n a d : Nat) : Prop where
  first : 1 ≤ a
  step : 1 ≤ d
  last : a + (len - 1) * d ≤ n
  colour : ∀ p < len, m (a + p * d) = b

/-- The colouring of the numbers from 1 to `n` has no progression of `j` terms of the colour false, and none of `k` terms of the
colour true. -/
def Waerden (m : Nat → Bool) (j k n : Nat) : Prop :=
  (∀ a d, ¬ Progression m false j n a d) ∧ ∀ a d, ¬ Progression m true k n a d

end Verif.Sat
