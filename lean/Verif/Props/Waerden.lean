import Verif.Sat.Waerden
import Verif.Props.SatCore
import Mathlib.Tactic.Linarith
/-
Property theorems about the example simplesat/examples/van_der_waerden.py (C70).
-/
namespace Verif.Props
open Verif Verif.Sat

theorem mem_pyRange {a b x : Int} : x ∈ pyRange a b ↔ a ≤ x ∧ x < b := by
  unfold pyRange
  rw [List.mem_map]
  constructor
  · rintro ⟨i, hi, rfl⟩
    rw [List.mem_range] at hi
    omega
  · rintro ⟨h1, h2⟩
    exact ⟨(x - a).toNat, by rw [List.mem_range]; omega, by omega⟩

theorem mem_helper {j n : Nat} (hj : 2 ≤ j) {sign : Int} {cs : List (List Int)} (h : waerdenHelper j n sign = some cs) (c : List Int) :
    c ∈ cs ↔ ∃ a d : Nat, 1 ≤ a ∧ 1 ≤ d ∧ a + (j - 1) * d ≤ n ∧
      c = (List.range j).map (fun p => sign * ((a + p * d : Nat) : Int)) := by
  unfold waerdenHelper at h
  rw [if_neg (by omega)] at h
  simp only [Option.some.injEq] at h
  subst h
  have hclause : ∀ a d : Nat, (pyRange 0 (j : Int)).map (fun p => sign * ((a : Int) + p * (d : Int))) =
      (List.range j).map (fun p => sign * ((a + p * d : Nat) : Int)) := by
    intro a d
    unfold pyRange
    rw [List.map_map]
    simp
  rw [List.mem_flatMap]
  constructor
  · rintro ⟨d, hd, hc⟩
    rw [List.mem_map] at hc
    obtain ⟨i, hi, rfl⟩ := hc
    rw [mem_pyRange] at hd hi
    refine ⟨i.toNat, d.toNat, by omega, by omega, ?_, ?_⟩
    · have h1 : (((j - 1 : Nat) : Int)) = (j : Int) - 1 := by omega
      have h2 : ((i.toNat + (j - 1) * d.toNat : Nat) : Int) = i + ((j : Int) - 1) * d := by
        push_cast
        rw [h1]
        rw [Int.toNat_of_nonneg (by omega), Int.toNat_of_nonneg (by omega)]
      omega
    · rw [← hclause]
      rw [Int.toNat_of_nonneg (by omega), Int.toNat_of_nonneg (by omega)]
  · rintro ⟨a, d, ha, hd, hl, rfl⟩
    have h1 : (((j - 1 : Nat) : Int)) = (j : Int) - 1 := by omega
    have hl' : (a : Int) + ((j : Int) - 1) * d ≤ n := by
      rw [← h1]
      exact_mod_cast hl
    refine ⟨(d : Int), ?_, ?_⟩
    · rw [mem_pyRange]
      refine ⟨by omega, ?_⟩
      have hj1 : (0 : Int) < (j : Int) - 1 := by omega
      have : (d : Int) ≤ ((n : Int) - 1).fdiv ((j : Int) - 1) := by
        rw [Int.fdiv_eq_ediv_of_nonneg _ (by omega)]
        rw [Int.le_ediv_iff_mul_le hj1]
        nlinarith
      omega
    · rw [List.mem_map]
      refine ⟨(a : Int), ?_, hclause a d⟩
      rw [mem_pyRange]
      omega

theorem satC_progression {m : Nat → Bool} {j n a d : Nat} (ha : 1 ≤ a) (hd : 1 ≤ d) (hl : a + (j - 1) * d ≤ n) (b : Bool) (sign : Int)
    (hs : sign = if b then -1 else 1) :
    SatC m ((List.range j).map (fun p => sign * ((a + p * d : Nat) : Int))) ↔ ¬ Progression m b j n a d := by
  have hlit : ∀ p, litTrue m (sign * ((a + p * d : Nat) : Int)) ↔ m (a + p * d) ≠ b := by
    intro p
    unfold litTrue
    have hpos : (0 : Int) < ((a + p * d : Nat) : Int) := by
      have : 0 < a + p * d := by omega
      exact_mod_cast this
    generalize a + p * d = x at hpos ⊢
    subst hs
    cases b
    · have h2 : 0 < x := by omega
      simp [h2]
    · have h2 : ¬ ((x : Int) < 0) := by omega
      simp [h2]
  constructor
  · rintro ⟨l, hl', ht⟩ hp
    rw [List.mem_map] at hl'
    obtain ⟨p, hp1, rfl⟩ := hl'
    exact (hlit p).1 ht (hp.colour p (List.mem_range.1 hp1))
  · intro hn
    by_contra hc
    apply hn
    refine ⟨ha, hd, hl, ?_⟩
    intro p hp
    by_contra hne
    exact hc ⟨_, List.mem_map.2 ⟨p, List.mem_range.2 hp, rfl⟩, (hlit p).2 hne⟩

theorem sat_helper {m : Nat → Bool} {j n : Nat} (hj : 2 ≤ j) (b : Bool) {sign : Int} (hs : sign = if b then -1 else 1)
    {cs : List (List Int)} (h : waerdenHelper j n sign = some cs) :
    Sat m cs ↔ ∀ a d, ¬ Progression m b j n a d := by
  constructor
  · intro hsat a d hp
    exact (satC_progression hp.first hp.step hp.last b sign hs).1
      (hsat _ ((mem_helper hj h _).2 ⟨a, d, hp.first, hp.step, hp.last, rfl⟩)) hp
  · intro hn c hc
    obtain ⟨a, d, h1, h2, h3, rfl⟩ := (mem_helper hj h _).1 hc
    exact (satC_progression h1 h2 h3 b sign hs).2 (hn a d)

theorem waerdenHelper_some {j : Nat} (hj : 2 ≤ j) (n : Nat) (sign : Int) : ∃ cs, waerdenHelper j n sign = some cs := by
  unfold waerdenHelper
  rw [if_neg (by omega)]
  exact ⟨_, rfl⟩

/-- C70: the clauses exist, and an assignment satisfies them iff, read as a colouring of the numbers from 1 to `n`, it has no
progression of `j` numbers of one colour and none of `k` numbers of the other. -/
theorem C70_clauses {j k : Nat} (hj : 2 ≤ j) (hk : 2 ≤ k) (n : Nat) :
    ∃ cs, vanDerWaerden j k n = some cs ∧ ∀ m, Sat m cs ↔ Waerden m j k n := by
  obtain ⟨a, ha⟩ := waerdenHelper_some hj n 1
  obtain ⟨b, hb⟩ := waerdenHelper_some hk n (-1)
  refine ⟨a ++ b, by unfold vanDerWaerden; rw [ha, hb], ?_⟩
  intro m
  have h1 := sat_helper (m := m) hj false rfl ha
  have h2 := sat_helper (m := m) hk true rfl hb
  unfold Waerden
  rw [← h1, ← h2]
  constructor
  · intro h
    exact ⟨fun c hc => h c (List.mem_append_left _ hc), fun c hc => h c (List.mem_append_right _ hc)⟩
  · rintro ⟨h1, h2⟩ c hc
    exact (List.mem_append.1 hc).elim (h1 c) (h2 c)

/-- C70: the clauses are ones that the solver accepts: not empty, without zero, with literals of the numbers from 1 to `n`. -/
theorem C70_well_formed {j k : Nat} (hj : 2 ≤ j) (hk : 2 ≤ k) {n : Nat} {cs : List (List Int)}
    (h : vanDerWaerden j k n = some cs) : ∀ c ∈ cs, c ≠ [] ∧ ∀ l ∈ c, 1 ≤ l.natAbs ∧ l.natAbs ≤ n := by
  have key : ∀ {j : Nat}, 2 ≤ j → ∀ sign : Int, (sign = 1 ∨ sign = -1) → ∀ a, waerdenHelper j n sign = some a →
      ∀ c ∈ a, c ≠ [] ∧ ∀ l ∈ c, 1 ≤ l.natAbs ∧ l.natAbs ≤ n := by
    intro j hj sign hs a ha c hc
    obtain ⟨x, d, h1, h2, h3, rfl⟩ := (mem_helper hj ha _).1 hc
    refine ⟨?_, ?_⟩
    · rw [ne_eq, List.map_eq_nil_iff, List.range_eq_nil]
      omega
    · intro l hl
      rw [List.mem_map] at hl
      obtain ⟨p, hp, rfl⟩ := hl
      rw [List.mem_range] at hp
      have e : (sign * ((x + p * d : Nat) : Int)).natAbs = x + p * d := by
        rcases hs with rfl | rfl
        · rw [Int.one_mul, Int.natAbs_natCast]
        · rw [Int.neg_one_mul, Int.natAbs_neg, Int.natAbs_natCast]
      rw [e]
      have : p * d ≤ (j - 1) * d := Nat.mul_le_mul_right d (by omega)
      omega
  unfold vanDerWaerden at h
  split at h
  · cases h
  · next a ha =>
    split at h
    · cases h
    · next b hb =>
      cases h
      intro c hc
      rcases List.mem_append.1 hc with hc | hc
      · exact key hj 1 (Or.inl rfl) a ha c hc
      · exact key hk (-1) (Or.inr rfl) b hb c hc

section
variable {σ : Type} {pol : Policy σ}

/-- C70: the solver finds a solution of these clauses iff there is such a colouring, and an error otherwise. -/
theorem C70_solver {j k : Nat} (hj : 2 ≤ j) (hk : 2 ≤ k) {n : Nat} {cs : List (List Int)} (h : vanDerWaerden j k n = some cs)
    {U D PI} (hpol : pol.OK U (varsOf cs) D PI) (hU : ∀ v ∈ varsOf cs, v ∈ U) {ps : σ} (hps : PI ps) {fuel : Nat}
    (hf : enoughFuel U.length ≤ fuel) :
    ((∃ a, solveRules pol fuel ps cs = .ok a) ↔ ∃ m, Waerden m j k n) ∧
    ((∃ u, solveRules pol fuel ps cs = .error (.satisfiability u)) ↔ ¬ ∃ m, Waerden m j k n) := by
  obtain ⟨cs', h1, h2⟩ := C70_clauses hj hk n
  rw [h] at h1
  cases h1
  have hwf := C70_well_formed hj hk h
  have hnz : ∀ c ∈ cs, ∀ l ∈ c, l ≠ 0 := by
    intro c hc l hl
    have := (hwf c hc).2 l hl
    omega
  have hiff : Satisfiable cs ↔ ∃ m, Waerden m j k n := by
    constructor
    · rintro ⟨m, hm⟩; exact ⟨m, (h2 m).1 hm⟩
    · rintro ⟨m, hm⟩; exact ⟨m, (h2 m).2 hm⟩
  rw [← hiff]
  exact C05_decides_satisfiability hpol hU hnz hps (fun c hc => (hwf c hc).1) hf

end

/-- the clauses for j = k = 3 and n = 5 -/
example : vanDerWaerden 3 3 5 = some [[1, 2, 3], [2, 3, 4], [3, 4, 5], [1, 3, 5], [-1, -2, -3], [-2, -3, -4], [-3, -4, -5], [-1, -3, -5]] := by
  decide

/-- with the default policy the hypotheses of `C70_solver` are met, -/
example {cs : List (List Int)} (h : vanDerWaerden 3 3 9 = some cs) {fuel : Nat} (hf : enoughFuel (varsOf cs).length ≤ fuel) :
    (∃ u, solveRules defaultPolicy fuel () cs = .error (.satisfiability u)) ↔ ¬ ∃ m, Waerden m 3 3 9 :=
  (C70_solver (j := 3) (k := 3) (n := 9) (by decide) (by decide) h (defaultPolicy_ok _ _) (fun _ hv => hv) trivial hf).2

/-- whether the solver finds a solution of the clauses, with the default policy -/
def finds (n : Int) : Option Bool :=
  match solveRules defaultPolicy 1000 () ((vanDerWaerden 3 3 n).getD []) with
  | .ok _ => some true
  | .error (.satisfiability _) => some false
  | .error _ => none

/-- the cases of the unit tests: 8 numbers can be coloured, -/
theorem waerden_8 : ∃ m, Waerden m 3 3 8 := by
  have hrun : finds (8 : Nat) = some true := by decide +kernel
  obtain ⟨cs, h, hs⟩ := C70_clauses (j := 3) (k := 3) (by decide) (by decide) 8
  have hwf := C70_well_formed (j := 3) (k := 3) (by decide) (by decide) h
  unfold finds at hrun
  rw [show vanDerWaerden 3 3 ((8 : Nat) : Int) = some cs from h, Option.getD_some] at hrun
  split at hrun
  · next a ha =>
    obtain ⟨m, hm, -⟩ := C01_solution_is_a_model (defaultPolicy_ok _ _) (fun _ hv => hv)
      (fun c hc l hl => by have := (hwf c hc).2 l hl; omega) trivial (fun c hc => (hwf c hc).1) ha
    exact ⟨m, (hs m).1 hm⟩
  · cases hrun
  · cases hrun

/-- and 9 cannot. -/
theorem waerden_9 : ¬ ∃ m, Waerden m 3 3 9 := by
  have hrun : finds (9 : Nat) = some false := by decide +kernel
  obtain ⟨cs, h, hs⟩ := C70_clauses (j := 3) (k := 3) (by decide) (by decide) 9
  have hwf := C70_well_formed (j := 3) (k := 3) (by decide) (by decide) h
  unfold finds at hrun
  rw [show vanDerWaerden 3 3 ((9 : Nat) : Int) = some cs from h, Option.getD_some] at hrun
  split at hrun
  · cases hrun
  · next u hu =>
    rintro ⟨m, hm⟩
    exact C02_error_means_unsatisfiable (defaultPolicy_ok _ _) (fun _ hv => hv)
      (fun c hc l hl => by have := (hwf c hc).2 l hl; omega) trivial hu ⟨m, (hs m).2 hm⟩
  · cases hrun

/-- for j = 1 there is a ZeroDivisionError (and nothing to colour) -/
example : vanDerWaerden 1 3 5 = none := by decide

end Verif.Props
