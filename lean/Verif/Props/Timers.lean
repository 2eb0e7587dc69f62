import Verif.Solve.Timed
import Verif.Props.Solve
import Verif.Solve.Example
/-
C130: the timers of a solver.
-/
set_option linter.unusedSectionVars false
namespace Verif.Props
open Verif Verif.Pkg Verif.Rules Verif.Solve

variable {N S U : Type} [LinearOrder N] [DecidableEq S] [LinearOrder U] [Syntax S U]

/-- how a timed call can go: what each phase makes of its timer -/
theorem solveTimed_cases (s : DependencySolver N S U) (o : Orders) (q : Request N U) (clock : Nat → Int) (t : Timers) :
    ((∃ e, createRules s o (s.solvePool (convertUpgrade q s.remote s.installed)) (convertUpgrade q s.remote s.installed) =
          .error e ∧ s.solveTimed o q clock t =
        (liftP (.error e), { t with rules := (t.rules.enter (clock 0)).exit (clock 1) })) ∨
     ∃ st, createRules s o (s.solvePool (convertUpgrade q s.remote s.installed)) (convertUpgrade q s.remote s.installed) = .ok st ∧
      ((∃ e, Sat.Solver.fromRules (st.gen.rules.map Rule.literals) = .error e ∧ s.solveTimed o q clock t =
          (liftS (.error e), { t with
            rules := (t.rules.enter (clock 0)).exit (clock 1)
            init := (t.init.enter (clock 2)).exit (clock 3) })) ∨
       (∃ sat, Sat.Solver.fromRules (st.gen.rules.map Rule.literals) = .ok sat) ∧
       s.solveTimed o q clock t = (s.solve o q, ⟨(t.rules.enter (clock 0)).exit (clock 1),
          (t.init.enter (clock 2)).exit (clock 3), (t.solve.enter (clock 4)).exit (clock 5)⟩))) := by
  unfold DependencySolver.solveTimed DependencySolver.solve
  simp only [Timer.within]
  cases hc : createRules s o (s.solvePool (convertUpgrade q s.remote s.installed)) (convertUpgrade q s.remote s.installed) with
  | error e => exact Or.inl ⟨e, rfl, rfl⟩
  | ok st =>
    refine Or.inr ⟨st, rfl, ?_⟩
    cases hf : Sat.Solver.fromRules (st.gen.rules.map Rule.literals) with
    | error e => exact Or.inl ⟨e, rfl, by simp only [hf]⟩
    | ok sat =>
      refine Or.inr ⟨⟨sat, rfl⟩, ?_⟩
      simp only [hf]
      change _ = (liftS (search o _ st) >>= fun a => liftP (finish s o _ st.requirementIds a), _)
      unfold search Sat.solveRules
      simp only [hf]
      generalize sat.search (Sat.packagePolicy (idVersion (s.solvePool (convertUpgrade q s.remote s.installed))) o.policy)
        (searchFuel (st.gen.rules.map Rule.literals) st.prefer (st.requirementIds.map (fun (i : Nat) => (i : Int))))
        (Sat.PolState.start st.prefer (st.requirementIds.map (fun (i : Nat) => (i : Int)))) = x
      rcases x with ⟨e, _⟩ | ⟨_, a⟩ <;> rfl

/-- C130: timing changes nothing: `solve` returns the transaction, or raises the exception, that it would without timers. -/
theorem C130_timing_changes_nothing (s : DependencySolver N S U) (o : Orders) (q : Request N U) (clock : Nat → Int)
    (t : Timers) : (s.solveTimed o q clock t).1 = s.solve o q := by
  rcases solveTimed_cases s o q clock t with ⟨e, h1, h2⟩ | ⟨st, h1, ⟨e, h2, h3⟩ | ⟨-, h3⟩⟩
  · rw [h2]
    unfold DependencySolver.solve
    simp only [h1]
    rfl
  · rw [h3]
    unfold DependencySolver.solve
    simp only [h1]
    change _ = (liftS (search o _ st) >>= fun a => liftP (finish s o _ st.requirementIds a))
    unfold search Sat.solveRules
    simp only [h2]
    rfl
  · rw [h3]

theorem elapsed_run (x : Timer) (a b : Int) : ((x.enter a).exit b).elapsed = .num (b - a) := rfl

/-- C130: after a call of `solve` that returned, the three timers say how long the generation of the rules, the setup of
the SAT solver and the search took in this call, whatever they said before. With a clock that does not go back these are no
negative times, and together not more than the call took. If the call raised SatisfiabilityError, this holds of the first two
(missing: the third, see `C130_violated`). -/
theorem C130_elapsed_partial (s : DependencySolver N S U) (o : Orders) (q : Request N U) (clock : Nat → Int) (t : Timers) :
    ((∃ r, s.solve o q = .ok r) →
      (s.solveTimed o q clock t).2.rules.elapsed = .num (clock 1 - clock 0) ∧
      (s.solveTimed o q clock t).2.init.elapsed = .num (clock 3 - clock 2) ∧
      (s.solveTimed o q clock t).2.solve.elapsed = .num (clock 5 - clock 4)) ∧
    ((∃ u, s.solve o q = .error (.sat (.satisfiability u))) →
      (s.solveTimed o q clock t).2.rules.elapsed = .num (clock 1 - clock 0) ∧
      (s.solveTimed o q clock t).2.init.elapsed = .num (clock 3 - clock 2)) ∧
    ((∀ i, clock i ≤ clock (i + 1)) → 0 ≤ clock 1 - clock 0 ∧ 0 ≤ clock 3 - clock 2 ∧ 0 ≤ clock 5 - clock 4 ∧
      (clock 1 - clock 0) + (clock 3 - clock 2) + (clock 5 - clock 4) ≤ clock 5 - clock 0) := by
  have hmono : (∀ i, clock i ≤ clock (i + 1)) → 0 ≤ clock 1 - clock 0 ∧ 0 ≤ clock 3 - clock 2 ∧ 0 ≤ clock 5 - clock 4 ∧
      (clock 1 - clock 0) + (clock 3 - clock 2) + (clock 5 - clock 4) ≤ clock 5 - clock 0 := by
    intro hm
    have h0 := hm 0; have h1 := hm 1; have h2 := hm 2; have h3 := hm 3; have h4 := hm 4
    simp only [Nat.zero_add, Nat.reduceAdd] at h0 h1 h2 h3 h4
    omega
  have hres := C130_timing_changes_nothing s o q clock t
  rcases solveTimed_cases s o q clock t with ⟨e, h1, h2⟩ | ⟨st, h1, ⟨e, h2, h3⟩ | ⟨-, h3⟩⟩
  · rw [h2] at hres
    refine ⟨?_, ?_, hmono⟩ <;> rintro ⟨r, h⟩ <;> rw [h] at hres <;> cases hres
  · refine ⟨?_, fun _ => by rw [h3]; exact ⟨rfl, rfl⟩, hmono⟩
    rintro ⟨r, h⟩
    rw [h3, h] at hres; cases hres
  · rw [h3]
    exact ⟨fun _ => ⟨rfl, rfl, rfl⟩, fun _ => ⟨rfl, rfl⟩, hmono⟩

/-- C130: a timer that is used in a `with` statement keeps its description, says the time of the last use, and lets the
result or the exception of the body through, also if it has been used before. -/
theorem C130_reused {ε α : Type} (x : Timer) (a b c d : Int) (body1 body2 : Except ε α) :
    ((x.within a b body1).2.within c d body2).1 = body2 ∧
    ((x.within a b body1).2.within c d body2).2.elapsed = .num (d - c) ∧
    ((x.within a b body1).2.within c d body2).2.description = x.description := ⟨rfl, rfl, rfl⟩

/-- C130: exactly which timers a call sets: that of the rules always, the others if their phase is reached; they are set also
if the phase raises, and the others keep what an earlier call has left there. -/
theorem C130_which_timers (s : DependencySolver N S U) (o : Orders) (q : Request N U) (clock : Nat → Int) (t : Timers) :
    (s.solveTimed o q clock t).2.rules.elapsed = .num (clock 1 - clock 0) ∧
    ((∃ e, createRules s o (s.solvePool (convertUpgrade q s.remote s.installed)) (convertUpgrade q s.remote s.installed) =
        .error e) → (s.solveTimed o q clock t).2.init = t.init ∧ (s.solveTimed o q clock t).2.solve = t.solve) ∧
    ((∃ st, createRules s o (s.solvePool (convertUpgrade q s.remote s.installed)) (convertUpgrade q s.remote s.installed) =
        .ok st) → (s.solveTimed o q clock t).2.init.elapsed = .num (clock 3 - clock 2)) := by
  rcases solveTimed_cases s o q clock t with ⟨e, h1, h2⟩ | ⟨st, h1, ⟨e, h2, h3⟩ | ⟨-, h3⟩⟩
  · rw [h2]
    refine ⟨rfl, fun _ => ⟨rfl, rfl⟩, ?_⟩
    rintro ⟨st, h⟩
    rw [h1] at h; cases h
  · rw [h3]
    refine ⟨rfl, ?_, fun _ => rfl⟩
    rintro ⟨e, h⟩
    rw [h1] at h; cases h
  · rw [h3]
    refine ⟨rfl, ?_, fun _ => rfl⟩
    rintro ⟨e, h⟩
    rw [h1] at h; cases h

namespace TimersExample
open Verif.Pkg.Example Verif.Solve.Example

/-- two packages 1 that exclude each other, and a package 2 -/
def s : DependencySolver Nat Str Nat := solver [] [pkg 0 1 1, pkg 0 1 2, pkg 0 2 1]
def good := request [install (req 2)]
/-- nothing provides 7 -/
def missing := request [install (req 7)]
/-- to install 2 and to remove it -/
def bad := request [install (req 2), remove (req 2)]
/-- the clock readings of the two calls -/
def first : Nat → Int := fun i => 10 * i
def second : Nat → Int := fun i => 1000 + i * i

/-- a call that returns -/
example : solved (s.solveTimed insertionOrder good first .new).1 =
    some (.ok ([.install (pkg 0 2 1)], [.install (pkg 0 2 1)])) := by decide +kernel
/-- what the timers say then -/
example : (s.solveTimed insertionOrder good second .new).2 =
    ⟨⟨"Generate Rules", some 1000, .num 1⟩, ⟨"Solver Init", some 1004, .num 5⟩, ⟨"SAT Solve", some 1016, .num 9⟩⟩ := by
  decide +kernel

/-- SatisfiabilityError was raised -/
def unsat {α : Type} : Except (SErr Nat Nat) α → Bool
  | .error (.sat (.satisfiability _)) => true
  | _ => false

theorem unsat_iff {α : Type} {x : Except (SErr Nat Nat) α} (h : unsat x = true) :
    ∃ u, x = .error (.sat (.satisfiability u)) := by
  unfold unsat at h
  split at h
  · exact ⟨_, rfl⟩
  · cases h

/-- C130 is violated: after a call that raises NoPackageFound the timers of the setup and of the search say how long those of
an earlier call took; so does that of the search after a call that finds the request unsatisfiable when the SAT solver is
set up. -/
theorem C130_violated :
    (s.solve insertionOrder missing = .error (.pkg .noPackageFound) ∧
      (s.solvesTimed [(insertionOrder, good, first), (insertionOrder, missing, second)] .new).init.elapsed = .num 10 ∧
      (s.solvesTimed [(insertionOrder, good, first), (insertionOrder, missing, second)] .new).solve.elapsed = .num 10) ∧
    ((∃ u, s.solve insertionOrder bad = .error (.sat (.satisfiability u))) ∧
      (s.solvesTimed [(insertionOrder, good, first), (insertionOrder, bad, second)] .new).init.elapsed = .num 5 ∧
      (s.solvesTimed [(insertionOrder, good, first), (insertionOrder, bad, second)] .new).solve.elapsed = .num 10) := by
  refine ⟨⟨by rfl, by decide +kernel, by decide +kernel⟩, unsat_iff (by decide +kernel), by decide +kernel, by decide +kernel⟩

end TimersExample

theorem exit_not_none (x : Timer) (a b : Int) : ((x.enter a).exit b).elapsed ≠ .none := by
  rw [elapsed_run]; intro h; cases h

/-- no call sets a timer to None -/
theorem solvesTimed_not_none (s : DependencySolver N S U) (calls : List (Orders × Request N U × (Nat → Int))) (t : Timers)
    (h : t.rules.elapsed ≠ .none ∧ t.init.elapsed ≠ .none ∧ t.solve.elapsed ≠ .none) :
    (s.solvesTimed calls t).rules.elapsed ≠ .none ∧ (s.solvesTimed calls t).init.elapsed ≠ .none ∧
    (s.solvesTimed calls t).solve.elapsed ≠ .none := by
  induction calls generalizing t with
  | nil => exact h
  | cons c calls ih =>
    obtain ⟨o, q, clock⟩ := c
    refine ih _ ?_
    rcases solveTimed_cases s o q clock t with ⟨e, h1, h2⟩ | ⟨st, h1, ⟨e, h2, h3⟩ | ⟨-, h3⟩⟩
    · rw [h2]; exact ⟨exit_not_none _ _ _, h.2⟩
    · rw [h3]; exact ⟨exit_not_none _ _ _, exit_not_none _ _ _, h.2.2⟩
    · rw [h3]; exact ⟨exit_not_none _ _ _, exit_not_none _ _ _, exit_not_none _ _ _⟩

/-- C130 is violated: a timer that has not run does not say so: the timers of a solver, of which any calls were made, none
included, are written with a time, however NaN is written. -/
theorem C130_violated_str (fmt : Elapsed → String) (s : DependencySolver N S U)
    (calls : List (Orders × Request N U × (Nat → Int))) :
    let t := s.solvesTimed calls .new
    (∃ e, t.rules.str fmt = "ELAPSED : " ++ t.rules.description ++ " : " ++ fmt e) ∧
    (∃ e, t.init.str fmt = "ELAPSED : " ++ t.init.description ++ " : " ++ fmt e) ∧
    (∃ e, t.solve.str fmt = "ELAPSED : " ++ t.solve.description ++ " : " ++ fmt e) := by
  have h := solvesTimed_not_none s calls .new ⟨(by intro h; cases h), (by intro h; cases h), (by intro h; cases h)⟩
  refine ⟨⟨_, if_neg h.1⟩, ⟨_, if_neg h.2.1⟩, ⟨_, if_neg h.2.2⟩⟩

/-- C130: what a new solver says -/
example (fmt : Elapsed → String) : Timers.new.solve.str fmt = "ELAPSED : " ++ "SAT Solve" ++ " : " ++ fmt .nan := rfl

end Verif.Props
