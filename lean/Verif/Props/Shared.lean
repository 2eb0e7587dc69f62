import Verif.Solve.Shared
import Verif.Props.Solve
/-
Property C124: calls of `solve` that share a pool and run at the same time.
-/
set_option linter.unusedSectionVars false
namespace Verif.Props
open Verif Verif.Pkg Verif.Solve Verif.Rules

variable {N S U : Type} [LinearOrder N] [DecidableEq S] [LinearOrder U] [Syntax S U]

/-- What the call gives when nobody else uses the pool -/
def Alone (c : SolveCall N S U) : Except (SErr N U) (Transaction N S U) := c.solver.solve c.orders c.request

/-- The next phase of the call is that it generates its rules, or that it makes its transaction -/
def Reads : Stage N S U → Prop
  | .ready => True
  | .searched _ _ => True
  | _ => False

/-- Whenever call `i` generates its rules or makes its transaction, the modifiers in the pool are those of its own request -/
def Undisturbed (calls : Nat → SolveCall N S U) (w : SharedWorld N S U) (schedule : List Nat) (i : Nat) : Prop :=
  ∀ pre post, schedule = pre ++ i :: post → Reads ((w.run calls pre).stage i) → (w.run calls pre).modifiers = (calls i).modifiers

/-! ## Invariant -/

/-- what is known about the stage of a call that was not disturbed -/
def GoodStage (c : SolveCall N S U) : Stage N S U → Prop
  | .start => True
  | .ready => True
  | .ruled st => createRules c.solver c.orders (c.pool c.modifiers) c.converted = .ok st
  | .searched st a => createRules c.solver c.orders (c.pool c.modifiers) c.converted = .ok st ∧
      search c.orders (c.pool c.modifiers) st = .ok a
  | .done r => r = Alone c

theorem solve_phases (c : SolveCall N S U) : Alone c = (match createRules c.solver c.orders (c.pool c.modifiers) c.converted with
    | .error e => .error (.pkg e)
    | .ok st => match search c.orders (c.pool c.modifiers) st with
      | .error e => .error (.sat e)
      | .ok a => liftP (finish c.solver c.orders (c.pool c.modifiers) st.requirementIds a)) := by
  unfold Alone DependencySolver.solve
  show ((liftP (createRules c.solver c.orders (c.pool c.modifiers) c.converted)) >>= _) = _
  cases h : createRules c.solver c.orders (c.pool c.modifiers) c.converted with
  | error e => rfl
  | ok st =>
    show ((liftS (search c.orders (c.pool c.modifiers) st)) >>= _) = _
    cases h' : search c.orders (c.pool c.modifiers) st with
    | error e => simp only [h', liftS]; rfl
    | ok a => simp only [h', liftS]; rfl

theorem search_modifiers (c : SolveCall N S U) (m m' : Option (Modifiers N)) (st : Setup N S U) :
    search c.orders (c.pool m) st = search c.orders (c.pool m') st := rfl

theorem goodStage_step {c : SolveCall N S U} {m : Option (Modifiers N)} {g : Stage N S U} (hg : GoodStage c g)
    (hm : Reads g → m = c.modifiers) : GoodStage c (c.step m g).2 := by
  cases g with
  | start => trivial
  | ready =>
    have := hm trivial
    subst this
    simp only [SolveCall.step]
    cases h : createRules c.solver c.orders (c.pool c.modifiers) c.converted with
    | error e =>
      show _ = _
      rw [solve_phases, h]
    | ok st => exact h
  | ruled st =>
    simp only [SolveCall.step]
    rw [search_modifiers c m c.modifiers]
    have h0 : createRules c.solver c.orders (c.pool c.modifiers) c.converted = .ok st := hg
    cases h : search c.orders (c.pool c.modifiers) st with
    | error e =>
      show _ = _
      rw [solve_phases, h0]
      simp only [h]
    | ok a => exact ⟨h0, h⟩
  | searched st a =>
    have := hm trivial
    subst this
    obtain ⟨h1, h2⟩ := hg
    show _ = _
    rw [solve_phases, h1]
    simp only [h2]
  | done r => exact hg

theorem goodStage_run {calls : Nat → SolveCall N S U} {i : Nat} : ∀ {schedule : List Nat} {w : SharedWorld N S U}, GoodStage (calls i) (w.stage i) →
    Undisturbed calls w schedule i → GoodStage (calls i) ((w.run calls schedule).stage i)
  | [], _, hg, _ => hg
  | x :: schedule, w, hg, hu => by
    have hu' : Undisturbed calls (w.step calls x) schedule i := by
      intro pre post e
      exact hu (x :: pre) post (by rw [e]; rfl)
    refine goodStage_run (w := w.step calls x) ?_ hu'
    unfold SharedWorld.step
    simp only [fset]
    by_cases hx : i = x
    · subst hx
      rw [if_pos rfl]
      exact goodStage_step hg (fun hr => hu [] schedule rfl hr)
    · rw [if_neg hx]
      exact hg

/-! ## The theorems -/

/-- C124 (partial): in every schedule of any number of calls, a call that is undisturbed gives what it gives alone. What is missing:
another call that begins in between replaces the modifiers in the pool (`C124_violated`). -/
theorem C124_undisturbed_partial (calls : Nat → SolveCall N S U) (m : Option (Modifiers N)) {schedule : List Nat} {i : Nat}
    (hu : Undisturbed calls (SharedWorld.start m) schedule i) {r : Except (SErr N U) (Transaction N S U)}
    (hr : ((SharedWorld.start m).run calls schedule).stage i = .done r) : r = Alone (calls i) := by
  have := goodStage_run (calls := calls) (i := i) (w := SharedWorld.start m) trivial hu
  rw [hr] at this
  exact this

theorem run_append (calls : Nat → SolveCall N S U) (w : SharedWorld N S U) (a b : List Nat) :
    w.run calls (a ++ b) = (w.run calls a).run calls b := by simp [SharedWorld.run]

theorem step_modifiers (calls : Nat → SolveCall N S U) (w : SharedWorld N S U) (i : Nat) :
    (w.step calls i).modifiers = w.modifiers ∨ (w.step calls i).modifiers = (calls i).modifiers := by
  unfold SharedWorld.step
  cases h : w.stage i with
  | start => exact Or.inr rfl
  | ready => exact Or.inl rfl
  | ruled st => exact Or.inl rfl
  | searched st a => exact Or.inl rfl
  | done r => exact Or.inl rfl

/-- once a call has begun, the modifiers in the pool are those of a call -/
theorem run_modifiers {calls : Nat → SolveCall N S U} {m m' : Option (Modifiers N)} {i : Nat} : ∀ {schedule : List Nat} {w : SharedWorld N S U},
    (∀ j ∈ schedule, (calls j).modifiers = m') → w.modifiers = m' ∨ (w.stage i = .start) →
    (w.run calls schedule).modifiers = m' ∨ (w.run calls schedule).stage i = .start
  | [], _, _, h => h
  | x :: schedule, w, hs, h => by
    refine run_modifiers (m := m) (w := w.step calls x) (fun j hj => hs j (by simp [hj])) ?_
    rcases h with h | h
    · left
      rcases step_modifiers calls w x with e | e
      · rw [e, h]
      · rw [e]; exact hs x (by simp)
    · by_cases hx : i = x
      · subst hx
        left
        unfold SharedWorld.step
        rw [h]
        exact hs i (by simp)
      · right
        unfold SharedWorld.step
        simp only [fset, if_neg hx]
        exact h

/-- C124: calls whose requests have the same modifiers, in particular calls without modifiers, never disturb each other: in every
schedule each gives what it gives alone -/
theorem C124_same_modifiers (calls : Nat → SolveCall N S U) (m : Option (Modifiers N)) {schedule : List Nat} {i : Nat}
    (hs : ∀ j ∈ schedule, (calls j).modifiers = (calls i).modifiers) {r : Except (SErr N U) (Transaction N S U)}
    (hr : ((SharedWorld.start m).run calls schedule).stage i = .done r) : r = Alone (calls i) := by
  refine C124_undisturbed_partial calls m ?_ hr
  intro pre post e hread
  rcases run_modifiers (m := m) (m' := (calls i).modifiers) (i := i) (schedule := pre) (w := SharedWorld.start m)
    (fun j hj => hs j (by rw [e]; simp [hj])) (Or.inr rfl) with h | h
  · exact h
  · rw [h] at hread
    exact hread.elim

/-- C124: calls that follow one another never disturb each other, whatever their modifiers and whatever was in the pool: a call that
runs without a switch gives what it gives alone, wherever it is in the schedule, if it has not begun before; and what it gives stays. -/
theorem C124_one_after_the_other (calls : Nat → SolveCall N S U) (m : Option (Modifiers N)) {pre post : List Nat} {i : Nat}
    (hpre : i ∉ pre) :
    ((SharedWorld.start m).run calls (pre ++ [i, i, i, i] ++ post)).stage i = .done (Alone (calls i)) := by
  have h0 : ∀ {pre : List Nat} {w : SharedWorld N S U}, i ∉ pre → (w.run calls pre).stage i = w.stage i := by
    intro pre
    induction pre with
    | nil => intro w _; rfl
    | cons x pre ih =>
      intro w hx
      rw [List.mem_cons, not_or] at hx
      show ((w.step calls x).run calls pre).stage i = _
      rw [ih hx.2]
      simp only [SharedWorld.step, fset, if_neg hx.1]
  have h1 : ∀ {post : List Nat} {w : SharedWorld N S U} {r}, w.stage i = .done r → (w.run calls post).stage i = .done r := by
    intro post
    induction post with
    | nil => intro w r h; exact h
    | cons x post ih =>
      intro w r h
      refine ih (w := w.step calls x) ?_
      by_cases hx : i = x
      · subst hx
        simp only [SharedWorld.step, fset, if_pos, h, SolveCall.step]
      · simp only [SharedWorld.step, fset, if_neg hx, h]
  rw [run_append, run_append]
  apply h1
  have hw := h0 (w := SharedWorld.start m) hpre
  generalize (SharedWorld.start m).run calls pre = w at hw
  show (((((w.step calls i).step calls i).step calls i).step calls i)).stage i = _
  have e1 : (w.step calls i).stage i = .ready ∧ (w.step calls i).modifiers = (calls i).modifiers := by
    simp [SharedWorld.step, fset, hw, SharedWorld.start, SolveCall.step]
  generalize w.step calls i = w1 at e1
  rw [solve_phases]
  have e2 : (w1.step calls i).modifiers = (calls i).modifiers ∧ (w1.step calls i).stage i =
      (match createRules (calls i).solver (calls i).orders ((calls i).pool (calls i).modifiers) (calls i).converted with
        | .error e => .done (.error (.pkg e))
        | .ok st => .ruled st) := by
    simp only [SharedWorld.step, fset, if_pos, e1.1, e1.2, SolveCall.step]
    exact ⟨trivial, rfl⟩
  generalize w1.step calls i = w2 at e2
  cases hc : createRules (calls i).solver (calls i).orders ((calls i).pool (calls i).modifiers) (calls i).converted with
  | error e =>
    rw [hc] at e2
    simp only [SharedWorld.step, fset, if_pos, e2.2, SolveCall.step]
  | ok st =>
    rw [hc] at e2
    have e3 : (w2.step calls i).modifiers = (calls i).modifiers ∧ (w2.step calls i).stage i =
        (match search (calls i).orders ((calls i).pool (calls i).modifiers) st with
          | .error e => .done (.error (.sat e))
          | .ok a => .searched st a) := by
      simp only [SharedWorld.step, fset, if_pos, e2.1, e2.2, SolveCall.step]
      exact ⟨trivial, rfl⟩
    generalize w2.step calls i = w3 at e3
    cases ha : search (calls i).orders ((calls i).pool (calls i).modifiers) st with
    | error e =>
      rw [ha] at e3
      simp only [SharedWorld.step, fset, if_pos, e3.2, SolveCall.step, ha]
    | ok a =>
      rw [ha] at e3
      simp only [SharedWorld.step, fset, if_pos, e3.1, e3.2, SolveCall.step, ha]

/-! ## Concrete cases -/

namespace SharedExample
open Verif.Pkg.Example Verif.Solve.Example SolveExample

/-- 1-1 depends on 2 == 1, but only 2-2 is there -/
def shared : DependencySolver Nat Str Nat := solver [] [pkg 0 1 1 [depc 2 (.equal (v 1))], pkg 0 2 2, pkg 0 3 1]

/-- call 0 asks for 1 without modifiers, call 1 for 3 with `allow_any` for 2, all others for 3 without modifiers -/
def calls : Nat → SolveCall Nat Str Nat
  | 0 => ⟨shared, insertionOrder, request [install (req 1)]⟩
  | 1 => ⟨shared, insertionOrder, ⟨Modifiers.empty.addAny 2, [install (req 3)]⟩⟩
  | _ => ⟨shared, insertionOrder, request [install (req 3)]⟩

/-- the outcome of a call that is over -/
def over : Stage Nat Str Nat → Option (Except PErr (List (Op Nat Str Nat) × List (Op Nat Str Nat)))
  | .done r => solved r
  | _ => none

/-- the call has raised SatisfiabilityError -/
def failed : Stage Nat Str Nat → Bool
  | .done (.error (.sat (.satisfiability _))) => true
  | _ => false

/-- C124 fails: call 1 begins while call 0 is about to generate its rules; then call 0 returns a transaction although its request cannot
be satisfied -/
theorem C124_violated : over (((SharedWorld.start none).run calls [0, 1, 0, 0, 0]).stage 0) =
      some (.ok ([.install (pkg 0 2 2), .install (pkg 0 1 1 [depc 2 (.equal (v 1))])],
        [.install (pkg 0 2 2), .install (pkg 0 1 1 [depc 2 (.equal (v 1))])])) ∧
    failed (.done (Alone (calls 0))) = true := by
  constructor
  · decide +kernel
  · decide +kernel

/-- the other way round: a call with modifiers fails because a call without modifiers begins -/
theorem C124_violated_failure :
    failed (((SharedWorld.start none).run (fun i => if i = 0 then ⟨shared, insertionOrder, ⟨Modifiers.empty.addAny 2, [install (req 1)]⟩⟩
        else calls 2) [0, 1, 0, 0, 0]).stage 0) = true ∧
    solved (Alone ⟨shared, insertionOrder, ⟨Modifiers.empty.addAny 2, [install (req 1)]⟩⟩) =
      some (.ok ([.install (pkg 0 2 2), .install (pkg 0 1 1 [depc 2 (.equal (v 1))])],
        [.install (pkg 0 2 2), .install (pkg 0 1 1 [depc 2 (.equal (v 1))])])) := by
  constructor
  · decide +kernel
  · decide +kernel

/-- the hypotheses of `C124_same_modifiers` are met by the calls 0 and 2, here interleaved; call 0 fails as it should, call 2 succeeds -/
example : (∀ j ∈ [0, 2, 2, 0, 0, 2, 2], (calls j).modifiers = (calls 2).modifiers) ∧
    over (((SharedWorld.start none).run calls [0, 2, 2, 0, 0, 2, 2]).stage 2) =
      some (.ok ([.install (pkg 0 3 1)], [.install (pkg 0 3 1)])) ∧
    failed (((SharedWorld.start none).run calls [0, 2, 2, 0, 0, 2, 2]).stage 0) = true := by
  have e : ∀ j ∈ [0, 2, 2, 0, 0, 2, 2], (calls j).modifiers = (calls 2).modifiers := by
    intro j hj
    have : j = 0 ∨ j = 2 := by simp at hj; omega
    rcases this with rfl | rfl <;> rfl
  exact ⟨e, by decide +kernel, by decide +kernel⟩

/-- the hypothesis of `C124_undisturbed_partial` is met by call 2 although call 1 has begun before it and ends after it -/
example : Undisturbed calls (SharedWorld.start none) [1, 2, 2, 2, 2, 1] 2 := by
  intro pre post e hr
  have hlen : pre.length < 5 := by
    by_contra hn
    have h1 := congrArg (fun l => l[pre.length]?) e
    have h2 : pre.length = 5 ∨ 6 ≤ pre.length := by omega
    rcases h2 with h2 | h2
    · simp [h2] at h1
    · have := congrArg List.length e
      simp at this
      omega
  have hpre : pre = [1, 2, 2, 2, 2, 1].take pre.length := by rw [e]; simp
  generalize pre.length = n at hlen hpre
  subst hpre
  match n, hlen with
  | 0, _ => exact hr.elim
  | 1, _ => exact hr.elim
  | 2, _ => rfl
  | 3, _ => rfl
  | 4, _ => rfl

end SharedExample

end Verif.Props
