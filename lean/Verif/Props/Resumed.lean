import Verif.Sat.Resume
import Verif.Props.SatCore
import Verif.Props.Shared
/-
Property C135: a search that was interrupted, and started again.
-/
set_option linter.unusedSectionVars false
namespace Verif.Props
open Verif Verif.Sat Verif.Pkg Verif.Solve

/-! ### Specification -/

/-- A MiniSATSolver made from the rules `G`, on which `search()` was called any number of times and each time interrupted, anywhere between
two turns of its loop or when it asked the policy. `PI` is what is known about the state of the policy. -/
inductive Interrupted {σ : Type} (pol : Policy σ) (PI : σ → Prop) (G : List (List Int)) : Solver → Prop where
  | made {s} : Solver.fromRules G = .ok s → Interrupted pol PI G s
  | again {s s' : Solver} {ps ps' : σ} {turns : Nat} {asking : Bool} : Interrupted pol PI G s → PI ps →
      Solver.interrupted pol turns asking ps s = some (ps', s') → Interrupted pol PI G s'

/-- The decisions in force: `[solver.trail[n] for n in solver.trail_lim]` (the model has the trail the other way round) -/
def decisions (s : Solver) : List Int := s.trailLim.filterMap (fun n => s.trail.reverse[n]?)

/-- there are truth values that satisfy all of `G` and agree with the decisions `ds` -/
def SatisfiableWith (G : List (List Int)) (ds : List Int) : Prop := ∃ m, Sat m G ∧ ∀ p ∈ ds, litTrue m p

/-! ### Proofs -/

theorem decided_iff_decisions (s : Solver) (p : Int) : Solver.Decided s p ↔ p ∈ decisions s := by
  unfold decisions
  rw [List.mem_filterMap]
  constructor
  · rintro ⟨r, ⟨pre, hpre⟩, hr⟩
    refine ⟨r.length, hr, ?_⟩
    rw [← hpre, List.reverse_append, List.reverse_cons, List.append_assoc, List.getElem?_append_right (by simp)]
    simp
  · rintro ⟨n, hn, hp⟩
    obtain ⟨hlt, he⟩ := List.getElem?_eq_some_iff.1 hp
    have h1 : s.trail.reverse = s.trail.reverse.take n ++ p :: s.trail.reverse.drop (n + 1) := by
      rw [← he, List.getElem_cons_drop, List.take_append_drop]
    refine ⟨(s.trail.reverse.take n).reverse, ⟨(s.trail.reverse.drop (n + 1)).reverse, ?_⟩, ?_⟩
    · have := congrArg List.reverse h1
      rw [List.reverse_reverse, List.reverse_append, List.reverse_cons, List.append_assoc] at this
      exact this.symm
    · rw [List.length_reverse, List.length_take, Nat.min_eq_left (by omega)]; exact hn

theorem mem_trail_of_decision {s : Solver} {p : Int} (hp : p ∈ decisions s) : p ∈ s.trail := by
  obtain ⟨r, hr, -⟩ := (decided_iff_decisions s p).2 hp
  exact Solver.suffix_mem hr

section
variable {σ : Type} {pol : Policy σ} {U : List Int} {D : Int → List Int → Prop} {PI : σ → Prop}
variable {G : List (List Int)} (hpol : pol.OK U (varsOf G) D PI) (hU : ∀ v ∈ varsOf G, v ∈ U)
variable (hnz : ∀ c ∈ G, ∀ l ∈ c, l ≠ 0) (hne : ∀ c ∈ G, c ≠ [])
include hpol hU hnz

theorem interrupted_state {s : Solver} (h : Interrupted pol PI G s) :
    Solver.Inv s.decisionLevel (nonempty G) U D s ∧ Solver.Covers (nonempty G) s := by
  induction h with
  | @made s hs =>
    rcases fromRules_head (D := D) G hnz hU with ⟨s1, h1, h2, -, -⟩ | ⟨u, h1, -⟩
    · rw [h1] at hs; cases hs
      exact ⟨h2.inv.mono (Nat.zero_le _), h2.cov⟩
    · rw [h1] at hs; simp at hs
  | again _ hps e ih =>
    obtain ⟨k1, k2, k3, -⟩ := Solver.interrupted_inv hpol (varsOf_nonempty G) ih.1 ih.2 (Nat.le_refl _) hps e
    exact ⟨k1.mono k3, k2⟩

include hne

/-- a search that begins in a state with the invariant -/
theorem search_from {s : Solver} (hI : Solver.Inv s.decisionLevel (nonempty G) U D s) (hcov : Solver.Covers (nonempty G) s) {ps : σ}
    (hps : PI ps) {fuel : Nat} (hf : enoughFuel U.length ≤ fuel) :
    (∃ s' a, s.search pol fuel ps = .ok (s', a) ∧ (∀ c ∈ G, ∃ l ∈ c, a.value l = some true) ∧
      ∀ p ∈ s.trail, a.value p = some true) ∨
    (∃ e s', s.search pol fuel ps = .error (e, s') ∧ ((∃ u, e = .satisfiability u) ∨ (0 < s.decisionLevel ∧ e = .assertion)) ∧
      ¬ SatisfiableWith G (decisions s)) := by
  rcases Solver.searchLoop_root hpol (varsOf_nonempty G) hI.limS fuel (Solver.At.begin hI hcov (Nat.le_refl _)) hps with
    ⟨s', k1, k2, k3, k4⟩ | ⟨e, s', k1, k2, k3⟩ | ⟨s', -, k2⟩
  · left
    refine ⟨s', _, k1, ?_, ?_⟩
    · intro c hc
      obtain ⟨cid, hcid, hl⟩ := k2.cov c (by simp [nonempty, hc, hne c hc]) (hne c hc)
      rcases Solver.clause_status k2.inv k3 hcid with ⟨l, h1, h2⟩ | ⟨l, h1, _, _, _, h2, _⟩
      · exact ⟨l, (hl l).1 h1, h2⟩
      · exfalso
        have := k4 _ (k2.inv.cs cid hcid l h1)
        unfold Solver.val ASet.value at this h2
        exact this ((k2.inv.base.aset.iabs_none l).2 h2)
    · intro p hp
      exact (k2.inv.base.vT p).2 (k2.kept.trail.subset hp)
  · right
    refine ⟨e, s', k1, k2, ?_⟩
    rintro ⟨m, h1, h2⟩
    refine k3 ⟨m, fun c hc => h1 c (List.mem_filter.1 hc).1, fun p hp => h2 p ((decided_iff_decisions s p).1 hp)⟩
  · unfold enoughFuel at hf; omega

/-- C135, what holds: after any number of interrupted searches, a further search ends. If it returns, it returns a solution of all the rules;
it keeps the decisions that were in force when it began. If it raises an exception, SatisfiabilityError or AssertionError, then the rules
have no solution with these decisions. (Missing: that it finds a solution with other decisions, if there is one. It does not:
`C135_violated`.) -/
theorem C135_resumed_partial {s : Solver} (h : Interrupted pol PI G s) {ps : σ} (hps : PI ps) {fuel : Nat} (hf : enoughFuel U.length ≤ fuel) :
    (∃ s' a, s.search pol fuel ps = .ok (s', a) ∧ (∀ c ∈ G, ∃ l ∈ c, a.value l = some true) ∧
      ∀ p ∈ decisions s, a.value p = some true) ∨
    (∃ e s', s.search pol fuel ps = .error (e, s') ∧ ((∃ u, e = .satisfiability u) ∨ e = .assertion) ∧
      ¬ SatisfiableWith G (decisions s)) := by
  obtain ⟨hI, hcov⟩ := interrupted_state hpol hU hnz h
  rcases search_from hpol hU hnz hne hI hcov hps hf with ⟨s', a, h1, h2, h3⟩ | ⟨e, s', h1, h2, h3⟩
  · exact Or.inl ⟨s', a, h1, h2, fun p hp => h3 p (mem_trail_of_decision hp)⟩
  · exact Or.inr ⟨e, s', h1, h2.imp id And.right, h3⟩

/-- the search succeeds exactly if there is a solution with the decisions in force -/
theorem search_from_iff {s : Solver} (hI : Solver.Inv s.decisionLevel (nonempty G) U D s) (hcov : Solver.Covers (nonempty G) s) {ps : σ}
    (hps : PI ps) {fuel : Nat} (hf : enoughFuel U.length ≤ fuel) :
    (∃ r, s.search pol fuel ps = .ok r) ↔ SatisfiableWith G (decisions s) := by
  have := search_from hpol hU hnz hne hI hcov hps hf
  constructor
  · rintro ⟨⟨s1, a1⟩, hr⟩
    rcases this with ⟨s', a, h1, h2, h3⟩ | ⟨e, s', h1, -⟩
    · -- the values of the solution
      refine ⟨fun n => decide (a.value (n : Int) = some true), ?_, ?_⟩
      all_goals
        have hval : ∀ l : Int, l ≠ 0 → a.value l = some true → litTrue (fun n => decide (a.value (n : Int) = some true)) l := by
          have hwf : a.WF := by
            rcases Solver.searchLoop_root hpol (varsOf_nonempty G) hI.limS fuel (Solver.At.begin hI hcov (Nat.le_refl _)) hps with
              ⟨s2, k1, k2, -⟩ | ⟨e, s2, k1, -⟩ | ⟨s2, k1, -⟩
            · have : s.search pol fuel ps = _ := k1
              rw [h1] at this; cases this
              have hw := k2.inv.base.aset
              exact ⟨hw.neg, hw.asg, hw.sub, hw.spos, hw.snd, hw.asnd⟩
            · have : s.search pol fuel ps = _ := k1
              rw [h1] at this; cases this
            · have : s.search pol fuel ps = _ := k1
              rw [h1] at this; cases this
          intro l hl hv
          unfold litTrue
          show decide (a.value ((l.natAbs : Nat) : Int) = some true) = decide (0 < l)
          by_cases hp : 0 < l
          · have : ((l.natAbs : Nat) : Int) = l := by omega
            rw [this, hv]; simp [hp]
          · have e : ((l.natAbs : Nat) : Int) = -l := by omega
            have : a.value (-l) = some false := by
              have := hwf.neg l
              unfold ASet.value at hv ⊢
              rw [this, hv]; rfl
            rw [e, this]; simp [hp]
      · intro c hc
        obtain ⟨l, hl, hv⟩ := h2 c hc
        exact ⟨l, hl, hval l (hnz c hc l hl) hv⟩
      · intro p hp
        refine hval p ?_ (h3 p (mem_trail_of_decision hp))
        exact hI.base.tnz p (mem_trail_of_decision hp)
    · rw [hr] at h1; cases h1
  · intro hs
    rcases this with ⟨s', a, h1, -⟩ | ⟨e, s', -, -, h3⟩
    · exact ⟨_, h1⟩
    · exact absurd hs h3

/-- C135: so for rules that have a solution, the search that was started again finds one exactly if there is one with the decisions that were
in force. -/
theorem C135_succeeds_iff_partial {s : Solver} (h : Interrupted pol PI G s) {ps : σ} (hps : PI ps) {fuel : Nat}
    (hf : enoughFuel U.length ≤ fuel) :
    (∃ r, s.search pol fuel ps = .ok r) ↔ SatisfiableWith G (decisions s) := by
  obtain ⟨hI, hcov⟩ := interrupted_state hpol hU hnz h
  exact search_from_iff hpol hU hnz hne hI hcov hps hf

/-- C135: a search that was interrupted while no decision was in force can be started again without restrictions: it returns a solution or
raises SatisfiabilityError, and this only if there is none. -/
theorem C135_before_decisions {s : Solver} (h : Interrupted pol PI G s) (h0 : decisions s = []) {ps : σ} (hps : PI ps) {fuel : Nat}
    (hf : enoughFuel U.length ≤ fuel) :
    (∃ s' a, s.search pol fuel ps = .ok (s', a) ∧ ∀ c ∈ G, ∃ l ∈ c, a.value l = some true) ∨
    (∃ u s', s.search pol fuel ps = .error (.satisfiability u, s') ∧ ¬ Satisfiable G) := by
  obtain ⟨hI, hcov⟩ := interrupted_state hpol hU hnz h
  rcases C135_resumed_partial hpol hU hnz hne h hps hf with ⟨s', a, h1, h2, -⟩ | ⟨e, s', h1, h2, h3⟩
  · exact Or.inl ⟨s', a, h1, h2⟩
  · right
    have hno : ¬ Satisfiable G := by
      rintro ⟨m, hm⟩
      exact h3 ⟨m, hm, by rw [h0]; simp⟩
    have hlim : s.decisionLevel = 0 := by
      unfold Solver.decisionLevel
      cases hl : s.trailLim with
      | nil => rfl
      | cons n lim =>
        exfalso
        have hn := hI.limS n (by rw [hl]; simp)
        have hd : s.trail.reverse[n]? = some (s.trail.reverse[n]'(by simpa using hn)) := by simp [hn]
        have hmem : s.trail.reverse[n]'(by simpa using hn) ∈ decisions s := by
          unfold decisions
          rw [List.mem_filterMap]
          exact ⟨n, by rw [hl]; simp, hd⟩
        rw [h0] at hmem
        simp at hmem
    rcases Solver.searchLoop_root hpol (varsOf_nonempty G) hI.limS fuel (Solver.At.begin hI hcov (Nat.le_refl _)) hps with
      ⟨s2, k1, -⟩ | ⟨e', s2, k1, k2, -⟩ | ⟨s2, -, k2⟩
    · have : s.search pol fuel ps = _ := k1
      rw [h1] at this; cases this
    · have : s.search pol fuel ps = _ := k1
      rw [h1] at this; cases this
      rcases k2 with ⟨u, rfl⟩ | ⟨h4, -⟩
      · exact ⟨u, s', h1, hno⟩
      · omega
    · unfold enoughFuel at hf; omega

end

/-- C135: for `DependencySolver.solve` the property holds. Calls on the same pool may have been interrupted in any of their phases (`pre`,
in which they need not come to an end); a call that then begins gives what it gives on a fresh pool. (Each call makes a solver object of
its own.) -/
theorem C135_solve {N S U : Type} [LinearOrder N] [DecidableEq S] [LinearOrder U] [Syntax S U] (calls : Nat → SolveCall N S U)
    (m : Option (Modifiers N)) {pre : List Nat} {i : Nat} (hpre : i ∉ pre) :
    ((SharedWorld.start m).run calls (pre ++ [i, i, i, i])).stage i = .done (Alone (calls i)) := by
  simpa using C124_one_after_the_other calls m (post := []) hpre

/-! ### The violations -/

/-- Specification of a program: `from_rules`, a search that is interrupted after `turns` turns, and then a search that is not -/
def searchTwice (rules : List (List Int)) (turns : Nat) : Option (Except (Err × Solver) (Solver × ASet)) :=
  match Solver.fromRules rules with
  | .ok s => match Solver.interrupted defaultPolicy turns false () s with
    | some (ps, s) => some (s.search defaultPolicy 100 ps)
    | none => none
  | .error _ => none

/-- what is seen of it: the values of `vs`, or whether the exception is SatisfiabilityError (otherwise it is AssertionError) -/
def outcome (vs : List Int) : Option (Except (Err × Solver) (Solver × ASet)) → Option (Except Bool (List (Option Bool)))
  | some (.ok (_, a)) => some (.ok (vs.map a.value))
  | some (.error (.satisfiability _, _)) => some (.error true)
  | some (.error (.assertion, _)) => some (.error false)
  | _ => none

/-- C135 (violated): "if 1 then 2", "if 2 then 3", "not both 2 and 3" have a solution, and a search finds one. But if a search was interrupted
after its first turn (it has decided that 1 is true), the next search raises SatisfiabilityError. -/
theorem C135_violated :
    outcome [1, 2, 3] (searchTwice [[-1, 2], [-2, 3], [-2, -3]] 0) = some (.ok [some false, some false, some true]) ∧
    outcome [1, 2, 3] (searchTwice [[-1, 2], [-2, 3], [-2, -3]] 1) = some (.error true) := by
  constructor <;> decide +kernel

/-- C135 (violated): or it ends with AssertionError, since the explanation that is made of the conflict takes it that the conflict follows from
the rules alone -/
theorem C135_violated_assertion :
    outcome [1, 2, 3] (searchTwice [[-1, -2, 3], [-1, -2, -3]] 0) = some (.ok [some true, some false, some true]) ∧
    outcome [1, 2, 3] (searchTwice [[-1, -2, 3], [-1, -2, -3]] 2) = some (.error false) := by
  constructor <;> decide +kernel

/-- Specification of a program: `from_rules`; for every element of the list (the last one first in the list) a search that is interrupted after
`turns` turns, while the next turn runs `propagate()`; and then a search that is not -/
def searchCut (rules : List (List Int)) (cuts : List (Nat × Nat × Nat)) : Option (Except (Err × Solver) (Solver × ASet)) :=
  (go cuts).map (fun s => s.search defaultPolicy 100 ())
where
  go : List (Nat × Nat × Nat) → Option Solver
  | [] => match Solver.fromRules rules with
    | .ok s => some s
    | .error _ => none
  | (turns, lits, done) :: cuts => match go cuts with
    | none => none
    | some s => match Solver.afterTurns defaultPolicy s.decisionLevel turns () s with
      | some (_, s) => Solver.cutShort lits done s
      | none => none

/-- C135 (violated): worse, if exceptions come while the consequences of decisions are worked out, the clauses that are not yet handled
are lost, and the next search returns a "solution" that is none: after two interruptions, 1 and 2 are both true, against the rule "not both
1 and 2". -/
theorem C135_violated_lost :
    outcome [1, 2] (searchCut [[-1, -2]] [(1, 0, 0), (1, 0, 0)]) = some (.ok [some true, some true]) ∧
    outcome [1, 2] (searchCut [[-1, -2]] [(1, 0, 0)]) = some (.ok [some true, some false]) := by
  constructor <;> decide +kernel

/-- C135 (violated): even without any decision, and for rules that have no solution: 1, 2, and "not both 1 and 2". -/
theorem C135_violated_lost_at_once :
    outcome [1, 2] (searchCut [[1], [2], [-1, -2]] [(0, 0, 0), (0, 0, 0)]) = some (.ok [some true, some true]) ∧
    outcome [1, 2] (searchCut [[1], [2], [-1, -2]] []) = some (.error true) := by
  constructor <;> decide +kernel

/-- a MiniSATSolver on which `search()` was interrupted once for every element of the list -/
def interruptedAt (rules : List (List Int)) : List (Nat × Bool) → Option Solver
  | [] => match Solver.fromRules rules with
    | .ok s => some s
    | .error _ => none
  | (turns, asking) :: before => match interruptedAt rules before with
    | none => none
    | some s => (Solver.interrupted defaultPolicy turns asking () s).map Prod.snd

theorem interruptedAt_interrupted {rules : List (List Int)} {l : List (Nat × Bool)} {s : Solver} (h : interruptedAt rules l = some s) :
    Interrupted defaultPolicy (fun _ => True) rules s := by
  induction l generalizing s with
  | nil =>
    unfold interruptedAt at h
    split at h
    · rename_i s1 h1; cases h; exact .made h1
    · cases h
  | cons x l ih =>
    unfold interruptedAt at h
    split at h
    · cases h
    · rename_i s1 h1
      cases hi : Solver.interrupted defaultPolicy x.1 x.2 () s1 with
      | none => rw [hi] at h; cases h
      | some r =>
        rw [hi] at h; cases h
        exact .again (ih h1) trivial hi

/-- the hypotheses of the theorems can be met: two interrupted searches, the first after a turn, the second when it asks the policy for the
second time. The decisions 1 and 3 are in force, and the third search returns a solution. -/
example : ∃ s, Interrupted defaultPolicy (fun _ => True) [[-1, 2], [-3, -4], [5, 6]] s ∧ decisions s = [3, 1] ∧
    defaultPolicy.OK (varsOf [[-1, 2], [-3, -4], [5, 6]]) (varsOf [[-1, 2], [-3, -4], [5, 6]]) (fun _ _ => True) (fun _ => True) ∧
    (∀ c ∈ [[-1, 2], [-3, -4], [5, 6]], ∀ l ∈ c, l ≠ (0 : Int)) ∧ ∃ r, s.search defaultPolicy 100 () = .ok r := by
  have h : ((interruptedAt [[-1, 2], [-3, -4], [5, 6]] [(1, true), (1, false)]).map decisions) = some [3, 1] := by decide +kernel
  have hk : ((interruptedAt [[-1, 2], [-3, -4], [5, 6]] [(1, true), (1, false)]).any fun s =>
      (s.search defaultPolicy 100 ()).toOption.isSome) = true := by decide +kernel
  cases hs : interruptedAt [[-1, 2], [-3, -4], [5, 6]] [(1, true), (1, false)] with
  | none => rw [hs] at h; cases h
  | some s =>
    rw [hs] at h hk
    refine ⟨s, interruptedAt_interrupted hs, by simpa using h, defaultPolicy_ok _ _, by decide, ?_⟩
    cases hr : s.search defaultPolicy 100 () with
    | ok r => exact ⟨r, rfl⟩
    | error e => simp [hr, Except.toOption] at hk

/-- and those of `C135_before_decisions`, with a search that was interrupted after it had learned a clause -/
example : ∃ s, Interrupted defaultPolicy (fun _ => True) [[-1, 2], [-1, -2]] s ∧ decisions s = [] ∧ s.clauseTrails.length = 1 := by
  have h : ((interruptedAt [[-1, 2], [-1, -2]] [(2, false)]).map fun s => (decisions s, s.clauseTrails.length)) = some ([], 1) := by
    decide +kernel
  cases hs : interruptedAt [[-1, 2], [-1, -2]] [(2, false)] with
  | none => rw [hs] at h; cases h
  | some s =>
    rw [hs] at h
    simp only [Option.map_some, Option.some.injEq, Prod.mk.injEq] at h
    exact ⟨s, interruptedAt_interrupted hs, h.1, h.2⟩

end Verif.Props
