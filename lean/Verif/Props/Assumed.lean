import Verif.Props.Resumed
/-
Property C136: `MiniSATSolver.assume` and `search`: a search under assumptions.
-/
set_option linter.unusedSectionVars false
namespace Verif.Props
open Verif Verif.Sat

/-! ### Specification -/

/-- A MiniSATSolver made from the rules `G`, on which for every `p` of the list (the last one first in the list) `propagate()` was called,
which returned None, and then `assume(p)`, for a `p` that had no value. -/
inductive Assumed (G : List (List Int)) : List Int → Solver → Prop where
  | made {s} : Solver.fromRules G = .ok s → Assumed G [] s
  | assume {ps s s' p} : Assumed G ps s → Solver.propagate s.propFuel s = .ok (s', none) → p ≠ 0 → iabs p ∈ varsOf G →
      s'.assignments.value p = none → Assumed G (p :: ps) (s'.assume p)

/-! ### Proofs -/

theorem Policy.OK.anyD {σ : Type} {pol : Policy σ} {U V : List Int} {D : Int → List Int → Prop} {PI : σ → Prop} (h : pol.OK U V D PI) :
    pol.OK U V (fun _ _ => True) PI where
  step := by
    intro ps a cs t h1 h2 h3 h4 h5 h6 h7
    obtain ⟨ps', a', p, k1, k2, k3, k4, k5, k6, -⟩ := h.step ps a cs t h1 h2 h3 h4 h5 h6 h7
    exact ⟨ps', a', p, k1, k2, k3, k4, k5, k6, trivial⟩

section
variable {U : List Int} {G : List (List Int)} (hU : ∀ v ∈ varsOf G, v ∈ U)
variable (hnz : ∀ c ∈ G, ∀ l ∈ c, l ≠ 0)
include hU hnz

theorem assumed_state {ps : List Int} {s : Solver} (h : Assumed G ps s) :
    Solver.Inv s.decisionLevel (nonempty G) U (fun _ _ => True) s ∧ Solver.Covers (nonempty G) s ∧ ∀ q, Solver.Decided s q ↔ q ∈ ps := by
  induction h with
  | @made s hs =>
    rcases fromRules_head (D := fun _ _ => True) G hnz hU with ⟨s1, h1, h2, -, h3⟩ | ⟨u, h1, -⟩
    · rw [h1] at hs; cases hs
      refine ⟨h2.inv.mono (Nat.zero_le _), h2.cov, fun q => ⟨?_, by simp⟩⟩
      rintro ⟨r, -, hr⟩
      rw [List.length_eq_zero_iff.1 h3] at hr
      simp at hr
    · rw [h1] at hs; simp at hs
  | @assume ps s s' p _ hp hp0 hpV hv ih =>
    obtain ⟨hI, hcov, hdec⟩ := ih
    obtain ⟨s1, r, g1, g2, g3, -⟩ := Solver.propagate_spec s.propFuel hI (by unfold Solver.propFuel ASet.len; omega)
    rw [g1] at hp; cases hp
    obtain ⟨hI', hq⟩ := g3 rfl
    obtain ⟨j1, j2, j3, j4, j5, -⟩ := Solver.assume_spec hI' hq hv hp0 (hU _ hpV) trivial
    have hdl : s.decisionLevel ≤ (s'.assume p).decisionLevel := by
      unfold Solver.decisionLevel; rw [j3, g2.lim]; simp
    refine ⟨j1.mono hdl, ?_, ?_⟩
    · intro c hc hne
      obtain ⟨cid, h1, h2⟩ := hcov.ext g2 c hc hne
      refine ⟨cid, by rw [j4]; exact h1, ?_⟩
      intro l
      have : (s'.assume p).litsOf cid = s'.litsOf cid := by unfold Solver.litsOf; rw [j5]
      rw [this]; exact h2 l
    · intro q
      rw [List.mem_cons, ← hdec]
      unfold Solver.Decided
      rw [j2, j3, g2.lim]
      constructor
      · rintro ⟨r, hr, hl⟩
        rcases List.suffix_cons_iff.1 hr with e | e
        · cases e; exact Or.inl rfl
        · have hlen := e.length_le
          simp only [List.length_cons] at hlen
          rcases List.mem_cons.1 hl with hl | hl
          · omega
          · exact Or.inr ⟨r, Solver.suffix_pos g2.trail e (hI.limS _ hl), hl⟩
      · rintro (rfl | ⟨r, hr, hl⟩)
        · exact ⟨s'.trail, List.suffix_rfl, by simp⟩
        · exact ⟨r, (hr.trans g2.trail).trans (List.suffix_cons _ _), by simp [hl]⟩

theorem assumed_decisions {ps : List Int} {s : Solver} (h : Assumed G ps s) (q : Int) : q ∈ decisions s ↔ q ∈ ps := by
  rw [← decided_iff_decisions]; exact (assumed_state hU hnz h).2.2 q

theorem assumed_satisfiable {ps : List Int} {s : Solver} (h : Assumed G ps s) :
    SatisfiableWith G (decisions s) ↔ SatisfiableWith G ps := by
  unfold SatisfiableWith
  simp only [assumed_decisions hU hnz h]

/-- C136: after `propagate()`, what has a value follows from the rules and the assumptions. -/
theorem C136_implied {ps : List Int} {s s' : Solver} (h : Assumed G ps s) (hp : Solver.propagate s.propFuel s = .ok (s', none)) {l : Int}
    (hl : s'.assignments.value l = some true) {m : Nat → Bool} (hm : Sat m G) (hps : ∀ p ∈ ps, litTrue m p) : litTrue m l := by
  obtain ⟨hI, hcov, hdec⟩ := assumed_state hU hnz h
  obtain ⟨s1, r, g1, g2, g3, -⟩ := Solver.propagate_spec s.propFuel hI (by unfold Solver.propFuel ASet.len; omega)
  rw [g1] at hp; cases hp
  obtain ⟨hI', hq⟩ := g3 rfl
  obtain ⟨r, hr⟩ := Solver.mem_suffix ((hI'.base.vT l).1 hl)
  refine hI'.base.implied (fun c hc => hm c (List.mem_filter.1 hc).1) s'.trail.length ?_ l r hr (by
    have := hr.length_le; simp only [List.length_cons] at this; omega)
  intro p r hp hlen _ _
  rw [g2.lim] at hlen
  exact hps p ((hdec p).1 ⟨r, Solver.suffix_pos g2.trail hp (hI.limS _ hlen), hlen⟩)

/-- C136: if `propagate()` returns a clause, the rules have no solution with the assumptions. -/
theorem C136_conflict {ps : List Int} {s s' : Solver} {c : Nat} (h : Assumed G ps s)
    (hp : Solver.propagate s.propFuel s = .ok (s', some c)) : ¬ SatisfiableWith G ps := by
  obtain ⟨hI, hcov, hdec⟩ := assumed_state hU hnz h
  obtain ⟨s1, r, g1, g2, -, g4⟩ := Solver.propagate_spec s.propFuel hI (by unfold Solver.propFuel ASet.len; omega)
  rw [g1] at hp; cases hp
  have hC := g4 c rfl
  obtain ⟨_, _, _, -, -, -, hno, -⟩ := Solver.conflict_root hC (by unfold Solver.decisionLevel; rw [g2.lim])
    ((Solver.At.begin hI hcov (Nat.le_refl _)).kept.ext hI.base hC.base g2) hI.limS
  rintro ⟨m, h1, h2⟩
  exact hno ⟨m, fun c hc => h1 c (List.mem_filter.1 hc).1, fun p hp => h2 p ((hdec p).1 hp)⟩

variable {σ : Type} {pol : Policy σ} {D : Int → List Int → Prop} {PI : σ → Prop} (hpol : pol.OK U (varsOf G) D PI)
variable (hne : ∀ c ∈ G, c ≠ [])
include hpol hne

/-- C136: a search under assumptions ends. It returns a solution of the rules in which the assumptions are true, or it raises an exception,
SatisfiabilityError or AssertionError; then there is no such solution. (Missing: that it is always SatisfiabilityError. It is not:
`C136_violated`.) -/
theorem C136_search_partial {as : List Int} {s : Solver} (h : Assumed G as s) {ps : σ} (hps : PI ps) {fuel : Nat}
    (hf : enoughFuel U.length ≤ fuel) :
    (∃ s' a, s.search pol fuel ps = .ok (s', a) ∧ (∀ c ∈ G, ∃ l ∈ c, a.value l = some true) ∧ ∀ p ∈ as, a.value p = some true) ∨
    (∃ e s', s.search pol fuel ps = .error (e, s') ∧ ((∃ u, e = .satisfiability u) ∨ (as ≠ [] ∧ e = .assertion)) ∧ ¬ SatisfiableWith G as) := by
  obtain ⟨hI, hcov, hdec⟩ := assumed_state hU hnz h
  rcases search_from (Policy.OK.anyD hpol) hU hnz hne hI hcov hps hf with ⟨s', a, h1, h2, h3⟩ | ⟨e, s', h1, h2, h3⟩
  · exact Or.inl ⟨s', a, h1, h2, fun p hp => h3 p (mem_trail_of_decision ((assumed_decisions hU hnz h p).2 hp))⟩
  · refine Or.inr ⟨e, s', h1, h2.imp id (fun hh => ⟨?_, hh.2⟩), fun hs => h3 ((assumed_satisfiable hU hnz h).2 hs)⟩
    rintro rfl
    have hlim : s.trailLim ≠ [] := by
      intro hl; have := hh.1; unfold Solver.decisionLevel at this; rw [hl] at this; simp at this
    cases hl : s.trailLim with
    | nil => exact hlim hl
    | cons n lim =>
      have hn := hI.limS n (by rw [hl]; simp)
      have : s.trail.reverse[n]'(by simpa using hn) ∈ decisions s := by
        unfold decisions
        rw [List.mem_filterMap]
        exact ⟨n, by rw [hl]; simp, by simp [hn]⟩
      exact absurd ((assumed_decisions hU hnz h _).1 this) (by simp)

/-- C136: it returns exactly if the rules have a solution in which the assumptions are true. -/
theorem C136_succeeds_iff {as : List Int} {s : Solver} (h : Assumed G as s) {ps : σ} (hps : PI ps) {fuel : Nat}
    (hf : enoughFuel U.length ≤ fuel) :
    (∃ r, s.search pol fuel ps = .ok r) ↔ SatisfiableWith G as := by
  obtain ⟨hI, hcov, -⟩ := assumed_state hU hnz h
  rw [← assumed_satisfiable hU hnz h]
  exact search_from_iff (Policy.OK.anyD hpol) hU hnz hne hI hcov hps hf

end

/-! ### The violations -/

/-- Specification of a program: `from_rules`; for every assumption `propagate()` (if `checked` is set) and `assume`; then `search()`. The first
element of the list is assumed last. -/
def searchAssuming (rules : List (List Int)) (checked : Bool) (as : List Int) : Option (Except (Err × Solver) (Solver × ASet)) :=
  (go as).map (fun s => s.search defaultPolicy 100 ())
where
  go : List Int → Option Solver
  | [] => match Solver.fromRules rules with
    | .ok s => some s
    | .error _ => none
  | p :: as => match go as with
    | none => none
    | some s => if checked then
        match Solver.propagate s.propFuel s with
        | .ok (s, none) => some (s.assume p)
        | _ => none
      else some (s.assume p)

/-- the exception that ends it -/
def exceptionOf : Option (Except (Err × Solver) (Solver × ASet)) → Option Err
  | some (.error (e, _)) => some e
  | _ => none

/-- C136 (violated): 1, and "if 1 and 2 then 3", and "not 1, 2 and 3": with the assumption 2 there is no solution, but the search raises
AssertionError, not SatisfiabilityError. -/
theorem C136_violated :
    exceptionOf (searchAssuming [[1], [-1, -2, 3], [-1, -2, -3]] true [2]) = some .assertion ∧
    outcome [1, 2, 3] (searchAssuming [[1], [-1, -2, 3], [-1, -2, -3]] true [-2]) = some (.ok [some true, some false, some true]) := by
  constructor <;> decide +kernel

/-- Without the calls of `propagate()` in between (which the theorems above need), a search under assumptions that contradict the rules may
also end with IndexError. -/
theorem C136_violated_unchecked :
    exceptionOf (searchAssuming [[-1, -2], [3, 4]] false [3, 2, 1]) = some .indexError := by
  decide +kernel

/-- the hypotheses of the theorems can be met: the assumptions 1 and -3 are made, the second one after the first has been propagated. The search
returns. -/
example : ∃ s, Assumed [[-1, 2], [3, 4]] [-3, 1] s ∧
    defaultPolicy.OK (varsOf [[-1, 2], [3, 4]]) (varsOf [[-1, 2], [3, 4]]) (fun _ _ => True) (fun _ => True) ∧
    (∀ c ∈ [[-1, 2], [3, 4]], ∀ l ∈ c, l ≠ (0 : Int)) ∧ ∃ r, s.search defaultPolicy 100 () = .ok r :=
  ⟨_, .assume (.assume (.made rfl) rfl (by decide) (by decide) rfl) rfl (by decide) (by decide) rfl, defaultPolicy_ok _ _, by decide, _, rfl⟩

/-- and those of `C136_implied` (2 follows) and `C136_conflict` -/
example : (∃ s s', Assumed [[-1, 2], [3, 4]] [1] s ∧ Solver.propagate s.propFuel s = .ok (s', none) ∧ s'.assignments.value 2 = some true) ∧
    ∃ s s' c, Assumed [[-1, 2], [-1, -2]] [1] s ∧ Solver.propagate s.propFuel s = .ok (s', some c) :=
  ⟨⟨_, _, .assume (.made rfl) rfl (by decide) (by decide) rfl, rfl, rfl⟩,
    ⟨_, _, _, .assume (.made rfl) rfl (by decide) (by decide) rfl, rfl⟩⟩

end Verif.Props
