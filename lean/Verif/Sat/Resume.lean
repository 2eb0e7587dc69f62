import Verif.Sat.Final
/-
A search that is interrupted, and started again on the same MiniSATSolver object.
-/
namespace Verif.Sat
open Verif
namespace Solver

/-- The policy and the solver after `turns` turns of the loop of `search()`, which began at level `root`, if the search has not ended by then;
minisat.py:422-451. -/
def afterTurns {σ : Type} (pol : Policy σ) (root : Nat) : Nat → σ → Solver → Option (σ × Solver)
  | 0, ps, s => some (ps, s)
  | turns + 1, ps, s => match turn pol root ps s with
    | .next ps s => afterTurns pol root turns ps s
    | _ => none

/-- What an exception leaves behind that comes from outside while `search()` runs (KeyboardInterrupt, for example), when `turns` turns of its
loop are over: the next turn has not begun, or, if `asking` is set, it has come as far as to ask the policy (the exception may come from a
policy of the user, which then is in the state that it was in before); minisat.py:422-437. Simplification: the exception does not come within
`propagate` (see `cutShort`), `analyze`, `cancel_until` or `record`. -/
def interrupted {σ : Type} (pol : Policy σ) (turns : Nat) (asking : Bool) (ps : σ) (s : Solver) : Option (σ × Solver) :=
  match afterTurns pol s.decisionLevel turns ps s with
  | none => none
  | some (ps, s) => if asking then
      match propagate s.propFuel s with
      | .ok (s, none) => if s.allAssigned then none else some (ps, s)
      | _ => none
    else some (ps, s)

/-- What an exception leaves behind that comes while `propagate()` runs, when `lits` literals of the queue are finished, the next one has been
taken off, and `done` of the clauses that watch it have been handled. The others are only in the local list `clauses`; minisat.py:369-395. -/
def cutShort : Nat → Nat → Solver → Option Solver
  | lits, done, s => match s.propQueue with
    | [] => none
    | lit :: queue =>
      let pending := (s.watches lit).reverse
      let s := { s with propQueue := queue, watches := fset s.watches lit [] }
      match lits with
      | 0 => match propClauses lit (pending.take done) s with
        | .ok (s, none) => some s
        | _ => none
      | lits + 1 => match propClauses lit pending s with
        | .ok (s, none) => cutShort lits done s
        | _ => none

theorem Inv.mono {R R' F U D} {s : Solver} (h : Inv R F U D s) (hR : R ≤ R') : Inv R' F U D s := by
  refine ⟨h.base, h.limS, ?_, h.cs, h.wid, ?_, h.q⟩
  · intro c hc l hl
    obtain ⟨h1, h2⟩ := h.units c hc l hl
    exact ⟨h1, by omega⟩
  · intro c hc a b r hl
    have aux : ∀ {x y : Int}, WOk R s (fun _ k => k ∈ s.propQueue) c x y → WOk R' s (fun _ k => k ∈ s.propQueue) c x y := by
      intro x y hxy hx
      rcases hxy hx with e | ⟨e1, e2⟩
      · exact Or.inl e
      · exact Or.inr ⟨e1, by omega⟩
    exact ⟨aux (h.wv c hc a b r hl).1, aux (h.wv c hc a b r hl).2⟩

/-- every state in which `search()` is called with the invariant is the head of a search that begins there -/
theorem At.begin {R F U D} {s : Solver} (h : Inv R F U D s) (hcov : Covers F s) (hR : R ≤ s.decisionLevel) :
    At s.decisionLevel s F U D s :=
  ⟨h.mono hR, hcov, List.suffix_rfl, List.suffix_rfl, fun _ hp => h.base.levLe hp, rfl⟩

section
variable {σ : Type} {pol : Policy σ} {F : List (List Int)} {U V : List Int} {D : Int → List Int → Prop} {PI : σ → Prop}
variable (hpol : pol.OK U V D PI) (hV : ∀ v ∈ V, ∃ c ∈ F, ∃ l ∈ c, iabs l = v)
variable {R : Nat} {s0 : Solver} (hl0 : ∀ n ∈ s0.trailLim, n < s0.trail.length)
include hpol hV hl0

/-- the loop of a search that began in the state `s0` -/
theorem searchLoop_root (fuel : Nat) {ps : σ} {s : Solver} (h : At R s0 F U D s) (hps : PI ps) :
    (∃ s', searchLoop pol R fuel ps s = .ok (s', s'.assignments.copy) ∧ At R s0 F U D s' ∧ s'.propQueue = [] ∧
      ∀ v ∈ s'.assignments.seen, s'.val v ≠ none) ∨
    (∃ e s', searchLoop pol R fuel ps s = .error (e, s') ∧ ((∃ u, e = .satisfiability u) ∨ (0 < R ∧ e = .assertion)) ∧
      ¬ ∃ m, Sat m F ∧ ∀ p, Decided s0 p → litTrue m p) ∨
    (∃ s', searchLoop pol R fuel ps s = .error (.outOfFuel, s') ∧
      fuel + weight U.length s ≤ U.length * (U.length + 1) ^ U.length) := by
  induction fuel generalizing ps s with
  | zero => right; right; exact ⟨s, rfl, by have := weight_le h.inv.base; omega⟩
  | succ fuel ih =>
    simp only [searchLoop]
    rcases turn_root hl0 hpol hV h hps with ⟨s', h1, h2⟩ | ⟨e, s', h1, h2, h3, -⟩ | ⟨ps', s', h1, h2, h3, h4⟩
    · rw [h1]; exact Or.inl ⟨s', rfl, h2⟩
    · rw [h1]; exact Or.inr (Or.inl ⟨e, s', rfl, h2, h3⟩)
    · rw [h1]
      rcases ih (ps := ps') h2 h3 with hh | hh | ⟨s', i1, i2⟩
      · exact Or.inl hh
      · exact Or.inr (Or.inl hh)
      · exact Or.inr (Or.inr ⟨s', i1, by omega⟩)

theorem afterTurns_at (turns : Nat) {ps ps' : σ} {s s' : Solver} (h : At R s0 F U D s) (hps : PI ps)
    (e : afterTurns pol R turns ps s = some (ps', s')) : At R s0 F U D s' ∧ PI ps' := by
  induction turns generalizing ps s with
  | zero => cases e; exact ⟨h, hps⟩
  | succ turns ih =>
    simp only [afterTurns] at e
    rcases turn_root hl0 hpol hV h hps with ⟨s1, h1, -⟩ | ⟨_, s1, h1, -⟩ | ⟨ps1, s1, h1, h2, h3, -⟩
    · rw [h1] at e; simp at e
    · rw [h1] at e; simp at e
    · rw [h1] at e; exact ih h2 h3 e

omit hl0 in
/-- what an interrupted search leaves behind -/
theorem interrupted_inv {turns : Nat} {asking : Bool} {ps ps' : σ} {s s' : Solver} (hI : Inv R F U D s) (hcov : Covers F s)
    (hR : R ≤ s.decisionLevel) (hps : PI ps) (e : interrupted pol turns asking ps s = some (ps', s')) :
    Inv s.decisionLevel F U D s' ∧ Covers F s' ∧ s.decisionLevel ≤ s'.decisionLevel ∧ PI ps' ∧
      s.trail <:+ s'.trail ∧ s.trailLim <:+ s'.trailLim := by
  unfold interrupted at e
  cases ha : afterTurns pol s.decisionLevel turns ps s with
  | none => rw [ha] at e; simp at e
  | some r =>
    obtain ⟨ps1, s1⟩ := r
    rw [ha] at e
    obtain ⟨hat, hp1⟩ := afterTurns_at hpol hV hI.limS turns (At.begin hI hcov hR) hps ha
    simp only at e
    cases asking with
    | false =>
      simp only [Bool.false_eq_true, if_false] at e
      cases e
      exact ⟨hat.inv, hat.cov, hat.kept.le, hp1, hat.kept.trail, hat.kept.lim⟩
    | true =>
      simp only [if_true] at e
      obtain ⟨s2, r, g1, g2, g3, g4⟩ := propagate_spec s1.propFuel hat.inv (by unfold propFuel ASet.len; omega)
      rw [g1] at e
      cases r with
      | some c => simp at e
      | none =>
        simp only at e
        split at e
        · simp at e
        · cases e
          obtain ⟨hI2, -⟩ := g3 rfl
          have hk := hat.kept.ext hat.inv.base hI2.base g2
          exact ⟨hI2, hat.cov.ext g2, hk.le, hp1, hk.trail, hk.lim⟩

end
end Solver
end Verif.Sat
