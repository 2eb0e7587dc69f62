import Verif.Solve.UnsatComplete
import Verif.Props.Unsat
/-
Property C67: what an explanation of SatisfiabilityError shows.
-/
set_option linter.unusedSectionVars false
namespace Verif.Props
open Verif Verif.Pkg Verif.Solve Verif.Rules Verif.Graph Verif.Sat

variable {N S U : Type} [LinearOrder N] [DecidableEq S] [LinearOrder U] [Syntax S U]
variable {rs : List (Repository N S U)} {s : DependencySolver N S U}

/-- where an explanation comes from -/
theorem explanation_origin {T : Texts N U} {o : Orders} {xo : XOrders} {q : Request N U} {x : Explanation N U}
    (h : s.solveExplained T o xo q = .error (.unsat x)) :
    ∃ st sv u x0 m, createRules s o (s.solvePool q) (convertUpgrade q s.remote s.installed) = .ok st ∧
      searchX o (s.solvePool q) st = .error (.satisfiability u, sv) ∧
      mkExplanation xo (evidenceOf sv st.gen.rules) u.conflict u.learned = .ok x0 ∧ x = { x0 with memo := m } := by
  unfold DependencySolver.solveExplained at h
  simp only [solvePool_convert] at h
  cases hst : createRules s o (s.solvePool q) (convertUpgrade q s.remote s.installed) with
  | error e => rw [hst] at h; cases h
  | ok st =>
    rw [hst] at h
    simp only at h
    split at h
    · next u sv hx =>
      simp only [Except.error.injEq] at h
      unfold raiseUnsat at h
      split at h
      · cases h
      · next x0 h0 =>
        split at h
        · cases h
        · next t x1 h1 =>
          cases h
          unfold Explanation.toText at h1
          split at h1
          · cases h1
          · cases h1
            exact ⟨st, sv, u, x0, _, rfl, hx, h0, rfl⟩
    · cases h
    · split at h <;> cases h

/-- The rules that took part in finding the contradiction: those of the clause in conflict, of the clause that had assigned
the conflicting literal, and of all clauses used for them or for what was learned from the conflict. -/
def InvolvedRule (x : Explanation N U) (conflict learned : Nat) (r : Rule N U) : Prop :=
  ∃ c, Involved x.evidence conflict learned x.implicand c ∧ x.evidence.rule c = some r

/-- C67, the part that holds. What the explanation starts from is complete and shows that the literal in conflict cannot be
true: every rule involved is a generated rule; the clauses kept for the explanation are those of the rules involved that
have requirements, all of them; and every assignment that satisfies the rules involved makes the literal false. If in
addition the clause that had assigned the literal consists of this literal, no assignment satisfies the rules involved.
(Missing: why the literal has to be true is left out if it was assigned by a longer clause, and the paths that are reported
may leave out more, or everything: see `C67_names_too_little` and `C67_names_nothing`.) -/
theorem C67_derivation_partial (hs : SolverFor rs s) {T : Texts N U} {o : Orders} {xo : XOrders} {q : Request N U}
    {x : Explanation N U} (h : s.solveExplained T o xo q = .error (.unsat x)) :
    ∃ st, createRules s o (s.solvePool q) (convertUpgrade q s.remote s.installed) = .ok st ∧
      ∃ conflict learned,
        (∀ r, InvolvedRule x conflict learned r → r ∈ st.gen.rules) ∧
        (∀ c, c ∈ x.details ↔ Involved x.evidence conflict learned x.implicand c ∧
          ∃ r, x.evidence.rule c = some r ∧ r.requirements ≠ []) ∧
        (∀ m, (∀ r, InvolvedRule x conflict learned r → SatC m r.literals) → ¬ litTrue m x.implicand) ∧
        ((∃ a, x.evidence.assigning (iabs x.implicand) = some a ∧ x.evidence.lits a = [x.implicand]) →
          ∀ m, ¬ ∀ r, InvolvedRule x conflict learned r → SatC m r.literals) := by
  obtain ⟨st, sv, u, x0, memo, hst, hx, h0, rfl⟩ := explanation_origin h
  have hb := hs.solvePool q
  have hspec := createRules_spec hb hs hst
  obtain ⟨p1, p2, p3, p4, p5⟩ := solveRulesX_fail (st.gen.rules.map Rule.literals)
    (packagePolicy_contract o.policyPerm (hspec.hids hb)) (fun v hv => by simp [idsOf, hv]) (hspec.hnz hb)
    (start_inv _ _ _) _ hx
  have hj := solveRulesX_justified (st.gen.rules.map Rule.literals)
    (packagePolicy_contract o.policyPerm (hspec.hids hb)) (fun v hv => by simp [idsOf, hv]) (hspec.hnz hb)
    (start_inv _ _ _) _ hx
  obtain ⟨x1, k1, k2⟩ := mkExplanation_spec xo (fun r hr => (solvePool_known hs hst hr).1) p1 p2 p4 p5
  rw [h0] at k1
  cases k1
  have hs' := sane_of_prov p1 st.gen.rules
  have hdet := mkExplanation_complete p1 p2 p4 h0
  have hev : x0.evidence = evidenceOf sv st.gen.rules := k2.evidence
  have hroot : ∀ b, Root x0.evidence u.conflict u.learned x0.implicand b → b < sv.nextId := by
    intro b hroot
    cases hroot with
    | conflict => exact p2
    | learned => exact p4
    | assigning k => rw [hev] at k; exact p1.assigned _ _ k
  have hlt : ∀ c, Involved x0.evidence u.conflict u.learned x0.implicand c → c < sv.nextId := by
    rintro c ⟨b, hroot', rfl | hu⟩
    · exact hroot _ hroot'
    · rw [hev] at hu; exact uses_lt hs' hu (hroot _ hroot')
  -- a clause whose involved rules hold, holds
  have hholds : ∀ m, (∀ r, InvolvedRule x0 u.conflict u.learned r → SatC m r.literals) → ∀ b,
      Root x0.evidence u.conflict u.learned x0.implicand b → 0 < b → SatC m (x0.evidence.lits b) := by
    intro m hm b hroot' hb0
    have hbn := hroot b hroot'
    rw [hev]
    cases hl : (evidenceOf sv st.gen.rules).learned b with
    | true =>
      refine uses_justify p1 hj (b + 1) b (by omega) hbn hl ?_
      intro d r hu hr
      exact hm r ⟨d, ⟨b, hroot', Or.inr (by rw [hev]; exact hu)⟩, by rw [hev]; exact hr⟩
    | false =>
      rcases p1.cell b hb0 hbn with ⟨k1, -, -⟩ | ⟨-, j, lits, g1, g2, g3⟩
      · have hl' : (sv.heap b).learned = false := hl
        rw [k1] at hl'; cases hl'
      · rw [List.getElem?_map] at g2
        cases hr : st.gen.rules[j]? with
        | none => rw [hr] at g2; cases g2
        | some r =>
          rw [hr] at g2
          cases g2
          have hrule : (evidenceOf sv st.gen.rules).rule b = some r := by
            show ((sv.heap b).rule).bind (fun i => st.gen.rules[i]?) = some r
            rw [g1]
            exact hr
          obtain ⟨l, i1, i2⟩ := hm r ⟨b, ⟨b, hroot', Or.inl rfl⟩, by rw [hev]; exact hrule⟩
          exact ⟨l, g3.mem_iff.2 ((mem_fromkeys _ _).2 i1), i2⟩
  have hfalse : ∀ m, (∀ r, InvolvedRule x0 u.conflict u.learned r → SatC m r.literals) → litTrue m (-x0.implicand) := by
    intro m hm
    obtain ⟨l, i1, i2⟩ := hholds m hm u.learned .learned p3
    rw [k2.implicand, List.mem_singleton] at i1
    rw [← i1]
    exact i2
  have hrules : ∀ r, InvolvedRule x0 u.conflict u.learned r → r ∈ st.gen.rules := by
    rintro r ⟨c, hc, hr⟩
    rw [hev] at hr
    exact (rule_of_prov p1 (hlt c hc) hr).1
  have hnz : ∀ m, (∀ r, InvolvedRule x0 u.conflict u.learned r → SatC m r.literals) → x0.implicand ≠ 0 := by
    intro m hm h0
    -- 0 is no package, its value does not matter
    have := hfalse (fun v => if v = 0 then true else m v) (by
      intro r hr
      obtain ⟨l, i1, i2⟩ := hm r hr
      refine ⟨l, i1, ?_⟩
      have hl : l ≠ 0 := hspec.hnz hb r.literals (List.mem_map_of_mem (hrules r hr)) l i1
      unfold litTrue at i2 ⊢
      show (if l.natAbs = 0 then true else m l.natAbs) = _
      rw [if_neg (by omega)]
      exact i2)
    rw [h0] at this
    unfold litTrue at this
    simp at this
  refine ⟨st, hst, u.conflict, u.learned, ?_, ?_, ?_, ?_⟩
  · exact hrules
  · intro c
    rw [← hasReqs_iff]
    exact (hdet c).trans And.comm
  · intro m hm
    exact (litTrue_neg m (hnz m hm)).1 (hfalse m hm)
  · rintro ⟨a, ha, hla⟩ m hm
    have ha0 : 0 < a := by
      rcases Nat.eq_zero_or_pos a with rfl | k
      · have : x0.evidence.lits 0 = [x0.implicand] := hla
        rw [hev] at this
        have h2 : (sv.heap 0).lits = [x0.implicand] := this
        rw [p1.zero] at h2
        cases h2
      · exact k
    obtain ⟨l, i1, i2⟩ := hholds m hm a (.assigning ha) ha0
    have hla' : x0.evidence.lits a = [x0.implicand] := hla
    rw [hla', List.mem_singleton] at i1
    subst i1
    exact (litTrue_neg m (hnz m hm)).1 (hfalse m hm) i2

end Verif.Props
