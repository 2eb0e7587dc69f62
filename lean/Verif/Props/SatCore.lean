import Verif.Sat.Final
/-
Properties C01-C10 (the SAT solver). In all of them

* `G` is an arbitrary finite list of rules, each a list of nonzero integers (`hnz`);
* `pol` is an arbitrary decision policy with an arbitrary state, meeting the contract `Policy.OK` (`hpol`): it
  answers, and with an undecided variable taken from the finite set `U`, whenever some known variable is undecided;
* `fuel` bounds the number of turns of the search loop of the model (C03 shows that enough fuel exists).
-/
namespace Verif.Props
open Verif Verif.Sat

section
variable {σ : Type} {pol : Policy σ} {U : List Int} {D : Int → List Int → Prop} {PI : σ → Prop}
variable {G : List (List Int)} (hpol : pol.OK U (varsOf G) D PI) (hU : ∀ v ∈ varsOf G, v ∈ U)
variable (hnz : ∀ c ∈ G, ∀ l ∈ c, l ≠ 0) {ps : σ} (hps : PI ps)
include hpol hU hnz hps

/-- C01, basic form: every nonempty rule has a literal with value `True` in the returned assignment, and every
variable of the rules has a truth value there, opposite for opposite literals. -/
theorem C01_solution_satisfies_every_rule {fuel : Nat} {a : ASet} (h : solveRules pol fuel ps G = .ok a) :
    (∀ c ∈ G, c ≠ [] → ∃ l ∈ c, a.value l = some true) ∧
    (∀ c ∈ G, ∀ l ∈ c, ∃ b, a.value l = some b ∧ a.value (-l) = some (!b)) := by
  rcases solveRules_spec G hpol hU hnz hps fuel with ⟨s, h1, h2, h3⟩ | ⟨u, h1, -⟩ | ⟨h1, -⟩
  · rw [h1] at h
    cases h
    constructor
    · intro c hc hne
      obtain ⟨cid, k1, k2⟩ := h3 c hc hne
      obtain ⟨l, hl, hv⟩ := h2.clause k1
      exact ⟨l, (k2 l).1 hl, hv⟩
    · intro c hc l hl
      obtain ⟨cid, k1, k2⟩ := h3 c hc (by rintro rfl; simp at hl)
      have hseen := h2.inv.cs cid k1 l ((k2 l).2 hl)
      have hn := h2.all _ hseen
      have hn : s.assignments.data l ≠ none := by
        intro e; exact hn ((h2.inv.base.aset.iabs_none l).2 e)
      cases hv : s.assignments.data l with
      | none => exact absurd hv hn
      | some b =>
        refine ⟨b, hv, ?_⟩
        show s.assignments.data (-l) = _
        rw [h2.inv.base.aset.neg, hv]; rfl
  · rw [h1] at h; simp at h
  · rw [h1] at h; simp at h

/-- C01: the returned assignment, read as a truth assignment `m` of the variables, satisfies the rules, and decides
every variable of the rules. -/
theorem C01_solution_is_a_model (hne : ∀ c ∈ G, c ≠ []) {fuel : Nat} {a : ASet}
    (h : solveRules pol fuel ps G = .ok a) :
    ∃ m : Nat → Bool, Sat m G ∧ ∀ v ∈ varsOf G, a.value v = some (m v.natAbs) := by
  obtain ⟨h1, h2⟩ := C01_solution_satisfies_every_rule hpol hU hnz hps h
  refine ⟨fun n => decide (a.value (n : Int) = some true), ?_, ?_⟩
  · intro c hc
    obtain ⟨l, hl, hv⟩ := h1 c hc (hne c hc)
    refine ⟨l, hl, ?_⟩
    have hl0 := hnz c hc l hl
    show decide (a.value ((l.natAbs : Nat) : Int) = some true) = decide (0 < l)
    obtain ⟨b, hb1, hb2⟩ := h2 c hc l hl
    rw [hv] at hb1; cases hb1
    by_cases hp : 0 < l
    · have e : ((l.natAbs : Nat) : Int) = l := by omega
      rw [e, hv]; simp [hp]
    · have e : ((l.natAbs : Nat) : Int) = -l := by omega
      rw [e, hb2]; simp [hp]
  · intro v hv
    obtain ⟨c, hc, l, hl, rfl⟩ := (mem_varsOf G v).1 hv
    have e : (((iabs l).natAbs : Nat) : Int) = iabs l := by unfold iabs; omega
    simp only [e]
    obtain ⟨b, hb1, hb2⟩ := h2 c hc l hl
    have : ∃ b, a.value (iabs l) = some b := by
      rcases iabs_eq l with k | k <;> rw [k]
      · exact ⟨_, hb1⟩
      · exact ⟨_, hb2⟩
    obtain ⟨b', hb'⟩ := this
    rw [hb']; cases b' <;> simp

/-- C02: SatisfiabilityError means that no assignment satisfies the rules. -/
theorem C02_error_means_unsatisfiable {fuel : Nat} {u : UnsatInfo}
    (h : solveRules pol fuel ps G = .error (.satisfiability u)) : ¬ Satisfiable G := by
  rcases solveRules_spec G hpol hU hnz hps fuel with ⟨s, h1, -⟩ | ⟨u', h1, h2⟩ | ⟨h1, -⟩
  · rw [h1] at h; simp at h
  · rintro ⟨m, hm⟩
    exact h2 ⟨m, fun c hc => hm c (List.mem_filter.1 hc).1⟩
  · rw [h1] at h; simp at h

/-- C03: with at least `enoughFuel |U| = |U|·(|U|+1)^|U| + 1` turns allowed the search is never cut short ... -/
theorem C03_search_terminates {fuel : Nat} (hf : enoughFuel U.length ≤ fuel) :
    solveRules pol fuel ps G ≠ .error .outOfFuel := by
  rcases solveRules_spec G hpol hU hnz hps fuel with ⟨s, h1, -⟩ | ⟨u', h1, h2⟩ | ⟨h1, h2⟩
  · rw [h1]; simp
  · rw [h1]; simp
  · omega

/-- ... and then the bound does not influence the answer. -/
theorem C03_answer_independent_of_bound {fuel : Nat} (hf : enoughFuel U.length ≤ fuel) :
    solveRules pol fuel ps G = solveRules pol (enoughFuel U.length) ps G := by
  have h0 := C03_search_terminates hpol hU hnz hps (Nat.le_refl (enoughFuel U.length))
  obtain ⟨k, rfl⟩ := Nat.exists_eq_add_of_le hf
  unfold solveRules at h0 ⊢
  cases hfr : Solver.fromRules G with
  | error e => rfl
  | ok s =>
    rw [hfr] at h0
    simp only at h0 ⊢
    unfold Solver.search at h0 ⊢
    rw [searchLoop_mono]
    intro s' hs'
    rw [hs'] at h0
    exact h0 rfl

/-- C04: the only possible outcomes are an assignment and SatisfiabilityError (`outOfFuel` is not an outcome of the
program: by C03 it does not occur with enough fuel). -/
theorem C04_no_internal_failure {fuel : Nat} (hf : enoughFuel U.length ≤ fuel) :
    (∃ a, solveRules pol fuel ps G = .ok a) ∨ (∃ u, solveRules pol fuel ps G = .error (.satisfiability u)) := by
  rcases solveRules_spec G hpol hU hnz hps fuel with ⟨s, h1, -⟩ | ⟨u', h1, h2⟩ | ⟨h1, h2⟩
  · exact Or.inl ⟨_, h1⟩
  · exact Or.inr ⟨_, h1⟩
  · omega

/-- C04, for a search stopped early as well: no assertion, IndexError, KeyError or TypeError at any time. -/
theorem C04_no_internal_failure_ever {fuel : Nat} {e : Err} (h : solveRules pol fuel ps G = .error e) :
    (∃ u, e = .satisfiability u) ∨ e = .outOfFuel := by
  rcases solveRules_spec G hpol hU hnz hps fuel with ⟨s, h1, -⟩ | ⟨u', h1, h2⟩ | ⟨h1, h2⟩
  · rw [h1] at h; simp at h
  · rw [h1] at h; cases h; exact Or.inl ⟨_, rfl⟩
  · rw [h1] at h; cases h; exact Or.inr rfl

/-- C05, for one presentation of the rules. -/
theorem C05_decides_satisfiability (hne : ∀ c ∈ G, c ≠ []) {fuel : Nat} (hf : enoughFuel U.length ≤ fuel) :
    ((∃ a, solveRules pol fuel ps G = .ok a) ↔ Satisfiable G) ∧
    ((∃ u, solveRules pol fuel ps G = .error (.satisfiability u)) ↔ ¬ Satisfiable G) := by
  have h1 : (∃ a, solveRules pol fuel ps G = .ok a) → Satisfiable G := by
    rintro ⟨a, ha⟩
    obtain ⟨m, hm, -⟩ := C01_solution_is_a_model hpol hU hnz hps hne ha
    exact ⟨m, hm⟩
  have h2 : (∃ u, solveRules pol fuel ps G = .error (.satisfiability u)) → ¬ Satisfiable G := by
    rintro ⟨u, hu⟩
    exact C02_error_means_unsatisfiable hpol hU hnz hps hu
  rcases C04_no_internal_failure hpol hU hnz hps hf with h | h
  · exact ⟨⟨h1, fun _ => h⟩, ⟨h2, fun hn => absurd (h1 h) hn⟩⟩
  · exact ⟨⟨h1, fun hs => absurd hs (h2 h)⟩, ⟨h2, fun _ => h⟩⟩

end

/-- C05: two presentations of the same set of clauses (each clause of one is, as a set of literals, a clause of the
other), solved with two policies, get the same answer. -/
theorem C05_order_and_policy_independent {σ σ' : Type} {pol : Policy σ} {pol' : Policy σ'} {U U' D D' PI PI'}
    {G G' : List (List Int)} (hpol : pol.OK U (varsOf G) D PI) (hpol' : pol'.OK U' (varsOf G') D' PI')
    (hU : ∀ v ∈ varsOf G, v ∈ U) (hU' : ∀ v ∈ varsOf G', v ∈ U')
    (hnz : ∀ c ∈ G, ∀ l ∈ c, l ≠ 0) (hne : ∀ c ∈ G, c ≠ [])
    (hsame : ∀ c ∈ G, ∃ c' ∈ G', ∀ l, l ∈ c ↔ l ∈ c') (hsame' : ∀ c' ∈ G', ∃ c ∈ G, ∀ l, l ∈ c ↔ l ∈ c')
    {ps : σ} {ps' : σ'} (hps : PI ps) (hps' : PI' ps') {fuel fuel' : Nat}
    (hf : enoughFuel U.length ≤ fuel) (hf' : enoughFuel U'.length ≤ fuel') :
    (∃ a, solveRules pol fuel ps G = .ok a) ↔ (∃ a, solveRules pol' fuel' ps' G' = .ok a) := by
  have hnz' : ∀ c ∈ G', ∀ l ∈ c, l ≠ 0 := by
    intro c hc l hl
    obtain ⟨d, hd, e⟩ := hsame' c hc
    exact hnz d hd l ((e l).2 hl)
  have hne' : ∀ c ∈ G', c ≠ [] := by
    rintro c hc rfl
    obtain ⟨d, hd, e⟩ := hsame' [] hc
    exact hne d hd (List.eq_nil_iff_forall_not_mem.2 fun l hl => by simpa using (e l).1 hl)
  rw [(C05_decides_satisfiability hpol hU hnz hps hne hf).1, (C05_decides_satisfiability hpol' hU' hnz' hps' hne' hf').1]
  constructor
  · rintro ⟨m, hm⟩
    refine ⟨m, fun c hc => ?_⟩
    obtain ⟨d, hd, e⟩ := hsame' c hc
    obtain ⟨l, hl, ht⟩ := hm d hd
    exact ⟨l, (e l).1 hl, ht⟩
  · rintro ⟨m, hm⟩
    refine ⟨m, fun c hc => ?_⟩
    obtain ⟨d, hd, e⟩ := hsame c hc
    obtain ⟨l, hl, ht⟩ := hm d hd
    exact ⟨l, (e l).2 hl, ht⟩

/-! ### C06: the empty clause. The code violates the property: `add_clause` records it in `solver.status`, which
nothing reads. -/

/-- C06 is false of the code: a solver given an empty clause returns a solution. -/
theorem C06_violated : ∃ G : List (List Int), [] ∈ G ∧ ∃ a, solveRules defaultPolicy 10 () G = .ok a :=
  ⟨[[], [1]], by decide, _, rfl⟩

/-- More precisely, empty clauses are ignored by the search altogether: an answer is found exactly when the nonempty
clauses are satisfiable. -/
theorem C06_empty_clauses_are_ignored {σ : Type} {pol : Policy σ} {U D PI} {G : List (List Int)}
    (hpol : pol.OK U (varsOf G) D PI) (hU : ∀ v ∈ varsOf G, v ∈ U) (hnz : ∀ c ∈ G, ∀ l ∈ c, l ≠ 0) {ps : σ} (hps : PI ps)
    {fuel : Nat} (hf : enoughFuel U.length ≤ fuel) :
    (∃ a, solveRules pol fuel ps G = .ok a) ↔ Satisfiable (G.filter (fun c => decide (c ≠ []))) := by
  constructor
  · rintro ⟨a, ha⟩
    obtain ⟨h1, h2⟩ := C01_solution_satisfies_every_rule hpol hU hnz hps ha
    refine ⟨fun n => decide (a.value (n : Int) = some true), ?_⟩
    intro c hc
    simp only [List.mem_filter, decide_eq_true_eq] at hc
    obtain ⟨l, hl, hv⟩ := h1 c hc.1 hc.2
    refine ⟨l, hl, ?_⟩
    have hl0 := hnz c hc.1 l hl
    show decide (a.value ((l.natAbs : Nat) : Int) = some true) = decide (0 < l)
    obtain ⟨b, hb1, hb2⟩ := h2 c hc.1 l hl
    rw [hv] at hb1; cases hb1
    by_cases hp : 0 < l
    · have e : ((l.natAbs : Nat) : Int) = l := by omega
      rw [e, hv]; simp [hp]
    · have e : ((l.natAbs : Nat) : Int) = -l := by omega
      rw [e, hb2]; simp [hp]
  · intro hs
    rcases solveRules_spec G hpol hU hnz hps fuel with ⟨s, h1, -⟩ | ⟨u', h1, h2⟩ | ⟨h1, h2⟩
    · exact ⟨_, h1⟩
    · exact absurd hs h2
    · omega

theorem addClauseObj_status {s s' : Solver} {cid : Nat} (h : s.addClauseObj cid = .ok s') :
    s'.status = if s.litsOf cid = [] then some false else s.status := by
  unfold Solver.addClauseObj at h
  split at h
  · rename_i e; cases h; simp [e]
  · rename_i l e
    have : (s.enqueue l cid).1.status = s.status := by unfold Solver.enqueue; split <;> rfl
    revert h
    cases hq : s.enqueue l cid with
    | mk s1 ok =>
      rw [hq] at this
      simp only
      cases ok <;> simp
      rintro rfl; simpa [e] using this
  · rename_i e; cases h; simp [e]; rfl

theorem addRules_status (G : List (List Int)) (i : Nat) {s s' : Solver} (h : s.addRules i G = .ok s') :
    s'.status = if [] ∈ G then some false else s.status := by
  induction G generalizing i s with
  | nil => simp only [Solver.addRules] at h; cases h; simp
  | cons c G ih =>
    simp only [Solver.addRules] at h
    cases hc : s.addClause c (some i) with
    | error e => rw [hc] at h; simp at h
    | ok s1 =>
      rw [hc] at h
      have h1 := ih (i + 1) h
      unfold Solver.addClause at hc
      have h2 : s1.status = if (s.alloc (Clause.new c false (some i))).1.litsOf (s.alloc (Clause.new c false (some i))).2 = []
          then some false else (s.alloc (Clause.new c false (some i))).1.status := addClauseObj_status hc
      have h3 : (s.alloc (Clause.new c false (some i))).1.litsOf (s.alloc (Clause.new c false (some i))).2 = fromkeys c := by
        show (fset s.heap s.nextId (Clause.new c false (some i)) s.nextId).lits = _
        rw [fset_same]; rfl
      have h4 : (s.alloc (Clause.new c false (some i))).1.status = s.status := rfl
      rw [h3, h4] at h2
      rw [h1, h2]
      have hk := Solver.fromkeys_eq_nil c
      have hs : ([] : List Int) = c ↔ c = [] := eq_comm
      by_cases hce : c = [] <;> by_cases hG : [] ∈ G <;> simp [hk, hs, hce, hG, show fromkeys ([] : List Int) = [] from rfl]

/-- C06, the part that holds: the flag `solver.status` is set to `False` exactly when an empty clause was added.
Missing from the full property: `search()` does not look at the flag. -/
theorem C06_status_flag_partial (G : List (List Int)) {s : Solver} (h : Solver.fromRules G = .ok s) :
    s.status = some false ↔ [] ∈ G := by
  unfold Solver.fromRules at h
  cases hr : Solver.init.addRules 0 G with
  | error e => rw [hr] at h; simp at h
  | ok s1 =>
    rw [hr] at h
    simp only [Except.ok.injEq] at h
    subst h
    have := addRules_status G 0 hr
    show s1.status = some false ↔ _
    rw [this]
    by_cases hG : [] ∈ G <;> simp [hG, Solver.init]

/-! ### Properties of all states of a search -/

section
variable {σ : Type} {pol : Policy σ} {U : List Int} {D : Int → List Int → Prop} {PI : σ → Prop}
variable {G : List (List Int)} (hpol : pol.OK U (varsOf G) D PI) (hU : ∀ v ∈ varsOf G, v ∈ U)
variable (hnz : ∀ c ∈ G, ∀ l ∈ c, l ≠ 0) {ps0 : σ} (hps : PI ps0)
include hpol hU hnz hps

/-- C07: at every turn of the search every clause of the solver is a consequence of the rules, and every
(nonempty) rule is still one of the clauses, up to the order and repetition of its literals. -/
theorem C07_clauses_are_consequences {ps : σ} {s : Solver} (h : Reach pol G ps0 ps s) :
    (∀ cid ∈ s.clauses, Entails G (s.litsOf cid)) ∧
    (∀ c ∈ G, c ≠ [] → ∃ cid ∈ s.clauses, ∀ l, l ∈ s.litsOf cid ↔ l ∈ c) := by
  have hh := (h.head hpol hU hnz hps).1
  constructor
  · intro cid hc m hm
    exact hh.inv.base.cent cid hc m (fun c hc => hm c (List.mem_filter.1 hc).1)
  · intro c hc hne
    exact hh.cov c (by simp [nonempty, hc, hne]) hne

/-- C07 for the state in which SatisfiabilityError is raised. -/
theorem C07_clauses_at_failure {ps : σ} {s : Solver} (h : Reach pol G ps0 ps s) {e : Err} {s' : Solver}
    (ht : Solver.turn pol 0 ps s = .fail e s') : ∀ cid ∈ s'.clauses, Entails G (s'.litsOf cid) := by
  obtain ⟨hh, hp⟩ := h.head hpol hU hnz hps
  rcases Solver.turn_spec hpol (varsOf_nonempty G) hh hp with ⟨s', k1, -⟩ | ⟨u, s', k1, -, k2⟩ | ⟨ps', s', k1, -⟩
  · rw [k1] at ht; simp at ht
  · rw [k1] at ht; cases ht
    intro cid hc m hm
    exact k2 cid hc m (fun c hc => hm c (List.mem_filter.1 hc).1)
  · rw [k1] at ht; simp at ht

/-- C08: `propagate()` never fails. If it returns `None` then every clause has a true literal or two undecided ones
(so none is falsified and none is unit). If it returns a clause then that is a clause of the solver with all
literals false. -/
theorem C08_propagation_complete {ps : σ} {s : Solver} (h : Reach pol G ps0 ps s) :
    ∃ s' r, Solver.propagate s.propFuel s = .ok (s', r) ∧
      (r = none → ∀ cid ∈ s'.clauses, (∃ l ∈ s'.litsOf cid, s'.val l = some true) ∨
        (∃ l ∈ s'.litsOf cid, ∃ k ∈ s'.litsOf cid, l ≠ k ∧ s'.val l = none ∧ s'.val k = none)) ∧
      (∀ cid, r = some cid → cid ∈ s'.clauses ∧ ∀ l ∈ s'.litsOf cid, s'.val l = some false) := by
  obtain ⟨⟨hi, hcov⟩, -⟩ := h.head hpol hU hnz hps
  obtain ⟨s', r, g1, g2, g3, g4⟩ := Solver.propagate_spec s.propFuel hi (by unfold Solver.propFuel ASet.len; omega)
  refine ⟨s', r, g1, ?_, ?_⟩
  · intro hr cid hc
    obtain ⟨k1, k2⟩ := g3 hr
    exact Solver.clause_status k1 k2 hc
  · intro cid hr
    have k := g4 cid hr
    exact ⟨k.mem, fun l hl => (k.base.vF l).2 (k.fls l hl)⟩

/-- C08: propagation keeps the clauses (up to literal order), keeps the assigned literals, and each literal it assigns
is true in every truth assignment that satisfies the clauses of the solver and the literals assigned before. -/
theorem C08_propagation_correct {ps : σ} {s : Solver} (h : Reach pol G ps0 ps s) {s' : Solver} {r : Option Nat}
    (hp : Solver.propagate s.propFuel s = .ok (s', r)) :
    s'.clauses = s.clauses ∧ (∀ cid, (s'.litsOf cid).Perm (s.litsOf cid)) ∧
    (∀ l b, s.val l = some b → s'.val l = some b) ∧
    (∀ m : Nat → Bool, (∀ cid ∈ s.clauses, SatC m (s.litsOf cid)) → (∀ l, s.val l = some true → litTrue m l) →
      ∀ l, s'.val l = some true → litTrue m l) := by
  obtain ⟨⟨hi, hcov⟩, -⟩ := h.head hpol hU hnz hps
  obtain ⟨s1, r1, g1, g2, g3, g4⟩ := Solver.propagate_spec s.propFuel hi (by unfold Solver.propFuel ASet.len; omega)
  rw [g1] at hp
  simp only [Except.ok.injEq, Prod.mk.injEq] at hp
  obtain ⟨rfl, rfl⟩ := hp
  have hb : Solver.Base (nonempty G) U D s1 := by
    cases r1 with
    | none => exact (g3 rfl).1.base
    | some c => exact (g4 c rfl).base
  have hsub : ∀ l ∈ s.trail, l ∈ s1.trail := fun l hl => g2.trail.subset hl
  refine ⟨g2.clauses, g2.lits, ?_, ?_⟩
  · intro l b hv
    cases b with
    | true => exact (hb.vT l).2 (hsub _ ((hi.base.vT l).1 hv))
    | false => exact (hb.vF l).2 (hsub _ ((hi.base.vF l).1 hv))
  · intro m hm hv l hl
    apply Solver.trail_forced hb ?_ ?_ l ((hb.vT l).1 hl)
    · intro cid hc
      rw [g2.clauses] at hc
      obtain ⟨l, hl, ht⟩ := hm cid hc
      exact ⟨l, (g2.lits cid).mem_iff.2 hl, ht⟩
    · intro p q hpq hlim
      rw [g2.lim] at hlim
      have hlt := hi.limS _ hlim
      have hsuf : (p :: q) <:+ s.trail :=
        List.suffix_of_suffix_length_le hpq g2.trail (by simp only [List.length_cons]; omega)
      exact hv p ((hi.base.vT p).2 (Solver.suffix_mem hsuf))

/-- C09: at every turn, before or after propagation, `cancel_until(k)` keeps exactly the literals assigned at levels
`0..k`, with their values, and makes every other variable undecided. -/
theorem C09_cancel_until_restores {ps : σ} {s : Solver} (h : Reach pol G ps0 ps s) {s' : Solver}
    (hs' : s' = s ∨ ∃ r, Solver.propagate s.propFuel s = .ok (s', r)) {k : Nat} (hk : k ≤ s'.decisionLevel) (l : Int) :
    (s'.cancelUntil k).val l = (if s'.levels (iabs l) ≤ (k : Int) then s'.val l else none) ∧
    (s'.cancelUntil k).decisionLevel = k := by
  obtain ⟨⟨hi, hcov⟩, -⟩ := h.head hpol hU hnz hps
  have hb : Solver.Base (nonempty G) U D s' := by
    rcases hs' with rfl | ⟨r, hp⟩
    · exact hi.base
    · obtain ⟨s1, r1, g1, g2, g3, g4⟩ := Solver.propagate_spec s.propFuel hi (by unfold Solver.propFuel ASet.len; omega)
      rw [g1] at hp
      simp only [Except.ok.injEq, Prod.mk.injEq] at hp
      obtain ⟨rfl, rfl⟩ := hp
      cases r1 with
      | none => exact (g3 rfl).1.base
      | some c => exact (g4 c rfl).base
  obtain ⟨c1, c2, c3, c4, c5⟩ := Solver.cancelUntil_spec k hb hk
  refine ⟨?_, c3⟩
  have hT := c4 l
  have hF := c4 (-l)
  rw [iabs_neg] at hF
  rcases Solver.val_cases hb l with hv | hv | hv
  · by_cases hle : s'.levels (iabs l) ≤ (k : Int)
    · rw [if_pos hle, (hb.vT l).2 hv]
      exact (c1.vT l).2 (hT.2 ⟨hv, hle⟩)
    · rw [if_neg hle]
      rcases Solver.val_cases c1 l with w | w | w
      · exact absurd (hT.1 w).2 hle
      · exact absurd (hF.1 w).2 hle
      · exact w
  · by_cases hle : s'.levels (iabs l) ≤ (k : Int)
    · rw [if_pos hle, (hb.vF l).2 hv]
      exact (c1.vF l).2 (hF.2 ⟨hv, hle⟩)
    · rw [if_neg hle]
      rcases Solver.val_cases c1 l with w | w | w
      · exact absurd (hT.1 w).2 hle
      · exact absurd (hF.1 w).2 hle
      · exact w
  · rw [hv]
    have hn : ∀ x, x = l ∨ x = -l → x ∉ s'.trail := by
      rintro x (rfl | rfl) hx
      · rw [← hb.vT, hv] at hx; simp at hx
      · rw [← hb.vF, hv] at hx; simp at hx
    rcases Solver.val_cases c1 l with w | w | w
    · exact absurd (hT.1 w).1 (hn l (Or.inl rfl))
    · exact absurd (hF.1 w).1 (hn (-l) (Or.inr rfl))
    · rw [w]; simp

end

/-- C10: `validate(solution)` is true exactly when every clause has a literal made true by the solution map. -/
theorem C10_validate_iff (s : Solver) (solution : List (Int × Bool)) (hpos : ∀ kv ∈ solution, 0 < kv.1) :
    s.validate solution = true ↔
      ∀ cid ∈ s.clauses, ∃ l ∈ s.litsOf cid, (iabs l, decide (0 < l)) ∈ solution := by
  have key : ∀ l : Int, l ∈ solution.map (fun (v, st) => if st then v else -v) ↔ (iabs l, decide (0 < l)) ∈ solution := by
    intro l
    rw [List.mem_map]
    constructor
    · rintro ⟨⟨v, st⟩, hm, e⟩
      have hv := hpos _ hm
      simp only at hv e
      cases st with
      | true =>
        simp only [if_true] at e; subst e
        rw [iabs_of_pos hv]; simpa [hv] using hm
      | false =>
        simp only [Bool.false_eq_true, if_false] at e
        have h1 : iabs l = v := by unfold iabs; omega
        have h2 : ¬ 0 < l := by omega
        rw [h1]; simpa [h2] using hm
    · intro hm
      refine ⟨_, hm, ?_⟩
      have := hpos _ hm
      simp only at this
      by_cases hp : 0 < l
      · simp only [hp, decide_true, if_true]; unfold iabs; omega
      · simp only [hp, decide_false, Bool.false_eq_true, if_false]; unfold iabs; omega
  unfold Solver.validate
  simp only [Bool.not_eq_true', List.any_eq_false, List.all_eq_true, Bool.not_eq_true', decide_eq_false_iff_not]
  constructor
  · intro h cid hc
    apply Classical.byContradiction
    intro hn
    exact h cid hc (fun l hl hm => hn ⟨l, hl, (key l).1 hm⟩)
  · intro h cid hc hall
    obtain ⟨l, hl, hm⟩ := h cid hc
    exact hall l hl ((key l).2 hm)

/-- C10: `validate` accepts every solution returned by `search()`. The solution map is `items()` of the returned
assignment set. -/
theorem C10_validate_accepts_solutions {σ : Type} {pol : Policy σ} {U D PI} {G : List (List Int)}
    (hpol : pol.OK U (varsOf G) D PI) (hU : ∀ v ∈ varsOf G, v ∈ U) (hnz : ∀ c ∈ G, ∀ l ∈ c, l ≠ 0) {ps : σ} (hps : PI ps)
    {fuel : Nat} {s s' : Solver} {a : ASet} (h : Solver.fromRules G = .ok s)
    (hs : s.search pol fuel ps = .ok (s', a)) :
    (∀ kv ∈ a.items, kv.2 ≠ none) ∧
    s'.validate (a.items.map (fun kv => (kv.1, decide (kv.2 = some true)))) = true := by
  rcases fromRules_head (D := D) G hnz hU with ⟨s0, h1, h2, h3, hroot⟩ | ⟨u, h1, h2⟩
  rotate_left
  · rw [h1] at h; simp at h
  rw [h1] at h; cases h
  unfold Solver.search at hs
  rw [hroot] at hs
  rcases Solver.searchLoop_spec hpol (varsOf_nonempty G) fuel h2 hps with
      ⟨s1, k1, k2⟩ | ⟨u, s1, k1, k2, -⟩ | ⟨s1, k1, k2⟩
  · rw [k1] at hs
    simp only [Except.ok.injEq, Prod.mk.injEq] at hs
    obtain ⟨rfl, rfl⟩ := hs
    have hw := k2.inv.base.aset
    have hitems : ∀ k v, (k, v) ∈ s1.assignments.copy.items ↔ k ∈ s1.assignments.seen ∧ v = s1.assignments.data k := by
      intro k v
      unfold ASet.items
      simp only [List.mem_map, isort_mem, Prod.mk.injEq]
      constructor
      · rintro ⟨k', hk', rfl, rfl⟩; exact ⟨hk', rfl⟩
      · rintro ⟨hk, rfl⟩; exact ⟨k, hk, rfl, rfl⟩
    constructor
    · rintro ⟨k, v⟩ hm
      obtain ⟨hk, rfl⟩ := (hitems k v).1 hm
      exact k2.all k hk
    · rw [C10_validate_iff]
      · intro cid hc
        obtain ⟨l, hl, hv⟩ := k2.clause hc
        refine ⟨l, hl, ?_⟩
        rw [List.mem_map]
        refine ⟨(iabs l, s1.assignments.data (iabs l)), (hitems _ _).2 ⟨k2.inv.cs cid hc l hl, rfl⟩, ?_⟩
        simp only [Prod.mk.injEq, true_and, decide_eq_decide]
        have hv : s1.assignments.data l = some true := hv
        have hl0 := k2.inv.base.cnz cid hc l hl
        by_cases hp : 0 < l
        · rw [iabs_of_pos hp, hv]; simp [hp]
        · have e : iabs l = -l := by unfold iabs; omega
          rw [e, hw.neg, hv]; simp [hp]
      · intro kv hkv
        obtain ⟨kv', hm, rfl⟩ := List.mem_map.1 hkv
        exact hw.spos _ ((hitems kv'.1 kv'.2).1 hm).1
  · rw [k1] at hs; simp at hs
  · rw [k1] at hs; simp at hs

/-! ### The hypotheses are met by concrete cases -/

/-- `x1 ∨ x2`, `¬x1 ∨ x2`, `x1 ∨ ¬x2 ∨ x3`, `¬x2 ∨ ¬x3 ∨ ¬x1`: the search decides, meets conflicts and learns. -/
def exRules : List (List Int) := [[1, 2], [-1, 2], [1, -2, 3], [-2, -3, -1]]

/-- the four clauses over two variables -/
def exUnsat : List (List Int) := [[1, 2], [-1, 2], [1, -2], [-1, -2]]

example : defaultPolicy.OK (varsOf exRules) (varsOf exRules) (fun _ _ => True) (fun _ => True) := defaultPolicy_ok _ _
example : (∀ c ∈ exRules, ∀ l ∈ c, l ≠ 0) ∧ (∀ c ∈ exRules, c ≠ []) := by decide
example : ∃ a, solveRules defaultPolicy 10 () exRules = .ok a ∧ a.value 2 = some true := ⟨_, rfl, by decide⟩
example : ∃ u, solveRules defaultPolicy 10 () exUnsat = .error (.satisfiability u) := ⟨_, rfl⟩
example : (∀ c ∈ exUnsat, ∀ l ∈ c, l ≠ 0) ∧ (∀ c ∈ exUnsat, c ≠ []) := by decide
/-- two different presentations of the same clauses -/
example : (∀ c ∈ exUnsat, ∃ c' ∈ [[-2, -1, -2], [1, -2], [2, -1], [2, 1], [1, 2]], ∀ l : Int, l ∈ c ↔ l ∈ c') ∧
    (∀ c' ∈ [[-2, -1, -2], [1, -2], [2, -1], [2, 1], [1, 2]], ∃ c ∈ exUnsat, ∀ l : Int, l ∈ c ↔ l ∈ c') := by
  constructor
  · simp only [exUnsat, List.forall_mem_cons]
    refine ⟨⟨[2, 1], ?_, ?_⟩, ⟨[2, -1], ?_, ?_⟩, ⟨[1, -2], ?_, ?_⟩, ⟨[-2, -1, -2], ?_, ?_⟩, ?_⟩ <;>
      first | decide | (intro l; simp; try omega) | simp
  · simp only [exUnsat, List.forall_mem_cons]
    refine ⟨⟨[-1, -2], ?_, ?_⟩, ⟨[1, -2], ?_, ?_⟩, ⟨[-1, 2], ?_, ?_⟩, ⟨[1, 2], ?_, ?_⟩, ⟨[1, 2], ?_, ?_⟩, ?_⟩ <;>
      first | decide | (intro l; simp; try omega) | simp
/-- a state at decision level 1 is reached when solving `exUnsat` (so C07-C09 speak about searches with decisions) -/
example : ∃ s s', Solver.fromRules exUnsat = .ok s ∧ Solver.turn defaultPolicy 0 () s = .next () s' ∧
    s'.decisionLevel = 1 := ⟨_, _, rfl, rfl, rfl⟩
example : ∃ s, Reach defaultPolicy exUnsat () () s ∧ s.decisionLevel = 1 := by
  have h : ∃ s s', Solver.fromRules exUnsat = .ok s ∧ Solver.turn defaultPolicy 0 () s = .next () s' ∧
    s'.decisionLevel = 1 := ⟨_, _, rfl, rfl, rfl⟩
  obtain ⟨s, s', h1, h2, h3⟩ := h
  exact ⟨s', .turn (.start h1) h2, h3⟩
/-- and a learned clause is present two turns later -/
example : ∃ s s' s'', Solver.fromRules exUnsat = .ok s ∧ Solver.turn defaultPolicy 0 () s = .next () s' ∧
    Solver.turn defaultPolicy 0 () s' = .next () s'' ∧ s''.clauses.length = 5 := ⟨_, _, _, rfl, rfl, rfl, rfl⟩

end Verif.Props
