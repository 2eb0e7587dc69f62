import Verif.Solve.UnsatText
import Verif.Props.Total
/-
Properties C65 and C66, and the second half of C39: the explanation that a SatisfiabilityError carries.
-/
set_option linter.unusedSectionVars false
namespace Verif.Props
open Verif Verif.Pkg Verif.Solve Verif.Rules Verif.Graph Verif.Sat

variable {N S U : Type} [LinearOrder N] [DecidableEq S] [LinearOrder U] [Syntax S U]
variable {rs : List (Repository N S U)} {s : DependencySolver N S U}

/-- the two rules have a package in common -/
def SharePackage (r r' : Rule N U) : Prop := ∃ l ∈ r.literals, ∃ k ∈ r'.literals, iabs l = iabs k

theorem search_searchX (o : Orders) (pool : Pool N S U) (st : Setup N S U) :
    search o pool st = match searchX o pool st with
      | .error e => .error e.1
      | .ok a => .ok a := solveRulesX_eq _ _ _ _

theorem solvePool_known (hs : SolverFor rs s) {o : Orders} {q : Request N U} {st : Setup N S U}
    (hst : createRules s o (s.solvePool q) (convertUpgrade q s.remote s.installed) = .ok st) {r : Rule N U}
    (hr : r ∈ st.gen.rules) :
    r.literals ≠ [] ∧ ∀ l ∈ r.literals, ∃ p, dget s.pool.idToPackage l.natAbs = some p := by
  have hb := hs.solvePool q
  have hspec := createRules_spec hb hs hst
  obtain ⟨h1, -, h2⟩ := C38_literals hb hspec.gen r hr
  refine ⟨h1, ?_⟩
  intro l hl
  obtain ⟨-, p, -, hp⟩ := h2 l hl
  obtain ⟨-, -, p', hp', -⟩ := hb.ok.ids.packageId_spec hp
  unfold Pool.idToPkg at hp'
  split at hp'
  · next x hx => exact ⟨x, hx⟩
  · cases hp'

/-- What `solve` does when the rules cannot be satisfied. -/
theorem explained (hs : SolverFor rs s) (T : Texts N U) (o : Orders) (xo : XOrders) (q : Request N U) :
    match s.solve o q with
    | .ok t => s.solveExplained T o xo q = .ok t
    | .error (.sat (.satisfiability u)) => ∃ st sv x,
        createRules s o (s.solvePool q) (convertUpgrade q s.remote s.installed) = .ok st ∧
        s.solveExplained T o xo q = .error (.unsat x) ∧ ExplanationOK sv st.gen.rules u x ∧
        Sane x.evidence sv.nextId
    | .error e => s.solveExplained T o xo q = .error (.other e) := by
  rw [solve_stages]
  unfold DependencySolver.solveExplained
  simp only [solvePool_convert]
  cases hst : createRules s o (s.solvePool q) (convertUpgrade q s.remote s.installed) with
  | error e => rfl
  | ok st =>
    simp only
    have hb := hs.solvePool q
    have hspec := createRules_spec hb hs hst
    have hX := search_searchX o (s.solvePool q) st
    cases hx : searchX o (s.solvePool q) st with
    | ok a =>
      rw [hx] at hX
      simp only [hX]
      cases hf : finish s o (s.solvePool q) st.requirementIds a with
      | error e => rfl
      | ok t => rfl
    | error e =>
      obtain ⟨er, sv⟩ := e
      rw [hx] at hX
      simp only at hX
      obtain ⟨u, rfl⟩ := hspec.only_unsat hb o hX
      simp only [hX]
      obtain ⟨p1, p2, p3, p4, p5⟩ := solveRulesX_fail (st.gen.rules.map Rule.literals)
        (packagePolicy_contract o.policyPerm (hspec.hids hb)) (fun v hv => by simp [idsOf, hv]) (hspec.hnz hb)
        (start_inv _ _ _) _ hx
      obtain ⟨x, h1, h2⟩ := mkExplanation_spec xo (fun r hr => (solvePool_known hs hst hr).1) p1 p2 p4 p5
      have hsane : Sane x.evidence sv.nextId := by rw [h2.evidence]; exact sane_of_prov p1 _
      obtain ⟨m', h3, h4⟩ := h2.toText hsane (T := T) (pool := (none : Option (Pool N Unit U)))
        (g := fun c => intsToString (x.evidence.lits c)) (fun c hc => rfl)
      refine ⟨st, sv, { x with memo := m' }, rfl, ?_, h4, hsane⟩
      unfold raiseUnsat
      simp only [h1, h3]

/-- what is known about an explanation that `solve` has raised -/
theorem explanation_ok (hs : SolverFor rs s) {T : Texts N U} {o : Orders} {xo : XOrders} {q : Request N U}
    {x : Explanation N U} (h : s.solveExplained T o xo q = .error (.unsat x)) :
    ∃ st sv u, createRules s o (s.solvePool q) (convertUpgrade q s.remote s.installed) = .ok st ∧
      ExplanationOK sv st.gen.rules u x ∧ Sane x.evidence sv.nextId := by
  have := explained hs T o xo q
  split at this
  · rw [this] at h; cases h
  · obtain ⟨st, sv, x', h1, h2, h3, h4⟩ := this
    rw [h2] at h
    cases h
    exact ⟨st, sv, _, h1, h3, h4⟩
  · rw [this] at h; cases h

/-! ### C65 -/

/-- C65: building and printing the explanation never hides the failure: `solve` raises SatisfiabilityError exactly if the
search finds that the rules cannot be satisfied, and no other exception comes from the explanation. -/
theorem C65_explanation_is_built (hs : SolverFor rs s) (T : Texts N U) (o : Orders) (xo : XOrders) (q : Request N U) :
    (∀ t, s.solveExplained T o xo q = .ok t ↔ s.solve o q = .ok t) ∧
    ((∃ x, s.solveExplained T o xo q = .error (.unsat x)) ↔ ∃ u, s.solve o q = .error (.sat (.satisfiability u))) ∧
    ∀ e, s.solveExplained T o xo q ≠ .error (.explaining e) := by
  have := explained hs T o xo q
  split at this
  · next t ht =>
    rw [this, ht]
    refine ⟨fun t' => ?_, ?_, fun e h => by cases h⟩
    · constructor <;> (intro h; cases h; rfl)
    · constructor
      · rintro ⟨x, h⟩; cases h
      · rintro ⟨u, h⟩; cases h
  · next u hu =>
    obtain ⟨st, sv, x, h1, h2, -⟩ := this
    rw [h2, hu]
    refine ⟨fun t' => ?_, ?_, fun e h => by cases h⟩
    · constructor <;> (intro h; cases h)
    · constructor
      · rintro ⟨x, h⟩; exact ⟨u, rfl⟩
      · rintro ⟨u, h⟩; exact ⟨x, rfl⟩
  · next e hne he =>
    rw [this, he]
    refine ⟨fun t' => ?_, ?_, fun e h => by cases h⟩
    · constructor <;> (intro h; cases h)
    · constructor
      · rintro ⟨x, h⟩; cases h
      · rintro ⟨u, h⟩; cases h; exact absurd rfl (hne u)

/-- C65: the explanation can always be asked for its requirements and printed, with the pool of the solver or without,
and again afterwards, with the same text. -/
theorem C65_explanation_can_be_read (hs : SolverFor rs s) {T : Texts N U} {o : Orders} {xo : XOrders} {q : Request N U}
    {x : Explanation N U} (h : s.solveExplained T o xo q = .error (.unsat x)) :
    (∃ qs, x.requirements = .ok qs) ∧
    ∀ pool : Option (Pool N S U), (∀ p, pool = some p → p.idToPackage = s.pool.idToPackage) →
      ∃ text x', x.toText T pool = .ok (text, x') ∧ x'.paths = x.paths ∧ x'.requirements = x.requirements ∧
        ∃ x'', x'.toText T pool = .ok (text, x'') := by
  obtain ⟨st, sv, u, h1, h2, h3⟩ := explanation_ok hs h
  obtain ⟨qs, hqs, -⟩ := h2.requirements
  refine ⟨⟨qs, hqs⟩, ?_⟩
  intro pool hpool
  have hline : ∀ c ∈ x.details, ∃ t, Explanation.line T pool x.evidence c = .ok t := by
    intro c hc
    obtain ⟨-, -, -, r, k1, k2, -⟩ := h2.details c hc
    unfold Explanation.line
    cases pool with
    | none => exact ⟨_, rfl⟩
    | some p =>
      simp only [k1]
      obtain ⟨k3, k4⟩ := solvePool_known hs h1 k2
      rw [← hpool p rfl] at k4
      obtain ⟨t, ht, -⟩ := ruleToString_ok (T := T) true k3 k4
      exact ⟨t, ht⟩
  let g : Nat → List Char := fun c => match Explanation.line T pool x.evidence c with
    | .ok t => t
    | .error _ => []
  have hg : ∀ c ∈ x.details, Explanation.line T pool x.evidence c = .ok (g c) := by
    intro c hc
    obtain ⟨t, ht⟩ := hline c hc
    simp only [g, ht]
  obtain ⟨m', k1, k2⟩ := h2.toText h3 hg
  obtain ⟨m'', k3, -⟩ := k2.toText h3 hg
  exact ⟨_, _, k1, rfl, rfl, _, k3⟩

/-- C65: the text printed with the pool contains, for every rule of every path, the description of that rule or of one
with the same literals in the same path, with all its requirements. -/
theorem C65_text (hs : SolverFor rs s) {T : Texts N U} {o : Orders} {xo : XOrders} {q : Request N U}
    {x : Explanation N U} (h : s.solveExplained T o xo q = .error (.unsat x)) {pool : Pool N S U}
    (hpool : pool.idToPackage = s.pool.idToPackage) {text : List Char} {x' : Explanation N U}
    (ht : x.toText T (some pool) = .ok (text, x')) :
    ∀ chain ∈ x.chains, ∀ r ∈ chain, ∃ r' ∈ chain, (∀ l, l ∈ r'.literals ↔ l ∈ r.literals) ∧
      ∃ t, ruleToString T pool r' true = .ok t ∧ t <:+: text ∧
        ∀ q ∈ r'.requirements, ("'".toList ++ T.requirement q ++ "'".toList) <:+: text := by
  obtain ⟨st, sv, u, h1, h2, h3⟩ := explanation_ok hs h
  have hline : ∀ c ∈ x.details, ∃ t, Explanation.line T (some pool) x.evidence c = .ok t := by
    intro c hc
    obtain ⟨-, -, -, r, k1, k2, -⟩ := h2.details c hc
    unfold Explanation.line
    simp only [k1]
    obtain ⟨k3, k4⟩ := solvePool_known hs h1 k2
    rw [← hpool] at k4
    obtain ⟨t, ht, -⟩ := ruleToString_ok (T := T) true k3 k4
    exact ⟨t, ht⟩
  let g : Nat → List Char := fun c => match Explanation.line T (some pool) x.evidence c with
    | .ok t => t
    | .error _ => []
  have hg : ∀ c ∈ x.details, Explanation.line T (some pool) x.evidence c = .ok (g c) := by
    intro c hc
    obtain ⟨t, ht⟩ := hline c hc
    simp only [g, ht]
  obtain ⟨m', k1, -⟩ := h2.toText h3 hg
  rw [ht] at k1
  cases k1
  intro chain hchain r hr
  obtain ⟨p, hp, rfl⟩ := List.mem_map.1 hchain
  obtain ⟨c, hc, hcr⟩ := List.mem_filterMap.1 hr
  obtain ⟨d, hd1, hd2⟩ := printed_same (e := x.evidence) hc
  have hdp := mem_printed hd1
  obtain ⟨-, -, -, r', k1, k2, k3, k4⟩ := h2.details d (h2.path_mem hp hdp)
  obtain ⟨-, -, -, r'', j1, j2, j3, j4⟩ := h2.details c (h2.path_mem hp hc)
  rw [hcr] at j1
  cases j1
  refine ⟨r', List.mem_filterMap.2 ⟨d, hdp, k1⟩, fun l => by rw [← k4, hd2, j4], ?_⟩
  obtain ⟨i1, i2⟩ := solvePool_known hs h1 k2
  rw [← hpool] at i2
  obtain ⟨t, ht1, ht2⟩ := ruleToString_ok (T := T) true i1 i2
  have hgd : g d = t := by
    have := hg d (h2.path_mem hp hdp)
    unfold Explanation.line at this
    simp only [k1, ht1, Except.ok.injEq] at this
    exact this.symm
  have hin : t <:+: joinWith "\n".toList (x.paths.map (block x.evidence g)) := by
    have e1 : t <:+: block x.evidence g p := by
      unfold block
      refine List.IsInfix.trans ?_ (List.prefix_append _ _).isInfix
      exact infix_joinWith _ _ t (by rw [← hgd]; exact List.mem_cons_of_mem _ (List.mem_map.2 ⟨d, hd1, rfl⟩))
    exact e1.trans (infix_joinWith _ _ _ (List.mem_map.2 ⟨p, hp, rfl⟩))
  exact ⟨t, ht1, hin, fun q hq => (ht2 q hq).trans hin⟩

/-! ### C39, for explanations -/

/-- C39: every rule that an explanation reports is one of the generated rules, and carries requirements; every requirement
it reports is the requirement of a job. -/
theorem C39_explanations (hs : SolverFor rs s) {T : Texts N U} {o : Orders} {xo : XOrders} {q : Request N U}
    {x : Explanation N U} (h : s.solveExplained T o xo q = .error (.unsat x)) :
    ∃ st, createRules s o (s.solvePool q) (convertUpgrade q s.remote s.installed) = .ok st ∧
      (∀ r ∈ x.rules, ∃ rule ∈ st.gen.rules, r = some rule ∧ rule.requirements ≠ []) ∧
      ∃ qs, x.requirements = .ok qs ∧
        (∀ r ∈ qs, ∃ j ∈ effectiveJobs s q, j.requirement = some r) ∧
        (∀ rule, some rule ∈ x.rules → ∃ r ∈ qs, ∃ r' rest, rule.requirements = r' :: rest ∧
          r.name = r'.name ∧ r.constraints = r'.constraints) := by
  obtain ⟨st, sv, u, h1, h2, h3⟩ := explanation_ok hs h
  obtain ⟨qs, k1, k2, k3, -⟩ := h2.requirements
  refine ⟨st, h1, ?_, qs, k1, ?_, k3⟩
  · intro r hr
    obtain ⟨r', rfl, j1, j2⟩ := h2.mem_rules hr
    exact ⟨r', j1, rfl, j2⟩
  · intro r hr
    obtain ⟨rule, j1, -, rest, j2⟩ := k2 r hr
    have hb := hs.solvePool q
    have hspec := createRules_spec hb hs h1
    obtain ⟨j, i1, r', rest', i2, i3⟩ := C39_starts_at_job hb hspec.gen rule j1 (by rw [j2]; simp)
    rw [j2] at i3
    cases i3
    exact ⟨j, i1, i2⟩

/-! ### C66 -/

theorem filterMap_head {α β : Type} {f : α → Option β} {l : List α} (h : ∀ x ∈ l, ∃ y, f x = some y) :
    (l.filterMap f).head? = l.head?.bind f := by
  cases l with
  | nil => rfl
  | cons x xs =>
    obtain ⟨y, hy⟩ := h x (by simp)
    rw [List.filterMap_cons_some hy]
    exact hy.symm

theorem filterMap_last {α β : Type} {f : α → Option β} {l : List α} (h : ∀ x ∈ l, ∃ y, f x = some y) :
    (l.filterMap f).getLast? = l.getLast?.bind f := by
  rw [List.getLast?_eq_head?_reverse, List.getLast?_eq_head?_reverse, ← List.filterMap_reverse]
  exact filterMap_head (fun x hx => h x (List.mem_reverse.1 hx))

theorem filterMap_chain {α β : Type} {f : α → Option β} {R : α → α → Prop} {Q : β → β → Prop}
    (hRQ : ∀ x y a b, f x = some a → f y = some b → R x y → Q a b) {l : List α} (hc : l.IsChain R)
    (h : ∀ x ∈ l, ∃ y, f x = some y) : (l.filterMap f).IsChain Q := by
  induction hc with
  | nil => exact .nil
  | singleton a =>
    obtain ⟨y, hy⟩ := h a (by simp)
    rw [List.filterMap_cons_some hy]
    exact .singleton _
  | @cons_cons a b l hab _ ih =>
    obtain ⟨y, hy⟩ := h a (by simp)
    obtain ⟨z, hz⟩ := h b (by simp)
    have := ih (fun x hx => h x (by simp [hx]))
    rw [List.filterMap_cons_some hz] at this
    rw [List.filterMap_cons_some hy, List.filterMap_cons_some hz]
    exact .cons_cons (hRQ a b y z hy hz hab) this

/-- C66: along every path of an explanation, consecutive rules have a package in common; all rules are generated rules with
requirements; and the first and the last rule come from a job or contain the literal in conflict. -/
theorem C66_chains (hs : SolverFor rs s) {T : Texts N U} {o : Orders} {xo : XOrders} {q : Request N U}
    {x : Explanation N U} (h : s.solveExplained T o xo q = .error (.unsat x)) :
    ∃ st, createRules s o (s.solvePool q) (convertUpgrade q s.remote s.installed) = .ok st ∧
      ∀ chain ∈ x.chains, chain.IsChain SharePackage ∧ (∀ r ∈ chain, r ∈ st.gen.rules ∧ r.requirements ≠ []) ∧
        ∀ r, chain.head? = some r ∨ chain.getLast? = some r → r.reason.isJob = true ∨ x.implicand ∈ r.literals := by
  obtain ⟨st, sv, u, h1, h2, h3⟩ := explanation_ok hs h
  refine ⟨st, h1, ?_⟩
  intro chain hchain
  obtain ⟨p, hp, rfl⟩ := List.mem_map.1 hchain
  have hrule : ∀ c ∈ p, ∃ r, x.evidence.rule c = some r := by
    intro c hc
    obtain ⟨-, -, -, r, k, -⟩ := h2.details c (h2.path_mem hp hc)
    exact ⟨r, k⟩
  have hlits : ∀ c ∈ p, ∀ r, x.evidence.rule c = some r → ∀ l, l ∈ x.evidence.lits c ↔ l ∈ r.literals := by
    intro c hc r hr
    obtain ⟨-, -, -, r', k1, -, -, k2⟩ := h2.details c (h2.path_mem hp hc)
    rw [hr] at k1
    cases k1
    exact k2
  have hanchor : ∀ c ∈ p, Anchor x.evidence x.details x.implicand c → ∀ r, x.evidence.rule c = some r →
      r.reason.isJob = true ∨ x.implicand ∈ r.literals := by
    rintro c hc ⟨-, r', k1, k2⟩ r hr
    rw [hr] at k1
    cases k1
    rcases k2 with k2 | k2
    · exact Or.inr ((hlits c hc _ hr _).1 k2)
    · exact Or.inl k2
  have hshape : p.IsChain x.evidence.Linked ∧
      ∀ c, p.head? = some c ∨ p.getLast? = some c → Anchor x.evidence x.details x.implicand c := by
    obtain ⟨ends, e1, e2, e3, e4⟩ := h2.paths
    rcases Nat.lt_or_ge ends.length 2 with k | k
    · rw [e3 k] at hp
      simp only [List.mem_singleton] at hp
      subst hp
      constructor
      · cases p with
        | nil => exact .nil
        | cons a t =>
          cases t with
          | nil => exact .singleton _
          | cons b t => simp only [List.length_cons] at k; omega
      · rintro c (hc | hc)
        · exact (e2 c).1 (List.mem_of_head? hc)
        · exact (e2 c).1 (List.mem_of_getLast? hc)
    · obtain ⟨a, b, ha, hb, -, hc, -⟩ := (e4 k).sound p hp
      refine ⟨hc.chain, ?_⟩
      rintro c (k | k)
      · rw [hc.first] at k; cases k; exact (e2 _).1 ha
      · rw [hc.last] at k; cases k; exact (e2 _).1 hb
  refine ⟨?_, ?_, ?_⟩
  · have hch : p.IsChain (fun c d => x.evidence.Linked c d ∧ c ∈ p ∧ d ∈ p) := by
      have := hshape.1
      clear hshape hanchor hp hchain
      rw [List.isChain_iff_getElem] at this ⊢
      intro i hi
      exact ⟨this i hi, List.getElem_mem _, List.getElem_mem _⟩
    refine filterMap_chain ?_ hch hrule
    rintro c d r r' hr hr' ⟨⟨l, k1, k, k2, k3⟩, hc, hd⟩
    exact ⟨l, (hlits c hc r hr l).1 k1, k, (hlits d hd r' hr' k).1 k2, k3⟩
  · intro r hr
    obtain ⟨c, hc, hcr⟩ := List.mem_filterMap.1 hr
    obtain ⟨-, -, -, r', k1, k2, k3, -⟩ := h2.details c (h2.path_mem hp hc)
    rw [hcr] at k1
    cases k1
    exact ⟨k2, k3⟩
  · rintro r (hr | hr)
    · rw [filterMap_head hrule] at hr
      cases hh : p.head? with
      | none => rw [hh] at hr; cases hr
      | some c =>
        rw [hh] at hr
        exact hanchor c (List.mem_of_head? hh) (hshape.2 c (Or.inl hh)) r hr
    · rw [filterMap_last hrule] at hr
      cases hh : p.getLast? with
      | none => rw [hh] at hr; cases hr
      | some c =>
        rw [hh] at hr
        exact hanchor c (List.mem_of_getLast? hh) (hshape.2 c (Or.inr hh)) r hr

/-- C66: every clause along a path took part in the derivation of the contradiction: it is the clause found to be in
conflict or the one that had assigned the conflicting literal, or it was used for what was learned from it. If there are
at least two clauses that come from a job or contain the conflicting literal, then every path is a shortest one between
two of them, there is a path if any two of them are connected, all paths have the same number of job rules, no fewer than
a shortest path between any two of them that are connected, and every path adds something to the paths before it. -/
theorem C66_paths (hs : SolverFor rs s) {T : Texts N U} {o : Orders} {xo : XOrders} {q : Request N U}
    {x : Explanation N U} (h : s.solveExplained T o xo q = .error (.unsat x)) :
    ∃ conflict learned, x.evidence.lits learned = [-x.implicand] ∧
      (∀ p ∈ x.paths, ∀ c ∈ p, Involved x.evidence conflict learned x.implicand c) ∧
      ∃ ends : List Nat, ends.Nodup ∧ (∀ c, c ∈ ends ↔ Anchor x.evidence x.details x.implicand c) ∧
        (ends.length < 2 → x.paths = [ends]) ∧ (2 ≤ ends.length → PathsOK x.evidence x.details ends x.paths) := by
  obtain ⟨st, sv, u, h1, h2, h3⟩ := explanation_ok hs h
  exact ⟨u.conflict, u.learned, h2.implicand, fun p hp c hc => (h2.details c (h2.path_mem hp hc)).2.2.1, h2.paths⟩

end Verif.Props
