import Verif.Sat.Learned
import Verif.Props.SatCore
/-
Property C120: what the solver adds to its clauses during a search is new.
-/
namespace Verif.Props
open Verif Verif.Sat

/-- `solver.clauses`, as the clause objects that one can read from outside -/
def clausesOf (s : Solver) : List Clause := s.clauses.map s.heap

/-- The clauses `cs` are those of the non-empty `rules`, in the order of the rules and with the same literals, followed by learned
clauses only. -/
def RulesThenLearned (rules : List (List Int)) (cs : List Clause) : Prop :=
  ∃ old new : List Clause, cs = old ++ new ∧
    List.Forall₂ (fun c r => c.learned = false ∧ ∀ l, l ∈ c.lits ↔ l ∈ r) old (rules.filter (fun r => decide (r ≠ []))) ∧
    ∀ c ∈ new, c.learned = true

/-- A learned clause of `cs` never has all the literals of a clause before it (so it is neither a copy nor a weakening of
a rule or of something learned earlier), and it has no two opposite literals. -/
def NothingTwice (cs : List Clause) : Prop :=
  cs.Pairwise (fun c d => d.learned = true → ∃ l ∈ c.lits, l ∉ d.lits) ∧
  ∀ c ∈ cs, c.learned = true → ∀ l ∈ c.lits, -l ∉ c.lits

theorem nothingTwice_of_grown {G : List (List Int)} {s : Solver} (h : Solver.Grown G s) : NothingTwice (clausesOf s) := by
  refine ⟨?_, ?_⟩
  · unfold clausesOf; rw [List.pairwise_map]; exact h.fresh
  · intro c hc
    obtain ⟨cid, hcid, rfl⟩ := List.mem_map.1 hc
    exact h.cons cid hcid

theorem rulesThenLearned_of_grown {G : List (List Int)} {s : Solver} (h : Solver.Grown (nonempty G) s) :
    RulesThenLearned G (clausesOf s) := by
  obtain ⟨old, new, e, h1, h2⟩ := h.split
  refine ⟨old.map s.heap, new.map s.heap, by unfold clausesOf; rw [e, List.map_append], ?_, ?_⟩
  · show List.Forall₂ _ _ (nonempty G)
    clear e h2
    generalize nonempty G = G' at h1
    induction h1 with
    | nil => exact .nil
    | cons k _ ih =>
      refine .cons ⟨k.1, fun l => ?_⟩ ih
      exact k.2.mem_iff.trans (mem_fromkeys _ _)
  · intro c hc
    obtain ⟨cid, hcid, rfl⟩ := List.mem_map.1 hc
    exact h2 cid hcid

section
variable {σ : Type} {pol : Policy σ} {U : List Int} {D : Int → List Int → Prop} {PI : σ → Prop}
variable {G : List (List Int)} (hpol : pol.OK U (varsOf G) D PI) (hU : ∀ v ∈ varsOf G, v ∈ U)
variable (hnz : ∀ c ∈ G, ∀ l ∈ c, l ≠ 0) {ps0 : σ} (hps : PI ps0)
include hpol hU hnz hps

/-- C120: at every turn of the search the clauses of the solver are the rules, in their order, and then learned clauses. -/
theorem C120_rules_then_learned {ps : σ} {s : Solver} (h : Reach pol G ps0 ps s) : RulesThenLearned G (clausesOf s) :=
  rulesThenLearned_of_grown (h.grown hpol hU hnz hps)

/-- C120: at every turn of the search, no learned clause says something that an earlier clause said already. -/
theorem C120_nothing_learned_twice {ps : σ} {s : Solver} (h : Reach pol G ps0 ps s) : NothingTwice (clausesOf s) :=
  nothingTwice_of_grown (h.grown hpol hU hnz hps)

theorem end_grown {fuel : Nat} : ∀ {ps : σ} {s : Solver}, Reach pol G ps0 ps s →
    (∀ s' a, Solver.searchLoop pol 0 fuel ps s = .ok (s', a) → Solver.Grown (nonempty G) s' ∧ Solver.Head (nonempty G) U D s') ∧
    (∀ e s', Solver.searchLoop pol 0 fuel ps s = .error (e, s') → Solver.Grown (nonempty G) s') := by
  induction fuel with
  | zero =>
    intro ps s h
    refine ⟨fun s' a e => (by cases e), fun e s' he => ?_⟩
    cases he
    exact h.grown hpol hU hnz hps
  | succ fuel ih =>
    intro ps s h
    obtain ⟨hh, hp⟩ := h.head hpol hU hnz hps
    have hg := h.grown hpol hU hnz hps
    have ht := Solver.turn_clauses hpol (varsOf_nonempty G) hh hp
    have hs := Solver.turn_spec hpol (varsOf_nonempty G) hh hp
    simp only [Solver.searchLoop]
    cases e : Solver.turn pol 0 ps s with
    | done s1 a1 =>
      rw [e] at ht hs
      simp only
      refine ⟨fun s' a e => ?_, fun e s' he => (by cases he)⟩
      cases e
      refine ⟨hg.kept ht, ?_⟩
      rcases hs with ⟨s2, k1, k2⟩ | ⟨u, s2, k1, -⟩ | ⟨ps2, s2, k1, -⟩
      · cases k1; exact ⟨k2.inv, k2.cov⟩
      · cases k1
      · cases k1
    | fail e1 s1 =>
      rw [e] at ht
      simp only
      refine ⟨fun s' a e => (by cases e), fun e s' he => ?_⟩
      cases he
      exact hg.kept ht
    | next ps1 s1 =>
      simp only
      exact ih (.turn h e)

/-- C120: so it is when `search()` has returned an assignment, ... -/
theorem C120_after_success {s s' : Solver} {a : ASet} {fuel : Nat} (h : Solver.fromRules G = .ok s)
    (hs : s.search pol fuel ps0 = .ok (s', a)) : RulesThenLearned G (clausesOf s') ∧ NothingTwice (clausesOf s') := by
  have hd : s.decisionLevel = 0 := by
    rcases fromRules_head (D := D) G hnz hU with ⟨s0, h1, h2, h3, hroot⟩ | ⟨u, h1, h2⟩
    · rw [h1] at h; cases h; exact hroot
    · rw [h1] at h; cases h
  unfold Solver.search at hs
  rw [hd] at hs
  have := ((end_grown hpol hU hnz hps (.start h)).1 _ _ hs).1
  exact ⟨rulesThenLearned_of_grown this, nothingTwice_of_grown this⟩

/-- C120: ... and when it has raised SatisfiabilityError. -/
theorem C120_after_failure {s s' : Solver} {e : Err} {fuel : Nat} (h : Solver.fromRules G = .ok s)
    (hs : s.search pol fuel ps0 = .error (e, s')) : RulesThenLearned G (clausesOf s') ∧ NothingTwice (clausesOf s') := by
  have hd : s.decisionLevel = 0 := by
    rcases fromRules_head (D := D) G hnz hU with ⟨s0, h1, h2, h3, hroot⟩ | ⟨u, h1, h2⟩
    · rw [h1] at h; cases h; exact hroot
    · rw [h1] at h; cases h
  unfold Solver.search at hs
  rw [hd] at hs
  have := (end_grown hpol hU hnz hps (.start h)).2 _ _ hs
  exact ⟨rulesThenLearned_of_grown this, nothingTwice_of_grown this⟩

/-- C120: a turn of the search either leaves the clauses as they are, up to the order of the literals inside them, or adds exactly
one: then propagation had found a conflict above level 0, every literal of the new clause was false there, and after backtracking
exactly one of them, the last literal assigned, is true and the others are false. -/
theorem C120_one_turn {ps ps' : σ} {s s' : Solver} (h : Reach pol G ps0 ps s) (ht : Solver.turn pol 0 ps s = .next ps' s') :
    List.Forall₂ (fun c d : Clause => c.learned = d.learned ∧ c.lits.Perm d.lits) (clausesOf s') (clausesOf s) ∨
    ∃ s1 conflict old new x, Solver.propagate s.propFuel s = .ok (s1, some conflict) ∧ 0 < s1.decisionLevel ∧
      clausesOf s' = old ++ [new] ∧
      List.Forall₂ (fun c d : Clause => c.learned = d.learned ∧ c.lits.Perm d.lits) old (clausesOf s) ∧
      new.learned = true ∧ (∀ l ∈ new.lits, s1.val l = some false) ∧
      x ∈ new.lits ∧ s'.trail.head? = some x ∧ s'.val x = some true ∧ ∀ l ∈ new.lits, l ≠ x → s'.val l = some false := by
  obtain ⟨hh, hp⟩ := h.head hpol hU hnz hps
  have h' := Reach.turn h ht
  obtain ⟨hh', hp'⟩ := h'.head hpol hU hnz hps
  have hcl := Solver.turn_clauses hpol (varsOf_nonempty G) hh hp
  rw [ht] at hcl
  have key : ∀ (cs : List Nat) (f g : Nat → Clause), (∀ c ∈ cs, (f c).lits.Perm (g c).lits ∧ (f c).learned = (g c).learned) →
      List.Forall₂ (fun c d : Clause => c.learned = d.learned ∧ c.lits.Perm d.lits) (cs.map f) (cs.map g) := by
    intro cs f g hfg
    induction cs with
    | nil => exact .nil
    | cons c cs ih =>
      obtain ⟨k1, k2⟩ := hfg c (by simp)
      exact .cons ⟨k2, k1⟩ (ih (fun d hd => hfg d (by simp [hd])))
  rcases hcl with hk | ⟨s1, conflict, g1, hk, hd, hc, hl⟩
  · left
    unfold clausesOf
    rw [hk.clauses]
    exact key _ _ _ hk.lits
  · right
    obtain ⟨cid, x, ls, n1, n2, n3, n4, n5, n6, n7, n8⟩ := hl.new
    have hs1 : ∃ r, Solver.propagate s.propFuel s = .ok (s1, r) ∧ ∀ l, s1.val l = some false ↔ -l ∈ s1.trail := by
      obtain ⟨s2, r, q1, q2, q3, q4⟩ := Solver.propagate_spec s.propFuel hh.inv (by unfold Solver.propFuel ASet.len; omega)
      rw [q1] at g1
      cases g1
      exact ⟨_, q1, (q4 _ rfl).base.vF⟩
    obtain ⟨_, -, hv⟩ := hs1
    have hx : x ∈ s'.trail := List.mem_of_mem_head? n5
    refine ⟨s1, conflict, s1.clauses.map s'.heap, s'.heap cid, x, g1, hd, ?_, ?_, n3, ?_, ?_, n5, ?_, ?_⟩
    · unfold clausesOf; rw [n1]; simp
    · unfold clausesOf
      rw [hk.clauses]
      apply key
      intro c hcc
      have h1 := hk.lits c hcc
      have h2 := hl.lits c (by rw [hk.clauses]; exact hcc)
      exact ⟨h2.1.trans h1.1, h2.2.trans h1.2⟩
    · intro l hlm
      exact (hv l).2 (n7 l (n4.mem_iff.1 hlm))
    · exact n4.mem_iff.2 (by simp)
    · exact (hh'.inv.base.vT x).2 hx
    · intro l hlm hne
      have := n4.mem_iff.1 hlm
      simp only [List.mem_append, List.mem_singleton, hne, or_false] at this
      exact (hh'.inv.base.vF l).2 (n6 l this)

/-- C120: hence at most `3 ^ n` clauses are learned in a whole search, where `n` is the number of variables that the rules or
the policy have. -/
theorem C120_learned_bound {ps : σ} {s : Solver} (h : Reach pol G ps0 ps s) :
    ((clausesOf s).filter (fun c => c.learned)).length ≤ 3 ^ U.length := by
  have hn := C120_nothing_learned_twice hpol hU hnz hps h
  have hb := (h.head hpol hU hnz hps).1.inv.base
  have := fresh_length (U := U) (cs := ((clausesOf s).filter (fun c => c.learned)).map (fun c => c.lits)) (by
    intro c hc l hl
    obtain ⟨d, hd, rfl⟩ := List.mem_map.1 hc
    obtain ⟨cid, hcid, rfl⟩ := List.mem_map.1 (List.mem_filter.1 hd).1
    exact hb.cU cid hcid l hl) (by
    intro c hc
    obtain ⟨d, hd, rfl⟩ := List.mem_map.1 hc
    obtain ⟨h1, h2⟩ := List.mem_filter.1 hd
    exact hn.2 d h1 h2) (by
    rw [List.pairwise_map]
    refine (hn.1.filter _).imp_of_mem ?_
    intro c d _ hd hr
    exact hr (List.mem_filter.1 hd).2)
  simpa using this

end

/-! ### The hypotheses are met by concrete cases -/

/-- the search for `exUnsat` reaches a state with a learned clause, `[-1]` -/
example : ∃ s, Reach defaultPolicy exUnsat () () s ∧ (clausesOf s).map (fun c => (c.lits, c.learned)) =
    [([1, 2], false), ([2, -1], false), ([1, -2], false), ([-2, -1], false), ([-1], true)] := by
  have h : ∃ s s' s'', Solver.fromRules exUnsat = .ok s ∧ Solver.turn defaultPolicy 0 () s = .next () s' ∧
    Solver.turn defaultPolicy 0 () s' = .next () s'' ∧ (clausesOf s'').map (fun c => (c.lits, c.learned)) =
      [([1, 2], false), ([2, -1], false), ([1, -2], false), ([-2, -1], false), ([-1], true)] := ⟨_, _, _, rfl, rfl, rfl, rfl⟩
  obtain ⟨s, s', s'', h1, h2, h3, h4⟩ := h
  exact ⟨s'', .turn (.turn (.start h1) h2) h3, h4⟩

/-- a search that ends well after a conflict, and one that does not -/
example : ∃ s s' a, Solver.fromRules exRules = .ok s ∧ s.search defaultPolicy 10 () = .ok (s', a) := ⟨_, _, _, rfl, rfl⟩
example : ∃ s s' e, Solver.fromRules exUnsat = .ok s ∧ s.search defaultPolicy 10 () = .error (e, s') := ⟨_, _, _, rfl, rfl⟩

end Verif.Props
