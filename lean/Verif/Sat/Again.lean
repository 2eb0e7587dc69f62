import Verif.Sat.Final
/-
One MiniSATSolver object used several times, and `is_satisfiable`.
-/
namespace Verif.Sat
open Verif

/-- `MiniSATSolver(rules)` uses the rules as policy. They have no method `get_next_package_id`: AttributeError, for which
`typeError` stands here. sat/__init__.py:5-6, minisat.py:319 -/
def noPolicy : Policy Unit where
  next _ _ _ := .error .typeError

/-- `is_satisfiable(rules)`: a new solver without clauses is searched; sat/__init__.py:5-11. (`policy or DefaultPolicy()`:
no rules count as no policy. The solver has no variables, so that one turn of the loop is enough.) -/
def isSatisfiable (rules : List (List Int)) : Except Err Bool :=
  match Solver.search (if rules = [] then defaultPolicy else noPolicy) 1 () Solver.init with
  | .ok _ => .ok true
  | .error (.satisfiability _, _) => .ok false
  | .error (e, _) => .error e

/-- Calls on a solver object. `fuel` bounds the number of turns of the search, `ps` is the state of the policy then. -/
inductive Call (σ : Type) where
  | add (lits : List Int)
  | setup
  | search (fuel : Nat) (ps : σ)

/-- what a call gives: nothing, an exception or a solution -/
inductive Answer where
  | nothing
  | raised (e : Err)
  | solution (a : ASet)

/-- One call: `add_clause(lits)`, `_setup_assignments()` or `search()`; minisat.py:321-367, 422-451. (When `add_clause` raises,
only the new Clause object is lost.) -/
def call {σ : Type} (pol : Policy σ) (s : Solver) : Call σ → Answer × Solver
  | .add lits => match s.addClause lits none with
    | .error e => (.raised e, s)
    | .ok s => (.nothing, s)
  | .setup => (.nothing, s.setupAssignments)
  | .search fuel ps => match s.search pol fuel ps with
    | .error (e, s) => (.raised e, s)
    | .ok (s, a) => (.solution a, s)

/-- calls one after the other -/
def calls {σ : Type} (pol : Policy σ) : List (Call σ) → Solver → List Answer × Solver
  | [], s => ([], s)
  | c :: cs, s =>
    let r := call pol s c
    let rest := calls pol cs r.2
    (r.1 :: rest.1, rest.2)

namespace Solver

theorem propagate_queue (fuel : Nat) : ∀ {s s' : Solver}, propagate fuel s = .ok (s', none) → s'.propQueue = [] := by
  induction fuel with
  | zero =>
    intro s s' h
    unfold propagate at h
    split at h
    · next hq => cases h; exact hq
    · simp at h
  | succ n ih =>
    intro s s' h
    unfold propagate at h
    split at h
    · next hq => cases h; exact hq
    · simp only at h
      split at h
      · cases h
      · cases h
      · exact ih h

/-- the state in which a search returns -/
theorem searchLoop_done {σ : Type} {pol : Policy σ} {root : Nat} (fuel : Nat) : ∀ {ps : σ} {s s' : Solver} {a : ASet},
    searchLoop pol root fuel ps s = .ok (s', a) →
    s'.propQueue = [] ∧ s'.allAssigned = true ∧ a = s'.assignments.copy := by
  induction fuel with
  | zero => intro ps s s' a h; simp [searchLoop] at h
  | succ n ih =>
    intro ps s s' a h
    unfold searchLoop at h
    split at h
    · next s1 a1 ht =>
      cases h
      unfold turn at ht
      split at ht
      · cases ht
      · next s2 hp =>
        split at ht
        · next hall =>
          cases ht
          exact ⟨propagate_queue _ hp, hall, rfl⟩
        · split at ht <;> cases ht
      · split at ht
        · cases ht
        · split at ht
          · cases ht
          · split at ht <;> cases ht
    · cases h
    · exact ih h

/-- a search from such a state returns at once -/
theorem search_done {σ : Type} (pol : Policy σ) (fuel : Nat) (ps : σ) {s : Solver} (hq : s.propQueue = [])
    (hall : s.allAssigned = true) : s.search pol (fuel + 1) ps = .ok (s, s.assignments.copy) := by
  unfold search searchLoop turn
  have : propagate s.propFuel s = .ok (s, none) := by
    unfold propagate
    rw [hq]
  rw [this]
  simp only [hall, if_true]

/-- the solver after a successful search and some further calls -/
structure Rest (A : ASet) (s : Solver) : Prop where
  q : s.propQueue = []
  all : s.allAssigned = true
  asg : s.assignments = A
  cs : ∀ cid ∈ s.clauses, ∀ l ∈ s.litsOf cid, iabs l ∈ A.seen
  idn : ∀ cid ∈ s.clauses, cid < s.nextId
  asn : ∀ l, A.value l = some false → s.assigning (iabs l) ≠ none

theorem rest_setup {A : ASet} {s : Solver} (h : Rest A s) : s.setupAssignments = s := by
  unfold setupAssignments
  have key : ∀ vs : List Int, (∀ v ∈ vs, iabs v ∈ A.seen) →
      vs.foldl (fun a v => if a.contains v then a else a.setItem v none) A = A := by
    intro vs
    induction vs with
    | nil => intro _; rfl
    | cons v vs ih =>
      intro hv
      rw [List.foldl_cons, if_pos (by unfold ASet.contains; simpa using hv v (by simp))]
      exact ih (fun w hw => hv w (by simp [hw]))
  simp only
  rw [h.asg, key]
  · rw [← h.asg]
  · intro v hv
    rw [mem_fromkeys, List.mem_map] at hv
    obtain ⟨l, hl, rfl⟩ := hv
    rw [List.mem_flatMap] at hl
    obtain ⟨c, hc, hl⟩ := hl
    have : iabs (iabs l) = iabs l := by unfold iabs; omega
    rw [this]
    exact h.cs c hc l hl

theorem rest_alloc {A : ASet} {s : Solver} (h : Rest A s) (c : Clause) :
    Rest A (s.alloc c).1 ∧ (s.alloc c).1.litsOf s.nextId = c.lits := by
  refine ⟨⟨h.q, h.all, h.asg, ?_, ?_, h.asn⟩, ?_⟩
  · intro cid hc l hl
    refine h.cs cid hc l ?_
    have hne : cid ≠ s.nextId := by have := h.idn cid hc; omega
    have e : (s.alloc c).1.litsOf cid = s.litsOf cid := by
      show (fset s.heap s.nextId c cid).lits = _
      rw [fset_ne]; rfl
      exact hne
    rw [e] at hl
    exact hl
  · intro cid hc
    have := h.idn cid hc
    show cid < s.nextId + 1
    omega
  · show (fset s.heap s.nextId c s.nextId).lits = _
    rw [fset_same]

/-- what `add_clause` does then -/
theorem rest_add {A : ASet} (hA : ∀ v ∈ A.seen, A.value v ≠ none) (hwf : A.WF) {s : Solver} (h : Rest A s) (lits : List Int)
    (hl : ∀ l ∈ lits, iabs l ∈ A.seen) :
    (∃ s', s.addClause lits none = .ok s' ∧ Rest A s' ∧ ∀ l, fromkeys lits = [l] → A.value l = some true) ∨
    (∃ u l, s.addClause lits none = .error (.satisfiability u) ∧ fromkeys lits = [l] ∧ A.value l = some false) := by
  obtain ⟨h1, h2⟩ := rest_alloc h (Clause.new lits false none)
  have hadd : ∀ s2 : Solver, Rest A s2 → s2.litsOf s.nextId = fromkeys lits → s.nextId < s2.nextId →
      Rest A { s2 with clauses := s2.clauses ++ [s.nextId] } := by
    intro s2 k k2 k3
    refine ⟨k.q, k.all, k.asg, ?_, ?_, k.asn⟩
    · intro cid hc l hm
      have hc : cid ∈ s2.clauses ++ [s.nextId] := hc
      rcases List.mem_append.1 hc with hc | hc
      · exact k.cs cid hc l hm
      · simp only [List.mem_singleton] at hc
        subst hc
        have hm : l ∈ s2.litsOf s.nextId := hm
        rw [k2, mem_fromkeys] at hm
        exact hl l hm
    · intro cid hc
      have hc : cid ∈ s2.clauses ++ [s.nextId] := hc
      rcases List.mem_append.1 hc with hc | hc
      · exact k.idn cid hc
      · simp only [List.mem_singleton] at hc
        subst hc
        exact k3
  unfold addClause
  have hid : (s.alloc (Clause.new lits false none)).2 = s.nextId := rfl
  simp only [hid]
  generalize hs2 : (s.alloc (Clause.new lits false none)).1 = s2 at h1 h2
  have hn2 : s.nextId < s2.nextId := by
    rw [← hs2]
    show s.nextId < s.nextId + 1
    omega
  have h2' : s2.litsOf s.nextId = fromkeys lits := h2
  unfold addClauseObj
  rw [h2']
  cases hf : fromkeys lits with
  | nil =>
    left
    exact ⟨_, rfl, ⟨h1.q, h1.all, h1.asg, h1.cs, h1.idn, h1.asn⟩, by simp⟩
  | cons l rest =>
    cases rest with
    | nil =>
      have hmem : l ∈ lits := by rw [← mem_fromkeys, hf]; simp
      have hv : A.value l ≠ none := by
        intro e
        exact hA _ (hl l hmem) ((hwf.iabs_none l).2 e)
      simp only
      unfold enqueue val
      rw [h1.asg]
      cases hval : A.value l with
      | none => exact absurd hval hv
      | some b =>
        cases b with
        | true =>
          left
          simp only [if_true]
          exact ⟨_, rfl, hadd s2 h1 (by rw [h2']) hn2, fun l' e => by cases e; exact hval⟩
        | false =>
          right
          simp only [Bool.false_eq_true, if_false]
          refine ⟨⟨s.nextId, s.nextId⟩, l, ?_, rfl, hval⟩
          unfold mkUnsat
          rw [h2', hf]
          simp only
          have e : iabs (-l) = iabs l := by unfold iabs; omega
          rw [e]
          cases hx : s2.assigning (iabs l) with
          | none => exact absurd hx (h1.asn l hval)
          | some c => rfl
    | cons l2 rest =>
      left
      refine ⟨_, rfl, ?_, by simp⟩
      exact hadd ((s2.watch (-l) s.nextId).watch (-l2) s.nextId) ⟨h1.q, h1.all, h1.asg, h1.cs, h1.idn, h1.asn⟩ (by
        show s2.litsOf s.nextId = _
        rw [h2']) hn2

end Solver
end Verif.Sat
