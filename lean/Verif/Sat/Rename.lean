import Verif.Rename
import Verif.Sat.Model
import Verif.Sat.PolicyModel
import Verif.Sat.Setup
/-
The search on renamed rules: it takes the same steps.
-/
set_option linter.unusedSectionVars false
namespace Verif.Sat
open Verif

variable (f : Ren)

/-! ### assignment sets -/

/-- the second assignment set is the first one, renamed -/
structure ARel (a a' : ASet) : Prop where
  data : ∀ x, a'.data (f.lit x) = a.data x
  orig : a'.orig = a.orig.map (fun kv => (f.lit kv.1, kv.2))
  seen : a'.seen = a.seen.map f.lit
  cached : a'.cached = a.cached.map (List.map (fun kv => (f.lit kv.1, kv.2)))
  assigned : a'.assigned = a.assigned.map f.lit
  newKeys : a'.newKeys = a.newKeys.map f.lit

variable {f}

theorem ARel.empty : ARel f ASet.empty ASet.empty := ⟨fun _ => rfl, rfl, rfl, rfl, rfl, rfl⟩

theorem ARel.updateDiff {a a' : ASet} (h : ARel f a a') (k : Int) (v : Option Bool) :
    ARel f (a.updateDiff k v) (a'.updateDiff (f.lit k) v) := by
  unfold ASet.updateDiff
  have e : (if f.lit k < 0 ∧ v ≠ none then -f.lit k else f.lit k) = f.lit (if k < 0 ∧ v ≠ none then -k else k) := by
    simp only [f.lit_neg_iff]
    split
    · rw [f.lit_neg]
    · rfl
  simp only [e]
  generalize (if k < 0 ∧ v ≠ none then -k else k) = k'
  refine ⟨h.data, ?_, h.seen, rfl, h.assigned, h.newKeys⟩
  simp only [ASet.setdefault, h.data, h.orig]
  have : f.lit k' ∈ (a.orig.map (fun kv => (f.lit kv.1, kv.2))).map Prod.fst ↔ k' ∈ a.orig.map Prod.fst := by
    rw [← mem_map_inj f.lit_injective (x := k') (l := a.orig.map Prod.fst), List.map_map, List.map_map]
    rfl
  by_cases hk : k' ∈ a.orig.map Prod.fst
  · rw [if_pos hk, if_pos (this.2 hk)]
  · rw [if_neg hk, if_neg (fun q => hk (this.1 q))]; simp

theorem ARel.delItem {a a' : ASet} (h : ARel f a a') (k : Int) : ARel f (a.delItem k) (a'.delItem (f.lit k)) := by
  unfold ASet.delItem
  simp only [h.data]
  have h1 : ARel f { a with seen := sdiscard (iabs k) a.seen } { a' with seen := sdiscard (iabs (f.lit k)) a'.seen } :=
    ⟨h.data, h.orig, by simp only [h.seen, f.iabs_lit]; rw [sdiscard_map f.lit_injective], h.cached, h.assigned, h.newKeys⟩
  by_cases hk : a.data k = none
  · rw [if_pos hk, if_pos hk]; exact h1
  · rw [if_neg hk, if_neg hk]
    have h2 := h1.updateDiff k none
    refine ⟨?_, h2.orig, h2.seen, h2.cached, ?_, h2.newKeys⟩
    · intro x
      simp only [← f.lit_neg]
      exact fset_map f.lit_injective (fun y => fset_map f.lit_injective h2.data _ _ y) _ _ x
    · show sdiscard (iabs (f.lit k)) (ASet.updateDiff _ (f.lit k) none).assigned = _
      rw [h2.assigned, f.iabs_lit, sdiscard_map f.lit_injective]

theorem ARel.setItem {a a' : ASet} (h : ARel f a a') (k : Int) (v : Option Bool) :
    ARel f (a.setItem k v) (a'.setItem (f.lit k) v) := by
  unfold ASet.setItem
  have h1 : ARel f (if iabs k ∈ a.seen then a else { a with newKeys := sadd (iabs k) a.newKeys })
      (if iabs (f.lit k) ∈ a'.seen then a' else { a' with newKeys := sadd (iabs (f.lit k)) a'.newKeys }) := by
    simp only [h.seen, f.iabs_lit, mem_map_inj f.lit_injective]
    split
    · exact h
    · refine ⟨h.data, h.orig, rfl, h.cached, h.assigned, ?_⟩
      simp only [h.newKeys]
      rw [sadd_map f.lit_injective]
  simp only
  generalize (if iabs k ∈ a.seen then a else { a with newKeys := sadd (iabs k) a.newKeys }) = b at h1
  generalize (if iabs (f.lit k) ∈ a'.seen then a' else { a' with newKeys := sadd (iabs (f.lit k)) a'.newKeys }) = b' at h1
  have fin : ∀ c c' : ASet, ARel f c c' → ARel f { c with seen := sadd (iabs k) c.seen } { c' with seen := sadd (iabs (f.lit k)) c'.seen } := by
    intro c c' hc
    refine ⟨hc.data, hc.orig, ?_, hc.cached, hc.assigned, hc.newKeys⟩
    simp only [hc.seen, f.iabs_lit]
    rw [sadd_map f.lit_injective]
  cases v with
  | none => exact fin _ _ (h1.delItem k)
  | some v =>
    refine fin _ _ ?_
    have h2 := h1.updateDiff k (some v)
    refine ⟨?_, h2.orig, h2.seen, h2.cached, ?_, h2.newKeys⟩
    · intro x
      simp only [← f.lit_neg]
      exact fset_map f.lit_injective (fun y => fset_map f.lit_injective h2.data _ _ y) _ _ x
    · simp only [f.iabs_lit, h2.assigned]
      rw [sadd_map f.lit_injective]

theorem ARel.value {a a' : ASet} (h : ARel f a a') (k : Int) : a'.value (f.lit k) = a.value k := h.data k

theorem ARel.contains {a a' : ASet} (h : ARel f a a') (k : Int) : a'.contains (f.lit k) = a.contains k := by
  unfold ASet.contains
  simp only [h.seen, f.iabs_lit, mem_map_inj f.lit_injective]

theorem ARel.getChangelog {a a' : ASet} (h : ARel f a a') : ARel f a.getChangelog.1 a'.getChangelog.1 := by
  unfold ASet.getChangelog
  rw [h.cached]
  cases hc : a.cached with
  | some c => exact h
  | none =>
    refine ⟨h.data, h.orig, h.seen, ?_, h.assigned, h.newKeys⟩
    simp only [h.orig, Option.map_none, Option.map_some, Option.some.injEq]
    rw [List.filterMap_map, List.map_filterMap]
    congr 1
    funext kv
    simp only [Function.comp, h.data]
    split <;> rfl

theorem ARel.consumeChangelog {a a' : ASet} (h : ARel f a a') : ARel f a.consumeChangelog.1 a'.consumeChangelog.1 := by
  have h1 := h.getChangelog
  unfold ASet.consumeChangelog
  exact ⟨h1.data, rfl, h1.seen, rfl, h1.assigned, rfl⟩

theorem ARel.copy {a a' : ASet} (h : ARel f a a') : ARel f a.copy a'.copy :=
  ⟨h.data, h.orig, h.seen, rfl, h.assigned, h.newKeys⟩

theorem isort_map (l : List Int) : ASet.isort (l.map f.lit) = (ASet.isort l).map f.lit := by
  have ins : ∀ x (l : List Int), ASet.insertSorted (f.lit x) (l.map f.lit) = (ASet.insertSorted x l).map f.lit := by
    intro x l
    induction l with
    | nil => rfl
    | cons y l ih =>
      rw [List.map_cons, ASet.insertSorted, ASet.insertSorted]
      simp only [f.lit_le]
      split
      · rfl
      · rw [ih]; rfl
  unfold ASet.isort
  induction l with
  | nil => rfl
  | cons x l ih => rw [List.map_cons, List.foldr_cons, List.foldr_cons, ih, ins]

theorem ARel.items {a a' : ASet} (h : ARel f a a') : a'.items = a.items.map (fun kv => (f.lit kv.1, kv.2)) := by
  unfold ASet.items
  rw [h.seen, isort_map, List.map_map, List.map_map]
  apply List.map_congr_left
  intro k _
  simp [h.data]

/-! ### clauses and solvers -/

/-- a renamed clause -/
def Clause.ren (f : Ren) (c : Clause) : Clause := { c with lits := c.lits.map f.lit }

theorem clause_new_ren (lits : List Int) (learned : Bool) (rule : Option Nat) :
    Clause.new (lits.map f.lit) learned rule = (Clause.new lits learned rule).ren f := by
  unfold Clause.new Clause.ren
  simp only
  rw [fromkeys_map f.lit_injective]

variable (f) in
/-- the second solver is the first one, renamed -/
structure SRel (s s' : Solver) : Prop where
  heap : ∀ c, s'.heap c = (s.heap c).ren f
  nextId : s'.nextId = s.nextId
  clauses : s'.clauses = s.clauses
  watches : ∀ l, s'.watches (f.lit l) = s.watches l
  assignments : ARel f s.assignments s'.assignments
  clauseTrails : s'.clauseTrails = s.clauseTrails
  levels : ∀ l, s'.levels (f.lit l) = s.levels l
  propQueue : s'.propQueue = s.propQueue.map f.lit
  trail : s'.trail = s.trail.map f.lit
  trailLim : s'.trailLim = s.trailLim
  assigning : ∀ l, s'.assigning (f.lit l) = s.assigning l
  status : s'.status = s.status

namespace SRel
variable {s s' : Solver}

theorem init : SRel f Solver.init Solver.init :=
  ⟨fun _ => rfl, rfl, rfl, fun _ => rfl, ARel.empty, rfl, fun _ => rfl, rfl, rfl, rfl, fun _ => rfl, rfl⟩

theorem litsOf (h : SRel f s s') (c : Nat) : s'.litsOf c = (s.litsOf c).map f.lit := by
  unfold Solver.litsOf
  rw [h.heap]; rfl

theorem val (h : SRel f s s') (l : Int) : s'.val (f.lit l) = s.val l := h.assignments.value l

theorem level (h : SRel f s s') : s'.decisionLevel = s.decisionLevel := by
  unfold Solver.decisionLevel; rw [h.trailLim]

theorem push (h : SRel f s s') (l : Int) (c : Nat) : SRel f (s.push l c) (s'.push (f.lit l) c) := by
  unfold Solver.push
  refine ⟨h.heap, h.nextId, h.clauses, h.watches, ?_, h.clauseTrails, ?_, ?_, ?_, h.trailLim, ?_, h.status⟩
  · simp only [f.iabs_lit]
    have e : decide (0 < f.lit l) = decide (0 < l) := by simp only [f.lit_pos]
    rw [e]
    exact h.assignments.setItem _ _
  · intro x
    simp only [f.iabs_lit, h.level]
    exact fset_map f.lit_injective h.levels _ _ x
  · simp [h.propQueue]
  · simp [h.trail]
  · intro x
    simp only [f.iabs_lit]
    exact fset_map f.lit_injective h.assigning _ _ x

theorem enqueue (h : SRel f s s') (l : Int) (c : Nat) :
    SRel f (s.enqueue l c).1 (s'.enqueue (f.lit l) c).1 ∧ (s'.enqueue (f.lit l) c).2 = (s.enqueue l c).2 := by
  unfold Solver.enqueue
  rw [h.val]
  cases s.val l with
  | some b => exact ⟨h, rfl⟩
  | none => exact ⟨h.push l c, rfl⟩

theorem setHeap (h : SRel f s s') (c : Nat) (x : Clause) :
    SRel f { s with heap := fset s.heap c x } { s' with heap := fset s'.heap c (x.ren f) } := by
  refine ⟨?_, h.nextId, h.clauses, h.watches, h.assignments, h.clauseTrails, h.levels, h.propQueue, h.trail, h.trailLim, h.assigning, h.status⟩
  intro d
  simp only [fset]
  split
  · rfl
  · exact h.heap d

theorem alloc (h : SRel f s s') (c : Clause) : SRel f (s.alloc c).1 (s'.alloc (c.ren f)).1 ∧ (s'.alloc (c.ren f)).2 = (s.alloc c).2 := by
  unfold Solver.alloc
  simp only
  rw [h.nextId]
  refine ⟨?_, rfl⟩
  have h1 := h.setHeap s.nextId c
  exact ⟨h1.heap, rfl, h.clauses, h.watches, h.assignments, h.clauseTrails, h.levels, h.propQueue, h.trail, h.trailLim, h.assigning, h.status⟩

theorem mkUnsat (h : SRel f s s') (c l : Nat) : s'.mkUnsat c l = s.mkUnsat c l := by
  unfold Solver.mkUnsat
  rw [h.litsOf]
  cases s.litsOf l with
  | nil => rfl
  | cons x t =>
    cases t with
    | nil =>
      simp only [List.map_cons, List.map_nil]
      rw [← f.lit_neg, f.iabs_lit, h.assigning]
    | cons y t => rfl

theorem watch (h : SRel f s s') (k : Int) (c : Nat) : SRel f (s.watch k c) (s'.watch (f.lit k) c) := by
  unfold Solver.watch
  refine ⟨h.heap, h.nextId, h.clauses, ?_, h.assignments, h.clauseTrails, h.levels, h.propQueue, h.trail, h.trailLim, h.assigning, h.status⟩
  intro x
  simp only [h.watches]
  exact fset_map f.lit_injective h.watches _ _ x

theorem addToClauses (h : SRel f s s') (c : Nat) : SRel f { s with clauses := s.clauses ++ [c] } { s' with clauses := s'.clauses ++ [c] } :=
  ⟨h.heap, h.nextId, by simp [h.clauses], h.watches, h.assignments, h.clauseTrails, h.levels, h.propQueue, h.trail, h.trailLim, h.assigning, h.status⟩

theorem addClauseObj (h : SRel f s s') (c : Nat) : ERel (SRel f) (s.addClauseObj c) (s'.addClauseObj c) := by
  unfold Solver.addClauseObj
  rw [h.litsOf]
  cases s.litsOf c with
  | nil =>
    exact .ok ⟨h.heap, h.nextId, h.clauses, h.watches, h.assignments, h.clauseTrails, h.levels, h.propQueue, h.trail, h.trailLim, h.assigning, rfl⟩
  | cons x t =>
    cases t with
    | nil =>
      obtain ⟨h1, h2⟩ := h.enqueue x c
      simp only [List.map_cons, List.map_nil]
      rw [h2]
      split
      · exact .ok (h1.addToClauses c)
      · rw [h1.mkUnsat]; exact .error _
    | cons y t =>
      simp only [List.map_cons]
      rw [← f.lit_neg, ← f.lit_neg]
      exact .ok (((h.watch _ c).watch _ c).addToClauses c)

theorem addClause (h : SRel f s s') (lits : List Int) (r : Option Nat) :
    ERel (SRel f) (s.addClause lits r) (s'.addClause (lits.map f.lit) r) := by
  unfold Solver.addClause
  rw [clause_new_ren]
  obtain ⟨h1, h2⟩ := h.alloc (Clause.new lits false r)
  simp only
  rw [h2]
  exact h1.addClauseObj _

theorem addRules (rules : List (List Int)) : ∀ {s s' : Solver} (i : Nat), SRel f s s' →
    ERel (SRel f) (s.addRules i rules) (s'.addRules i (rules.map (List.map f.lit))) := by
  induction rules with
  | nil => intro s s' i h; exact .ok h
  | cons r rs ih =>
    intro s s' i h
    rw [List.map_cons, Solver.addRules, Solver.addRules]
    have h1 := h.addClause r (some i)
    revert h1
    generalize s.addClause r (some i) = x
    generalize s'.addClause (r.map f.lit) (some i) = y
    intro h1
    cases h1 with
    | error e => exact .error e
    | ok h1 => exact ih (i + 1) h1

theorem setupAssignments (h : SRel f s s') : SRel f s.setupAssignments s'.setupAssignments := by
  unfold Solver.setupAssignments
  have e : fromkeys ((s'.clauses.flatMap s'.litsOf).map iabs) = (fromkeys ((s.clauses.flatMap s.litsOf).map iabs)).map f.lit := by
    rw [← fromkeys_map f.lit_injective, h.clauses]
    congr 1
    rw [show s'.litsOf = fun c => (s.litsOf c).map f.lit from funext h.litsOf, List.map_flatMap, List.map_map, List.map_flatMap]
    simp only [List.map_map]
    congr 1
    funext c
    apply List.map_congr_left
    intro x _
    exact f.iabs_lit x
  simp only
  rw [e]
  generalize fromkeys ((s.clauses.flatMap s.litsOf).map iabs) = vars
  refine ⟨h.heap, h.nextId, h.clauses, h.watches, ?_, h.clauseTrails, h.levels, h.propQueue, h.trail, h.trailLim, h.assigning, h.status⟩
  have : ∀ a a', ARel f a a' → ARel f (vars.foldl (fun a v => if a.contains v then a else a.setItem v none) a)
      ((vars.map f.lit).foldl (fun a v => if a.contains v then a else a.setItem v none) a') := by
    induction vars with
    | nil => intro a a' h; exact h
    | cons v vs ih =>
      intro a a' h
      rw [List.map_cons, List.foldl_cons, List.foldl_cons]
      refine ih _ _ ?_
      rw [h.contains]
      split
      · exact h
      · exact h.setItem v none
  exact this _ _ h.assignments

theorem fromRules (rules : List (List Int)) : ERel (SRel f) (Solver.fromRules rules) (Solver.fromRules (rules.map (List.map f.lit))) := by
  unfold Solver.fromRules
  have h1 := addRules (f := f) rules 0 init
  revert h1
  generalize Solver.init.addRules 0 rules = x
  generalize Solver.init.addRules 0 (rules.map (List.map f.lit)) = y
  intro h1
  cases h1 with
  | error e => exact .error e
  | ok h1 => exact .ok h1.setupAssignments

end SRel

theorem findWatch_ren {v v' : Int → Option Bool} (hv : ∀ l, v' (f.lit l) = v l) (x : Int) (l : List Int) :
    findWatch v' (f.lit x) (l.map f.lit) = (findWatch v x l).map (fun r => (f.lit r.1, r.2.map f.lit)) := by
  induction l with
  | nil => rfl
  | cons o l ih =>
    rw [List.map_cons, findWatch, findWatch, hv, ih]
    split
    · rfl
    · cases findWatch v x l with
      | none => rfl
      | some r => rfl

theorem rewatch_ren {v v' : Int → Option Bool} (hv : ∀ l, v' (f.lit l) = v l) (lits : List Int) (lit : Int) :
    rewatch v' (lits.map f.lit) (f.lit lit) = (rewatch v lits lit).map (fun r => (r.1.map f.lit, r.2.map f.lit)) := by
  unfold rewatch
  rcases lits with _ | ⟨a, _ | ⟨b, rest⟩⟩
  · rfl
  · simp only [List.map_cons, List.map_nil, ← f.lit_neg, f.lit_inj]
    split <;> rfl
  · simp only [List.map_cons, ← f.lit_neg, f.lit_inj]
    by_cases h : a = -lit ∨ b = -lit
    · rw [if_pos h, if_pos h]
      have e : (if a = -lit then f.lit b else f.lit a) = f.lit (if a = -lit then b else a) := by split <;> rfl
      rw [e, hv, findWatch_ren hv]
      generalize (if a = -lit then b else a) = other
      split
      · rfl
      · cases findWatch v (-lit) rest with
        | none => rfl
        | some r => rfl
    · rw [if_neg h, if_neg h]; rfl

theorem calculateReason_ren (lits : List Int) (p : Option Int) :
    calculateReason (lits.map f.lit) (p.map f.lit) = (calculateReason lits p).map f.lit := by
  unfold calculateReason
  rw [List.filter_map, List.map_map, List.map_map]
  have : (fun l => decide (some l ≠ p.map f.lit)) ∘ f.lit = fun l => decide (some l ≠ p) := by
    funext l
    cases p with
    | none => simp
    | some p => simp [f.lit_inj]
  rw [this]
  apply List.map_congr_left
  intro l _
  simp [f.lit_neg]

namespace SRel
variable {s s' : Solver}

theorem propClauses (lit : Int) (cids : List Nat) : ∀ {s s' : Solver}, SRel f s s' →
    ERel (fun a b => SRel f a.1 b.1 ∧ b.2 = a.2) (Solver.propClauses lit cids s) (Solver.propClauses (f.lit lit) cids s') := by
  induction cids with
  | nil => intro s s' h; exact .ok ⟨h, rfl⟩
  | cons c cids ih =>
    intro s s' h
    rw [Solver.propClauses, Solver.propClauses, h.litsOf, rewatch_ren (v := s.val) (v' := s'.val) h.val]
    cases rewatch s.val (s.litsOf c) lit with
    | error e => exact .error e
    | ok r =>
      obtain ⟨lits, unit⟩ := r
      simp only [Except.map]
      have h1 := h.setHeap c { s.heap c with lits := lits }
      have e : ({ s' with heap := fset s'.heap c { s'.heap c with lits := lits.map f.lit } } : Solver) =
          { s' with heap := fset s'.heap c (({ s.heap c with lits := lits } : Clause).ren f) } := by
        rw [h.heap]; rfl
      rw [e]
      generalize ({ s with heap := fset s.heap c { s.heap c with lits := lits } } : Solver) = t at h1
      generalize ({ s' with heap := fset s'.heap c (({ s.heap c with lits := lits } : Clause).ren f) } : Solver) = t' at h1
      rcases lits with _ | ⟨x, _ | ⟨w, rest⟩⟩
      · exact .error _
      · exact .error _
      · simp only [List.map_cons]
        rw [← f.lit_neg]
        have h2 := h1.watch (-w) c
        cases unit with
        | none => exact ih h2
        | some u =>
          simp only [Option.map_some]
          rw [h2.val]
          split
          · refine .ok ⟨⟨h2.heap, h2.nextId, h2.clauses, ?_, h2.assignments, h2.clauseTrails, h2.levels, rfl, h2.trail, h2.trailLim,
              h2.assigning, h2.status⟩, rfl⟩
            intro l
            simp only [h2.watches]
            exact fset_map f.lit_injective h2.watches _ _ l
          · exact ih (h2.enqueue u c).1

theorem propagate (fuel : Nat) : ∀ {s s' : Solver}, SRel f s s' →
    ERel (fun a b => SRel f a.1 b.1 ∧ b.2 = a.2) (Solver.propagate fuel s) (Solver.propagate fuel s') := by
  induction fuel with
  | zero =>
    intro s s' h
    unfold Solver.propagate
    rw [h.propQueue]
    cases s.propQueue with
    | nil => exact .ok ⟨h, rfl⟩
    | cons l q => exact .error _
  | succ n ih =>
    intro s s' h
    unfold Solver.propagate
    rw [h.propQueue]
    cases s.propQueue with
    | nil => exact .ok ⟨h, rfl⟩
    | cons l q =>
      simp only [List.map_cons]
      rw [h.watches]
      have h1 : SRel f { s with propQueue := q, watches := fset s.watches l [] }
          { s' with propQueue := q.map f.lit, watches := fset s'.watches (f.lit l) [] } := by
        refine ⟨h.heap, h.nextId, h.clauses, ?_, h.assignments, h.clauseTrails, h.levels, rfl, h.trail, h.trailLim, h.assigning, h.status⟩
        intro x
        exact fset_map f.lit_injective h.watches _ _ x
      have h2 := propClauses l (s.watches l).reverse h1
      revert h2
      generalize Solver.propClauses l (s.watches l).reverse { s with propQueue := q, watches := fset s.watches l [] } = x
      generalize Solver.propClauses (f.lit l) (s.watches l).reverse
        { s' with propQueue := q.map f.lit, watches := fset s'.watches (f.lit l) [] } = y
      intro h2
      cases h2 with
      | error e => exact .error e
      | @ok a b h2 =>
        obtain ⟨t, c⟩ := a
        obtain ⟨t', c'⟩ := b
        obtain ⟨h3, h4⟩ := h2
        simp only at h4
        subst h4
        cases c' with
        | some c => exact .ok ⟨h3, rfl⟩
        | none => exact ih h3

theorem undoOne (h : SRel f s s') : SRel f s.undoOne s'.undoOne := by
  unfold Solver.undoOne
  rw [h.trail]
  cases s.trail with
  | nil => exact h
  | cons p rest =>
    simp only [List.map_cons, f.iabs_lit]
    refine ⟨h.heap, h.nextId, h.clauses, h.watches, h.assignments.setItem (iabs p) none, h.clauseTrails, ?_, h.propQueue, rfl, h.trailLim, h.assigning, h.status⟩
    intro x
    exact fset_map f.lit_injective h.levels _ _ x

theorem traceReason (h : SRel f s s') (reason : List Int) : ∀ a : Solver.Ana,
    s'.traceReason (reason.map f.lit) { a with seen := a.seen.map f.lit, learned := a.learned.map f.lit } =
      { s.traceReason reason a with
        seen := (s.traceReason reason a).seen.map f.lit
        learned := (s.traceReason reason a).learned.map f.lit } := by
  induction reason with
  | nil => intro a; rfl
  | cons l rest ih =>
    intro a
    rw [List.map_cons, Solver.traceReason, Solver.traceReason]
    simp only [f.iabs_lit, mem_map_inj f.lit_injective, h.levels, h.level]
    split
    · exact ih a
    · split
      · rw [← ih]
        simp
      · rw [← ih]
        simp [f.lit_neg]

theorem popSeen (seen : List Int) (trail : List Int) : ∀ {s s' : Solver} (ct : List Nat), SRel f s s' →
    ERel (fun a b => b.1 = f.lit a.1 ∧ b.2.1 = a.2.1 ∧ SRel f a.2.2.1 b.2.2.1 ∧ b.2.2.2 = a.2.2.2)
      (Solver.popSeen seen trail s ct) (Solver.popSeen (seen.map f.lit) (trail.map f.lit) s' ct) := by
  induction trail with
  | nil => intro s s' ct h; exact .error _
  | cons p rest ih =>
    intro s s' ct h
    rw [List.map_cons, Solver.popSeen, Solver.popSeen, f.iabs_lit, h.assigning]
    cases s.assigning (iabs p) with
    | none => exact .error _
    | some c =>
      simp only [mem_map_inj f.lit_injective]
      split
      · exact .ok ⟨rfl, rfl, h.undoOne, rfl⟩
      · exact ih _ h.undoOne

theorem analyzeLoop (fuel : Nat) : ∀ {s s' : Solver} (a : Solver.Ana) (c : Nat) (p : Option Int) (ct : List Nat), SRel f s s' →
    ERel (fun x y => SRel f x.1 y.1 ∧ y.2.1 = { x.2.1 with seen := x.2.1.seen.map f.lit, learned := x.2.1.learned.map f.lit } ∧
        y.2.2.1 = f.lit x.2.2.1 ∧ y.2.2.2 = x.2.2.2)
      (Solver.analyzeLoop fuel s a c p ct)
      (Solver.analyzeLoop fuel s' { a with seen := a.seen.map f.lit, learned := a.learned.map f.lit } c (p.map f.lit) ct) := by
  induction fuel with
  | zero => intro s s' a c p ct h; exact .error _
  | succ n ih =>
    intro s s' a c p ct h
    rw [Solver.analyzeLoop, Solver.analyzeLoop, h.litsOf, calculateReason_ren, h.traceReason]
    simp only
    generalize s.traceReason (calculateReason (s.litsOf c) p) a = b
    have h1 := popSeen b.seen s.trail ct h
    rw [h.trail]
    revert h1
    generalize Solver.popSeen b.seen s.trail s ct = x
    generalize Solver.popSeen (b.seen.map f.lit) (s.trail.map f.lit) s' ct = y
    intro h1
    cases h1 with
    | error e => exact .error e
    | @ok x y h1 =>
      obtain ⟨p1, c1, s1, ct1⟩ := x
      obtain ⟨p2, c2, s2, ct2⟩ := y
      obtain ⟨e1, e2, h2, e3⟩ := h1
      simp only at e1 e2 h2 e3
      subst e1 e2 e3
      simp only
      split
      · exact .ok ⟨h2, rfl, rfl, rfl⟩
      · exact ih { b with counter := b.counter - 1 } c2 (some p1) ct2 h2

theorem analyze (h : SRel f s s') (c : Nat) : ERel (fun x y => SRel f x.1 y.1 ∧ y.2 = x.2) (s.analyze c) (s'.analyze c) := by
  unfold Solver.analyze
  have h1 := analyzeLoop (f := f) (s.trail.length + 1) ⟨[], 0, [], 0⟩ c none [c] h
  have e : s'.trail.length = s.trail.length := by rw [h.trail]; simp
  rw [e]
  simp only [List.map_nil, Option.map_none] at h1
  revert h1
  generalize Solver.analyzeLoop (s.trail.length + 1) s ⟨[], 0, [], 0⟩ c none [c] = x
  generalize Solver.analyzeLoop (s.trail.length + 1) s' ⟨[], 0, [], 0⟩ c none [c] = y
  intro h1
  cases h1 with
  | error e => exact .error e
  | @ok x y h1 =>
    obtain ⟨s1, a1, p1, ct1⟩ := x
    obtain ⟨s2, a2, p2, ct2⟩ := y
    obtain ⟨h2, e1, e2, e3⟩ := h1
    simp only at e1 e2 h2 e3
    subst e1 e2 e3
    simp only
    have e4 : a1.learned.map f.lit ++ [-f.lit p1] = (a1.learned ++ [-p1]).map f.lit := by simp [f.lit_neg]
    rw [e4, clause_new_ren]
    obtain ⟨h3, h4⟩ := h2.alloc (Clause.new (a1.learned ++ [-p1]) true none)
    rw [h4]
    exact .ok ⟨⟨h3.heap, h3.nextId, h3.clauses, h3.watches, h3.assignments, by simp [h3.clauseTrails], h3.levels, h3.propQueue, h3.trail,
      h3.trailLim, h3.assigning, h3.status⟩, rfl⟩

theorem undoN (n : Nat) : ∀ {s s' : Solver}, SRel f s s' → SRel f (Solver.undoN n s) (Solver.undoN n s') := by
  induction n with
  | zero => intro s s' h; exact h
  | succ n ih => intro s s' h; exact ih h.undoOne

theorem cancel (h : SRel f s s') : SRel f s.cancel s'.cancel := by
  unfold Solver.cancel
  rw [h.trailLim]
  cases s.trailLim with
  | nil => exact h
  | cons n lim =>
    have e : s'.trail.length = s.trail.length := by rw [h.trail]; simp
    simp only [e]
    exact undoN _ ⟨h.heap, h.nextId, h.clauses, h.watches, h.assignments, h.clauseTrails, h.levels, h.propQueue, h.trail, rfl, h.assigning, h.status⟩

theorem cancelN (n : Nat) : ∀ {s s' : Solver}, SRel f s s' → SRel f (Solver.cancelN n s) (Solver.cancelN n s') := by
  induction n with
  | zero => intro s s' h; exact h
  | succ n ih => intro s s' h; exact ih h.cancel

theorem cancelUntil (h : SRel f s s') (l : Int) : SRel f (s.cancelUntil l) (s'.cancelUntil l) := by
  unfold Solver.cancelUntil
  rw [h.level]
  exact cancelN _ h

end SRel

theorem swapIdx_ren (l : List Int) (i j : Nat) : Solver.swapIdx (l.map f.lit) i j = (Solver.swapIdx l i j).map f.lit := by
  unfold Solver.swapIdx
  rw [List.getElem?_map, List.getElem?_map]
  cases l[i]? with
  | none => rfl
  | some a =>
    cases l[j]? with
    | none => rfl
    | some b => simp [List.map_set]

theorem recordLits_ren {lv lv' : Int → Int} (h : ∀ l, lv' (f.lit l) = lv l) (l : List Int) :
    Solver.recordLits lv' (l.map f.lit) = (Solver.recordLits lv l).map f.lit := by
  unfold Solver.recordLits
  simp only
  rw [List.length_map, swapIdx_ren]
  generalize Solver.swapIdx l 0 (l.length - 1) = l'
  have e : (l'.map f.lit).map (fun l => lv' (iabs l)) = l'.map (fun l => lv (iabs l)) := by
    rw [List.map_map]
    apply List.map_congr_left
    intro x _
    simp [h]
  rw [e, List.length_map]
  split
  · exact swapIdx_ren _ _ _
  · rfl

namespace SRel
variable {s s' : Solver}

theorem record (h : SRel f s s') (c : Nat) : ERel (SRel f) (s.record c) (s'.record c) := by
  unfold Solver.record
  rw [h.litsOf, recordLits_ren h.levels]
  generalize Solver.recordLits s.levels (s.litsOf c) = lits
  have h1 := h.setHeap c { s.heap c with lits := lits }
  have e : ({ s' with heap := fset s'.heap c { s'.heap c with lits := lits.map f.lit } } : Solver) =
      { s' with heap := fset s'.heap c (({ s.heap c with lits := lits } : Clause).ren f) } := by
    rw [h.heap]; rfl
  simp only
  rw [e]
  generalize ({ s with heap := fset s.heap c { s.heap c with lits := lits } } : Solver) = t at h1
  generalize ({ s' with heap := fset s'.heap c (({ s.heap c with lits := lits } : Clause).ren f) } : Solver) = t' at h1
  have h2 := h1.addClauseObj c
  revert h2
  generalize t.addClauseObj c = x
  generalize t'.addClauseObj c = y
  intro h2
  cases h2 with
  | error e => exact .error e
  | ok h2 =>
    cases lits with
    | nil => exact .error _
    | cons l rest => exact .ok (h2.enqueue l c).1

theorem assume (h : SRel f s s') (l : Int) : SRel f (s.assume l) (s'.assume (f.lit l)) := by
  unfold Solver.assume
  refine (SRel.enqueue ?_ l 0).1
  exact ⟨h.heap, h.nextId, h.clauses, h.watches, h.assignments, h.clauseTrails, h.levels, h.propQueue, h.trail,
    by simp [h.trail, h.trailLim], h.assigning, h.status⟩

theorem allAssigned (h : SRel f s s') : s'.allAssigned = s.allAssigned := by
  unfold Solver.allAssigned ASet.numAssigned ASet.len
  rw [h.assignments.assigned, h.assignments.seen]
  simp

theorem propFuel (h : SRel f s s') : s'.propFuel = s.propFuel := by
  unfold Solver.propFuel ASet.len
  rw [h.propQueue, h.assignments.seen]
  simp

end SRel

variable (f) in
/-- the second policy does as the first one, renamed -/
def PolRel {σ σ' : Type} (R : σ → σ' → Prop) (pol : Policy σ) (pol' : Policy σ') : Prop :=
  ∀ ps ps' a a' cs, R ps ps' → ARel f a a' →
    ERel (fun x y => R x.1 y.1 ∧ ARel f x.2.1 y.2.1 ∧ y.2.2 = f.lit x.2.2) (pol.next ps a cs) (pol'.next ps' a' (cs.map (Clause.ren f)))

/-- the two turns end alike -/
inductive TurnRel (f : Ren) {σ σ' : Type} (R : σ → σ' → Prop) : Solver.Turn σ → Solver.Turn σ' → Prop where
  | done {s s' : Solver} {a a' : ASet} : SRel f s s' → ARel f a a' → TurnRel f R (.done s a) (.done s' a')
  | fail {s s' : Solver} (e : Err) : TurnRel f R (.fail e s) (.fail e s')
  | next {s s' : Solver} {ps : σ} {ps' : σ'} : SRel f s s' → R ps ps' → TurnRel f R (.next ps s) (.next ps' s')

section
variable {σ σ' : Type} {R : σ → σ' → Prop} {pol : Policy σ} {pol' : Policy σ'} (hpol : PolRel f R pol pol')
include hpol

theorem turn_ren (root : Nat) {ps : σ} {ps' : σ'} {s s' : Solver} (hp : R ps ps') (h : SRel f s s') :
    TurnRel f R (Solver.turn pol root ps s) (Solver.turn pol' root ps' s') := by
  unfold Solver.turn
  rw [h.propFuel]
  have h1 := SRel.propagate s.propFuel h
  revert h1
  generalize Solver.propagate s.propFuel s = x
  generalize Solver.propagate s.propFuel s' = y
  intro h1
  cases h1 with
  | error e => exact .fail e
  | @ok x y h1 =>
    obtain ⟨s1, c1⟩ := x
    obtain ⟨s2, c2⟩ := y
    obtain ⟨h2, e⟩ := h1
    simp only at e h2
    subst e
    cases c2 with
    | none =>
      simp only
      rw [h2.allAssigned]
      split
      · exact .done h2 h2.assignments.copy
      · have e : s2.clauses.map s2.heap = (s1.clauses.map s1.heap).map (Clause.ren f) := by
          rw [h2.clauses, List.map_map]
          exact List.map_congr_left (fun c _ => h2.heap c)
        rw [e]
        have h3 := hpol ps ps' s1.assignments s2.assignments (s1.clauses.map s1.heap) hp h2.assignments
        revert h3
        generalize pol.next ps s1.assignments (s1.clauses.map s1.heap) = x
        generalize pol'.next ps' s2.assignments ((s1.clauses.map s1.heap).map (Clause.ren f)) = y
        intro h3
        cases h3 with
        | error e => exact .fail e
        | @ok x y h3 =>
          obtain ⟨p1, a1, l1⟩ := x
          obtain ⟨p2, a2, l2⟩ := y
          obtain ⟨h4, h5, e⟩ := h3
          simp only at e h4 h5
          subst e
          refine .next (SRel.assume ?_ l1) h4
          exact ⟨h2.heap, h2.nextId, h2.clauses, h2.watches, h5, h2.clauseTrails, h2.levels, h2.propQueue, h2.trail, h2.trailLim,
            h2.assigning, h2.status⟩
    | some c =>
      simp only
      have h3 := h2.analyze c
      revert h3
      generalize s1.analyze c = x
      generalize s2.analyze c = y
      intro h3
      cases h3 with
      | error e => exact .fail e
      | @ok x y h3 =>
        obtain ⟨s3, l, bt⟩ := x
        obtain ⟨s4, l2, bt2⟩ := y
        obtain ⟨h4, e⟩ := h3
        simp only [Prod.mk.injEq] at e h4
        obtain ⟨rfl, rfl⟩ := e
        simp only
        rw [h4.level]
        split
        · rw [h4.mkUnsat]; exact .fail _
        · have h5 := (h4.cancelUntil (max bt2 (root : Int))).record l2
          revert h5
          generalize (s3.cancelUntil (max bt2 (root : Int))).record l2 = x
          generalize (s4.cancelUntil (max bt2 (root : Int))).record l2 = y
          intro h5
          cases h5 with
          | error e => exact .fail e
          | ok h5 => exact .next h5 hp

/-- the second result is the first one, renamed -/
def FoundRel (f : Ren) : Except (Err × Solver) (Solver × ASet) → Except (Err × Solver) (Solver × ASet) → Prop
  | .error e, .error e' => e'.1 = e.1
  | .ok r, .ok r' => SRel f r.1 r'.1 ∧ ARel f r.2 r'.2
  | _, _ => False

theorem searchLoop_ren (root : Nat) (fuel : Nat) : ∀ {ps : σ} {ps' : σ'} {s s' : Solver}, R ps ps' → SRel f s s' →
    FoundRel f (Solver.searchLoop pol root fuel ps s) (Solver.searchLoop pol' root fuel ps' s') := by
  induction fuel with
  | zero => intro ps ps' s s' hp h; rfl
  | succ n ih =>
    intro ps ps' s s' hp h
    rw [Solver.searchLoop, Solver.searchLoop]
    have h1 := turn_ren hpol root hp h
    revert h1
    generalize Solver.turn pol root ps s = x
    generalize Solver.turn pol' root ps' s' = y
    intro h1
    cases h1 with
    | done h1 h2 => exact ⟨h1, h2⟩
    | fail e => rfl
    | next h1 h2 => exact ih h2 h1

/-- `from_rules(rules).search()` on renamed rules gives the renamed result -/
theorem solveRules_ren {ps : σ} {ps' : σ'} (hp : R ps ps') (fuel : Nat) (rules : List (List Int)) :
    ERel (ARel f) (solveRules pol fuel ps rules) (solveRules pol' fuel ps' (rules.map (List.map f.lit))) := by
  unfold solveRules
  have h1 := SRel.fromRules (f := f) rules
  revert h1
  generalize Solver.fromRules rules = x
  generalize Solver.fromRules (rules.map (List.map f.lit)) = y
  intro h1
  cases h1 with
  | error e => exact .error e
  | @ok s s' h1 =>
    simp only
    unfold Solver.search
    rw [h1.level]
    have h2 := searchLoop_ren hpol s.decisionLevel fuel hp h1
    revert h2
    generalize Solver.searchLoop pol s.decisionLevel fuel ps s = x
    generalize Solver.searchLoop pol' s.decisionLevel fuel ps' s' = y
    intro h2
    rcases x with ⟨e, t⟩ | ⟨t, a⟩ <;> rcases y with ⟨e', t'⟩ | ⟨t', a'⟩
    · have : e' = e := h2
      subst this
      exact .error _
    · exact h2.elim
    · exact h2.elim
    · exact .ok h2.2

end

/-! ### policies -/

theorem defaultPolicy_ren : PolRel f (fun _ _ => True) defaultPolicy defaultPolicy := by
  intro ps ps' a a' cs _ h
  unfold defaultPolicy
  simp only
  rw [h.items, List.find?_map]
  have : ((fun kv : Int × Option Bool => kv.2.isNone) ∘ fun kv : Int × Option Bool => (f.lit kv.1, kv.2)) = fun kv => kv.2.isNone := rfl
  rw [this]
  cases a.items.find? (fun kv => kv.2.isNone) with
  | none => exact .error _
  | some kv => exact .ok ⟨trivial, h, rfl⟩

variable (f) in
/-- the second state of the policy is the first one, renamed -/
structure PSRel (st st' : PolState) : Prop where
  prefer : st'.prefer = st.prefer.map f.lit
  requirements : st'.requirements = st.requirements.map f.lit
  decisionSet : st'.decisionSet = st.decisionSet.map f.lit
  allIds : st'.allIds = st.allIds.map f.lit
  tick : st'.tick = st.tick

section
variable {V : Type} [LinearOrder V] {ver ver' : Int → Option V} (hver : ∀ l, ver' (f.lit l) = ver l)
  {order order' : List Int → List Int} (ho : ∀ l, order' (l.map f.lit) = (order l).map f.lit)
include hver

theorem maxByFrom_ren (l : List Int) : ∀ b : Int × V,
    maxByFrom ver' (l.map f.lit) (f.lit b.1, b.2) = (maxByFrom ver l b).map f.lit := by
  induction l with
  | nil => intro b; rfl
  | cons x l ih =>
    intro b
    rw [List.map_cons, maxByFrom, maxByFrom, hver x]
    cases ver x with
    | none => rfl
    | some v =>
      simp only
      split
      · exact ih (x, v)
      · exact ih b

theorem maxBy_ren (l : List Int) : maxBy ver' (l.map f.lit) = (maxBy ver l).map (Option.map f.lit) := by
  cases l with
  | nil => rfl
  | cons x l =>
    rw [List.map_cons, maxBy, maxBy, hver x]
    cases ver x with
    | none => rfl
    | some v =>
      simp only
      rw [maxByFrom_ren hver l (x, v)]
      cases maxByFrom ver l (x, v) <;> rfl

omit hver in
theorem withoutAssigned_ren {a a' : ASet} (h : ARel f a a') (l : List Int) :
    withoutAssigned (l.map f.lit) a' = (withoutAssigned l a).map f.lit := by
  unfold withoutAssigned
  rw [h.assigned, filter_notin_map f.lit_injective]

omit hver in
theorem bestSorted_ren {a a' : ASet} (h : ARel f a a') (l : List Int) :
    bestSorted (l.map f.lit) a' = (bestSorted l a).map f.lit := by
  unfold bestSorted
  rw [h.assigned, List.find?_map]
  congr 2
  funext x
  simp only [Function.comp, mem_map_inj f.lit_injective]

include ho in
theorem bestCandidate_ren {a a' : ASet} (h : ARel f a a') (l : List Int) :
    bestCandidate ver' order' (l.map f.lit) a' = (bestCandidate ver order l a).map (Option.map f.lit) := by
  unfold bestCandidate
  rw [withoutAssigned_ren h, ho, maxBy_ren hver]

omit hver in
theorem clauseVars_ren (cs : List Clause) :
    (cs.map (Clause.ren f)).flatMap (fun c => c.lits.map iabs) = (cs.flatMap (fun c => c.lits.map iabs)).map f.lit := by
  rw [List.flatMap_map, List.map_flatMap]
  congr 1
  funext c
  unfold Clause.ren
  simp only [List.map_map]
  apply List.map_congr_left
  intro x _
  exact f.iabs_lit x

omit hver in
theorem refresh_ren {st st' : PolState} {a a' : ASet} (hs : PSRel f st st') (h : ARel f a a') (cs : List Clause) :
    PSRel f (refresh st a cs).1 (refresh st' a' (cs.map (Clause.ren f))).1 ∧
    ARel f (refresh st a cs).2 (refresh st' a' (cs.map (Clause.ren f))).2 := by
  unfold refresh
  have h1 := h.consumeChangelog
  refine ⟨⟨hs.prefer, hs.requirements, ?_, ?_, hs.tick⟩, h1⟩
  · simp only
    rw [h1.assigned, ← filter_notin_map f.lit_injective, ← fromkeys_map f.lit_injective, ← clauseVars_ren, List.filter_map]
    congr 3
    congr 1
    apply List.filter_congr
    intro c _
    unfold Clause.ren
    simp only [Function.comp, List.any_map]
    congr 2
    funext l
    simp only [Function.comp, h1.value]
  · simp only
    rw [clauseVars_ren, fromkeys_map f.lit_injective, hs.prefer, supdate_map f.lit_injective]

omit hver in
theorem checkChoice_ren {st st' : PolState} {a a' : ASet} (hs : PSRel f st st') (h : ARel f a a') (p : Option Int) :
    ERel (fun x y => PSRel f x.1 y.1 ∧ ARel f x.2.1 y.2.1 ∧ y.2.2 = f.lit x.2.2) (checkChoice st a p) (checkChoice st' a' (p.map f.lit)) := by
  cases p with
  | none => exact .error _
  | some p =>
    simp only [Option.map_some, checkChoice, h.value]
    split
    · exact .ok ⟨hs, h, rfl⟩
    · exact .error _

include ho in
theorem pickAfterRefresh_ren {st st' : PolState} {a a' : ASet} (hs : PSRel f st st') (h : ARel f a a') :
    ERel (fun x y => PSRel f x.1 y.1 ∧ ARel f x.2.1 y.2.1 ∧ y.2.2 = f.lit x.2.2) (pickAfterRefresh ver order st a)
      (pickAfterRefresh ver' order' st' a') := by
  unfold pickAfterRefresh
  rw [hs.decisionSet, bestCandidate_ren hver ho h, hs.allIds, bestCandidate_ren hver ho h]
  cases bestCandidate ver order st.decisionSet a with
  | error e => exact .error e
  | ok p =>
    cases p with
    | some p => exact checkChoice_ren hs h (some p)
    | none =>
      simp only [Except.map, Option.map_none]
      cases bestCandidate ver order st.allIds a with
      | error e => exact .error e
      | ok p => exact checkChoice_ren hs h p

include ho in
theorem pick_ren {st st' : PolState} {a a' : ASet} (hs : PSRel f st st') (h : ARel f a a') (cs : List Clause) :
    ERel (fun x y => PSRel f x.1 y.1 ∧ ARel f x.2.1 y.2.1 ∧ y.2.2 = f.lit x.2.2) (pick ver order st a cs)
      (pick ver' order' st' a' (cs.map (Clause.ren f))) := by
  unfold pick
  rw [hs.prefer, bestSorted_ren h]
  cases bestSorted st.prefer a with
  | some p => exact checkChoice_ren hs h (some p)
  | none =>
    simp only [Option.map_none]
    rw [hs.requirements, bestCandidate_ren hver ho h, hs.decisionSet, bestCandidate_ren hver ho h]
    cases bestCandidate ver order st.requirements a with
    | error e => exact .error e
    | ok p =>
      cases p with
      | some p => exact checkChoice_ren hs h (some p)
      | none =>
        simp only [Except.map, Option.map_none]
        have hs' : PSRel f { st with decisionSet := withoutAssigned st.decisionSet a }
            { prefer := st.prefer.map f.lit, requirements := st.requirements.map f.lit,
              decisionSet := withoutAssigned (st.decisionSet.map f.lit) a', allIds := st'.allIds, tick := st'.tick } :=
          ⟨rfl, rfl, withoutAssigned_ren h _, hs.allIds, hs.tick⟩
        cases bestCandidate ver order st.decisionSet a with
        | error e => exact .error e
        | ok p =>
          cases p with
          | some p => exact checkChoice_ren hs' h (some p)
          | none =>
            obtain ⟨h1, h2⟩ := refresh_ren hs' h cs
            exact pickAfterRefresh_ren hver ho h1 h2

end

section
variable {V : Type} [LinearOrder V] {ver ver' : Int → Option V} (hver : ∀ l, ver' (f.lit l) = ver l)
  {order order' : Nat → List Int → List Int} (ho : ∀ n l, order' n (l.map f.lit) = (order n l).map f.lit)
include hver ho

theorem nextPackage_ren {st st' : PolState} {a a' : ASet} (hs : PSRel f st st') (h : ARel f a a') (cs : List Clause) :
    ERel (fun x y => PSRel f x.1 y.1 ∧ ARel f x.2.1 y.2.1 ∧ y.2.2 = f.lit x.2.2) (nextPackage ver order st a cs)
      (nextPackage ver' order' st' a' (cs.map (Clause.ren f))) := by
  unfold nextPackage
  rw [hs.tick]
  have e : a'.newKeys ≠ [] ↔ a.newKeys ≠ [] := by rw [h.newKeys]; simp
  have key : ∀ r r' : PolState × ASet, PSRel f r.1 r'.1 → ARel f r.2 r'.2 →
      ERel (fun x y => PSRel f x.1 y.1 ∧ ARel f x.2.1 y.2.1 ∧ y.2.2 = f.lit x.2.2)
        (pick ver (order st.tick) { r.1 with tick := st.tick + 1 } r.2 cs)
        (pick ver' (order' st.tick) { r'.1 with tick := st.tick + 1 } r'.2 (cs.map (Clause.ren f))) := by
    intro r r' h1 h2
    exact pick_ren (st := { r.1 with tick := st.tick + 1 }) (st' := { r'.1 with tick := st.tick + 1 }) hver (ho st.tick) ⟨h1.prefer, h1.requirements, h1.decisionSet, h1.allIds, rfl⟩ h2 cs
  by_cases hk : a.newKeys ≠ []
  · rw [if_pos hk, if_pos (e.2 hk)]
    obtain ⟨h1, h2⟩ := refresh_ren hs h cs
    exact key _ _ h1 h2
  · rw [if_neg hk, if_neg (fun q => hk (e.1 q))]
    exact key _ _ hs h

theorem packagePolicy_ren : PolRel f (PSRel f) (packagePolicy ver order) (packagePolicy ver' order') := by
  intro st st' a a' cs hs h
  unfold packagePolicy
  simp only
  have h1 := nextPackage_ren hver ho hs h.getChangelog cs
  revert h1
  generalize nextPackage ver order st a.getChangelog.1 cs = x
  generalize nextPackage ver' order' st' a'.getChangelog.1 (cs.map (Clause.ren f)) = y
  intro h1
  cases h1 with
  | error e => exact .error e
  | @ok x y h1 => exact .ok ⟨h1.1, h1.2.1.consumeChangelog, h1.2.2⟩

end

theorem start_ren (prefer reqs : List Int) : PSRel f (PolState.start prefer reqs) (PolState.start (prefer.map f.lit) (reqs.map f.lit)) :=
  ⟨rfl, fromkeys_map f.lit_injective reqs, rfl, rfl, rfl⟩

end Verif.Sat
