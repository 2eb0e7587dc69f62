import Verif.AssignmentSet
/-
Model of simplesat/sat/clause.py and of the class MiniSATSolver of simplesat/sat/minisat.py.

Clause objects are mutable and shared (solver.clauses, solver.watches, solver.assigning_clauses,
solver.clause_trails all hold references), so the model has a heap of clauses indexed by `Nat`.
Heap cell 0 is the one shared object `Clause([])`, the default value of the `cause` argument of
`MiniSATSolver.assume` (minisat.py:561).
The lists `trail` and `trail_lim` are kept newest-first (Python appends at the end and pops from
the end); everything else is in Python order.
-/
namespace Verif.Sat
open Verif

/-- A Clause object; clause.py:10-29. `rule` stands for the PackageRule reference: the position of
the rule in the list given to `from_rules`. -/
structure Clause where
  lits : List Int
  learned : Bool
  rule : Option Nat
deriving DecidableEq

/-- `Clause(lits, learned, rule)`: duplicate literals are dropped; clause.py:12-29. -/
def Clause.new (lits : List Int) (learned : Bool) (rule : Option Nat) : Clause :=
  { lits := fromkeys lits, learned := learned, rule := rule }

/-- The information handed to `UNSAT(...)`; minisat.py:24-46. -/
structure UnsatInfo where
  conflict : Nat
  learned : Nat
deriving DecidableEq

/-- What can go wrong in the SAT layer. `outOfFuel` belongs to the model, the rest is Python. -/
inductive Err where
  | satisfiability (u : UnsatInfo)
  | assertion
  | indexError
  | keyError
  | typeError
  | stopIteration
  | outOfFuel
deriving DecidableEq

/-- The loop `for n, other in enumerate(lits[2:])` of `rewatch`, clause.py:64-68: the first literal
of `rest` that is not false is replaced by `x`; returns that literal and the new `lits[2:]`. -/
def findWatch (val : Int → Option Bool) (x : Int) : List Int → Option (Int × List Int)
  | [] => none
  | o :: rest =>
    if val o ≠ some false then some (o, x :: rest)
    else match findWatch val x rest with
      | none => none
      | some (w, rest') => some (w, o :: rest')

/-- `Clause.rewatch(assignments, lit)`: new literal order and unit information; clause.py:31-72. -/
def rewatch (val : Int → Option Bool) (lits : List Int) (lit : Int) :
    Except Err (List Int × Option Int) :=
  match lits with
  | a :: b :: rest =>
    if a = -lit ∨ b = -lit then
      -- clause.py:54-55: make the false literal the second one
      let other := if a = -lit then b else a
      if val other = some true then .ok (other :: -lit :: rest, none)
      else match findWatch val (-lit) rest with
        | some (w, rest') => .ok (other :: w :: rest', none)
        | none => .ok (other :: -lit :: rest, some other)
    else .error .assertion
  | [a] => if a = -lit then .error .indexError else .error .assertion
  | [] => .error .assertion

/-- `Clause.calculate_reason(p)`; clause.py:74-85. `p = none` is Python's `None`. -/
def calculateReason (lits : List Int) (p : Option Int) : List Int :=
  (lits.filter (fun l => decide (some l ≠ p))).map (fun l => -l)

/-- The fields of MiniSATSolver; minisat.py:288-319 (`_policy` is passed separately). -/
structure Solver where
  heap : Nat → Clause
  nextId : Nat
  clauses : List Nat
  watches : Int → List Nat
  assignments : ASet
  clauseTrails : List (Nat × List Nat)
  levels : Int → Int
  propQueue : List Int
  trail : List Int
  trailLim : List Nat
  assigning : Int → Option Nat
  status : Option Bool

namespace Solver

/-- `MiniSATSolver()`; minisat.py:288-319. -/
def init : Solver :=
  { heap := fun _ => { lits := [], learned := false, rule := none }
    nextId := 1
    clauses := []
    watches := fun _ => []
    assignments := ASet.empty
    clauseTrails := []
    levels := fun _ => 0
    propQueue := []
    trail := []
    trailLim := []
    assigning := fun _ => none
    status := none }

/-- `decision_level`; minisat.py:577-581. -/
def decisionLevel (s : Solver) : Nat := s.trailLim.length

/-- literals of a heap clause -/
def litsOf (s : Solver) (cid : Nat) : List Int := (s.heap cid).lits

/-- value of a literal under the current assignments -/
def val (s : Solver) (l : Int) : Option Bool := s.assignments.value l

/-- The "new fact, store it" branch of `enqueue`; minisat.py:413-420. -/
def push (s : Solver) (lit : Int) (cause : Nat) : Solver :=
  { s with
    assignments := s.assignments.setItem (iabs lit) (some (decide (0 < lit)))
    propQueue := s.propQueue ++ [lit]
    trail := lit :: s.trail
    levels := fset s.levels (iabs lit) (s.decisionLevel : Int)
    assigning := fset s.assigning (iabs lit) (some cause) }

/-- `enqueue(lit, cause)`: new state and return value; minisat.py:397-420. -/
def enqueue (s : Solver) (lit : Int) (cause : Nat) : Solver × Bool :=
  match s.val lit with
  | some b => (s, b)
  | none => (s.push lit cause, true)

/-- Allocate a clause object on the heap (not yet in `self.clauses`). -/
def alloc (s : Solver) (c : Clause) : Solver × Nat :=
  ({ s with heap := fset s.heap s.nextId c, nextId := s.nextId + 1 }, s.nextId)

/-- `UNSAT.__init__`, the checks that can fail: the learned clause must be a unit clause and its
negation must have an assigning clause (for a decision this is the shared `Clause([])`, which is not None); minisat.py:64-67. -/
def mkUnsat (s : Solver) (conflict learned : Nat) : Err :=
  match s.litsOf learned with
  | [l] => match s.assigning (iabs (-l)) with
    | some _ => .satisfiability ⟨conflict, learned⟩
    | none => .keyError
  | _ => .assertion

/-- `self.watches[k].append(cid)`; minisat.py:355-356, 380. -/
def watch (s : Solver) (k : Int) (cid : Nat) : Solver :=
  { s with watches := fset s.watches k (s.watches k ++ [cid]) }

/-- `add_clause` for an existing Clause object; minisat.py:338-358. -/
def addClauseObj (s : Solver) (cid : Nat) : Except Err Solver :=
  match s.litsOf cid with
  | [] => .ok { s with status := some false }
  | [l] =>
    let (s, ok) := s.enqueue l cid
    if ok then .ok { s with clauses := s.clauses ++ [cid] }
    else .error (s.mkUnsat cid cid)
  | p :: q :: _ =>
    let s := (s.watch (-p) cid).watch (-q) cid
    .ok { s with clauses := s.clauses ++ [cid] }

/-- `add_clause` for a sequence of literals; minisat.py:321-358. -/
def addClause (s : Solver) (lits : List Int) (rule : Option Nat) : Except Err Solver :=
  let (s, cid) := s.alloc (Clause.new lits false rule)
  s.addClauseObj cid

/-- The loop of `from_rules`, minisat.py:282-284; `i` numbers the rules. -/
def addRules (s : Solver) : Nat → List (List Int) → Except Err Solver
  | _, [] => .ok s
  | i, r :: rs => match s.addClause r (some i) with
    | .error e => .error e
    | .ok s => s.addRules (i + 1) rs

/-- `_setup_assignments`; minisat.py:360-367. -/
def setupAssignments (s : Solver) : Solver :=
  let vars := fromkeys ((s.clauses.flatMap s.litsOf).map iabs)
  let asg := vars.foldl (fun a v => if a.contains v then a else a.setItem v none) s.assignments
  { s with assignments := asg }

/-- `MiniSATSolver.from_rules(rules)`; minisat.py:266-286. -/
def fromRules (rules : List (List Int)) : Except Err Solver :=
  match init.addRules 0 rules with
  | .error e => .error e
  | .ok s => .ok s.setupAssignments

/-- The inner loop of `propagate` over the clauses taken from `watches[lit]`, minisat.py:375-395.
The first argument is the part of the local list `clauses` still to be popped, last element
first. Returns the conflicting clause, if any. -/
def propClauses (lit : Int) : List Nat → Solver → Except Err (Solver × Option Nat)
  | [], s => .ok (s, none)
  | cid :: rest, s =>
    match rewatch s.val (s.litsOf cid) lit with
    | .error e => .error e
    | .ok (lits', unit) =>
      let s := { s with heap := fset s.heap cid { s.heap cid with lits := lits' } }
      match lits' with
      | _ :: w :: _ =>
        let s := s.watch (-w) cid
        match unit with
        | none => propClauses lit rest s
        | some u =>
          if s.val u = some false then
            .ok ({ s with
              propQueue := []
              watches := fset s.watches lit (s.watches lit ++ rest.reverse) }, some cid)
          else propClauses lit rest (s.enqueue u cid).1
      | _ => .error .indexError

/-- `propagate()`; minisat.py:369-395. The fuel bounds the number of literals taken from the
queue. -/
def propagate : Nat → Solver → Except Err (Solver × Option Nat)
  | fuel, s =>
    match s.propQueue with
    | [] => .ok (s, none)
    | lit :: queue =>
      match fuel with
      | 0 => .error .outOfFuel
      | fuel + 1 =>
        let pending := (s.watches lit).reverse
        let s := { s with propQueue := queue, watches := fset s.watches lit [] }
        match propClauses lit pending s with
        | .error e => .error e
        | .ok (s, some cid) => .ok (s, some cid)
        | .ok (s, none) => propagate fuel s

/-- `undo_one()`; minisat.py:539-545. (`trail.pop()` on an empty trail would be an IndexError: both
callers below pop at most `len(trail)` literals.) -/
def undoOne (s : Solver) : Solver :=
  match s.trail with
  | [] => s
  | p :: rest =>
    { s with
      trail := rest
      assignments := s.assignments.setItem (iabs p) none
      levels := fset s.levels (iabs p) (-1) }

/-- Local variables of `analyze`. -/
structure Ana where
  seen : List Int
  counter : Int
  learned : List Int
  btlevel : Int

/-- `for lit in reason` in `analyze`; minisat.py:485-496. -/
def traceReason (s : Solver) : List Int → Ana → Ana
  | [], a => a
  | lit :: rest, a =>
    let v := iabs lit
    if v ∈ a.seen then traceReason s rest a
    else
      let a := { a with seen := a.seen ++ [v] }
      if s.levels v = (s.decisionLevel : Int) then
        traceReason s rest { a with counter := a.counter + 1 }
      else
        traceReason s rest { a with learned := a.learned ++ [-lit],
                                    btlevel := max a.btlevel (s.levels v) }

/-- The inner `while True` of `analyze`: pop the trail up to a variable already seen;
minisat.py:499-505. The list argument is `s.trail`. Returns p, the clause that assigned it, the new
state and the extended clause trail. -/
def popSeen (seen : List Int) : List Int → Solver → List Nat →
    Except Err (Int × Nat × Solver × List Nat)
  | [], _, _ => .error .indexError
  | p :: rest, s, ct =>
    match s.assigning (iabs p) with
    | none => .error .keyError
    | some conflict =>
      let ct := ct ++ [conflict]
      let s := s.undoOne
      if iabs p ∈ seen then .ok (p, conflict, s, ct)
      else popSeen seen rest s ct

/-- The outer `while True` of `analyze`; minisat.py:481-509. Every turn pops the trail, so
`len(trail) + 1` turns are enough fuel. -/
def analyzeLoop : Nat → Solver → Ana → Nat → Option Int → List Nat →
    Except Err (Solver × Ana × Int × List Nat)
  | 0, _, _, _, _, _ => .error .outOfFuel
  | fuel + 1, s, a, conflict, p, ct =>
    let a := s.traceReason (calculateReason (s.litsOf conflict) p) a
    match popSeen a.seen s.trail s ct with
    | .error e => .error e
    | .ok (p, conflict, s, ct) =>
      let a := { a with counter := a.counter - 1 }
      if a.counter = 0 then .ok (s, a, p, ct)
      else analyzeLoop fuel s a conflict (some p) ct

/-- `analyze(conflict)`: new state, learned clause, backtrack level; minisat.py:463-514. -/
def analyze (s : Solver) (conflict : Nat) : Except Err (Solver × Nat × Int) :=
  match analyzeLoop (s.trail.length + 1) s ⟨[], 0, [], 0⟩ conflict none [conflict] with
  | .error e => .error e
  | .ok (s, a, p, ct) =>
    let (s, learned) := s.alloc (Clause.new (a.learned ++ [-p]) true none)
    .ok ({ s with clauseTrails := s.clauseTrails ++ [(learned, ct)] }, learned, a.btlevel)

/-- `n` calls of `undo_one`. -/
def undoN : Nat → Solver → Solver
  | 0, s => s
  | n + 1, s => undoN n s.undoOne

/-- `cancel()`; minisat.py:553-559. (`trail_lim.pop()` on an empty list would be an IndexError;
`cancel_until` only calls it when `decision_level > level >= 0`.) -/
def cancel (s : Solver) : Solver :=
  match s.trailLim with
  | [] => s
  | n :: lim => undoN (s.trail.length - n) { s with trailLim := lim }

/-- The loop of `cancel_until`, minisat.py:550-551: one `cancel` per level above the wanted one. -/
def cancelN : Nat → Solver → Solver
  | 0, s => s
  | n + 1, s => cancelN n s.cancel

/-- `cancel_until(level)`; minisat.py:547-551. -/
def cancelUntil (s : Solver) (level : Int) : Solver :=
  cancelN ((s.decisionLevel : Int) - level).toNat s

/-- `lits[i], lits[j] = lits[j], lits[i]` -/
def swapIdx (l : List Int) (i j : Nat) : List Int :=
  match l[i]?, l[j]? with
  | some a, some b => (l.set i b).set j a
  | _, _ => l

/-- Position of the first maximal element: `max(enumerate(xs), key=...)[0]`; `i` is the position of
the head, `best` the best position and value so far. -/
def argmaxFrom : List Int → Nat → Nat × Int → Nat
  | [], _, best => best.1
  | x :: xs, i, best => if best.2 < x then argmaxFrom xs (i + 1) (i, x) else argmaxFrom xs (i + 1) best

def argmax : List Int → Nat
  | [] => 0
  | x :: xs => argmaxFrom xs 1 (0, x)

/-- The literal order computed by `record`; minisat.py:524-534. -/
def recordLits (levels : Int → Int) (lits : List Int) : List Int :=
  let lits := swapIdx lits 0 (lits.length - 1)
  let maxI := argmax (lits.map (fun l => levels (iabs l)))
  if 2 ≤ lits.length then swapIdx lits 1 maxI else lits

/-- `record(learned_clause)`; minisat.py:516-537. -/
def record (s : Solver) (cid : Nat) : Except Err Solver :=
  let lits := recordLits s.levels (s.litsOf cid)
  let s := { s with heap := fset s.heap cid { s.heap cid with lits := lits } }
  match s.addClauseObj cid with
  | .error e => .error e
  | .ok s => match lits with
    | [] => .error .indexError
    | l :: _ => .ok (s.enqueue l cid).1

/-- `assume(lit)`; minisat.py:561-563. -/
def assume (s : Solver) (lit : Int) : Solver :=
  ({ s with trailLim := s.trail.length :: s.trailLim }.enqueue lit 0).1

/-- `number_assigned == number_variables`; minisat.py:429, 565-575. -/
def allAssigned (s : Solver) : Bool :=
  decide (s.assignments.numAssigned = s.assignments.len)

/-- `validate(solution_map)`; minisat.py:453-461. A solution map gives a truth status to each of its
keys; the result is true when no clause is disjoint from the literals it makes true. -/
def validate (s : Solver) (solution : List (Int × Bool)) : Bool :=
  let lits := solution.map (fun (v, st) => if st then v else -v)
  !(s.clauses.any (fun cid => (s.litsOf cid).all (fun l => !(decide (l ∈ lits)))))

end Solver

/-- A decision policy: `get_next_package_id(assignments, clauses)`. It may keep state and it may
touch the changelog of the assignment set; policy/policy.py:20-32. -/
structure Policy (σ : Type) where
  next : σ → ASet → List Clause → Except Err (σ × ASet × Int)

namespace Solver

/-- Fuel handed to one call of `propagate`: at least the number of literals that can enter the
queue (the pending ones plus one per variable). -/
def propFuel (s : Solver) : Nat :=
  s.propQueue.length + s.assignments.len + 1

/-- Outcome of one turn of the loop of `search()`. -/
inductive Turn (σ : Type) where
  | done (s : Solver) (a : ASet)
  | fail (e : Err) (s : Solver)
  | next (ps : σ) (s : Solver)

/-- One turn of the loop of `search()`; minisat.py:426-451. `fail` carries the state in which the exception was
raised. -/
def turn {σ : Type} (pol : Policy σ) (root : Nat) (ps : σ) (s : Solver) : Turn σ :=
  match propagate s.propFuel s with
  | .error e => .fail e s
  | .ok (s, none) =>
    if s.allAssigned then .done s s.assignments.copy
    else match pol.next ps s.assignments (s.clauses.map s.heap) with
      | .error e => .fail e s
      | .ok (ps, a, p) => .next ps ({ s with assignments := a }.assume p)
  | .ok (s, some conflict) =>
    match s.analyze conflict with
    | .error e => .fail e s
    | .ok (s, learned, bt) =>
      if root = s.decisionLevel then .fail (s.mkUnsat conflict learned) s
      else
        match (s.cancelUntil (max bt (root : Int))).record learned with
        | .error e => .fail e s
        | .ok s => .next ps s

/-- The loop of `search()`; minisat.py:422-451. The fuel bounds the number of turns, i.e. of decisions
plus conflicts. -/
def searchLoop {σ : Type} (pol : Policy σ) (root : Nat) : Nat → σ → Solver →
    Except (Err × Solver) (Solver × ASet)
  | 0, _, s => .error (.outOfFuel, s)
  | fuel + 1, ps, s =>
    match turn pol root ps s with
    | .done s a => .ok (s, a)
    | .fail e s => .error (e, s)
    | .next ps s => searchLoop pol root fuel ps s

/-- `search()`; minisat.py:422-451. -/
def search {σ : Type} (pol : Policy σ) (fuel : Nat) (ps : σ) (s : Solver) :
    Except (Err × Solver) (Solver × ASet) :=
  searchLoop pol s.decisionLevel fuel ps s

end Solver

/-- `MiniSATSolver.from_rules(rules, policy).search()`; minisat.py:266-286, 422-451. -/
def solveRules {σ : Type} (pol : Policy σ) (fuel : Nat) (ps : σ) (rules : List (List Int)) :
    Except Err ASet :=
  match Solver.fromRules rules with
  | .error e => .error e
  | .ok s => match s.search pol fuel ps with
    | .error (e, _) => .error e
    | .ok (_, a) => .ok a

end Verif.Sat
