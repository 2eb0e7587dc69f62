import Verif.Solve.Model
import Verif.Sat.Prov
import Mathlib.Data.List.Lex
/-
Model of class UNSAT (simplesat/sat/minisat.py:20-262), the explanation that a SatisfiabilityError carries, and of
`PackageRule.to_string` (rules_generator.py:91-142), which prints its rules.

Texts are lists of characters. The texts of names, versions and requirements are parameters.
-/
namespace Verif.Solve
open Verif Verif.Pkg Verif.Graph Verif.Rules

variable {N S U : Type} [LinearOrder N] [DecidableEq S] [LinearOrder U] [Syntax S U]

/-- What can go wrong while an explanation is built or printed. `outOfFuel` belongs to the model, the rest is Python. -/
inductive XErr where
  | assertion
  | keyError
  | attributeError
  | typeError
  | indexError
  | outOfFuel
deriving DecidableEq

/-- `mapE` for these exceptions: `[f(x) for x in xs]` -/
def mapX {α β : Type} (f : α → Except XErr β) : List α → Except XErr (List β)
  | [] => .ok []
  | x :: xs => match f x with
    | .error e => .error e
    | .ok y => match mapX f xs with
      | .error e => .error e
      | .ok ys => .ok (y :: ys)

/-- What an UNSAT object refers to: the clause objects of the solver, the trails of the learned clauses
(`_clause_trails`), the clauses that assigned the variables (`_assigning_clauses`), and the rules of the clauses;
minisat.py:24-46. -/
structure Evidence (N U : Type) where
  heap : Nat → Sat.Clause
  trails : Dict Nat (List Nat)
  assigning : Int → Option Nat
  rules : List (Rule N U)

namespace Evidence

/-- `clause.rule`; clause.py:12-29, minisat.py:282-284 -/
def rule (e : Evidence N U) (c : Nat) : Option (Rule N U) := (e.heap c).rule.bind (fun i => e.rules[i]?)

/-- `clause.lits` -/
def lits (e : Evidence N U) (c : Nat) : List Int := (e.heap c).lits

/-- `clause.learned` -/
def learned (e : Evidence N U) (c : Nat) : Bool := (e.heap c).learned

/-- `clause.rule and clause.rule._requirements`, as a condition; minisat.py:166, 197 -/
def hasReqs (e : Evidence N U) (c : Nat) : Bool :=
  match e.rule c with
  | none => false
  | some r => !r.requirements.isEmpty

end Evidence

/-- The dictionaries `_flat_clause_trails` and `_clause_requirements`; minisat.py:48-52 -/
structure Memo where
  flat : Dict Nat (List Nat)
  reqs : Dict Nat (List Nat)

/-- The loop of `clause_trail`; minisat.py:228-233. `self` is the recursive call: clause, `ignore` and the dictionaries to
the trail, `ignore` and the dictionaries. -/
def trailLoop (e : Evidence N U) (self : Nat → List Nat → Memo → Except XErr (List Nat × List Nat × Memo)) :
    List Nat → List Nat → List Nat → Memo → Except XErr (List Nat × List Nat × Memo)
  | [], flat, ign, m => .ok (flat, ign, m)
  | t :: ts, flat, ign, m =>
    if e.learned t then
      match self t ign m with
      | .error x => .error x
      | .ok (fs, ign, m) => trailLoop e self ts (flat ++ fs) (sadd t ign) m
    else trailLoop e self ts (flat ++ [t]) (sadd t ign) m

/-- `clause_trail(clause, ignore)`; minisat.py:212-235. `ignore` is mutated, so it is also returned; a call without it
starts from the empty set. The first argument bounds the depth of the recursion (Python's own limit is not modelled). -/
def clauseTrail (e : Evidence N U) : Nat → Nat → List Nat → Memo → Except XErr (List Nat × List Nat × Memo)
  | 0, _, _, _ => .error .outOfFuel
  | fuel + 1, c, ign, m =>
    if c ∈ ign then .ok ([], ign, m)
    else
      let ign := sadd c ign
      match dget m.flat c with
      | some flat => .ok (flat, ign, m)
      | none =>
        if e.learned c then
          match dget e.trails c with
          | none => .error .keyError
          | some ts => match trailLoop e (clauseTrail e fuel) ts [] ign m with
            | .error x => .error x
            | .ok (flat, ign, m) => .ok (flat, ign, { m with flat := dset m.flat c flat })
        else .ok ([], ign, { m with flat := dset m.flat c [] })

/-- The generator in `clause_requirements`; minisat.py:205-206 -/
def reqLoop (self : Nat → List Nat → Memo → Except XErr (List Nat × List Nat × Memo)) :
    List Nat → List Nat → List Nat → Memo → Except XErr (List Nat × List Nat × Memo)
  | [], reqs, ign, m => .ok (reqs, ign, m)
  | t :: ts, reqs, ign, m =>
    match self t ign m with
    | .error x => .error x
    | .ok (rs, ign, m) => reqLoop self ts (reqs ++ rs) ign m

/-- `clause_requirements(clause, ignore)`; minisat.py:183-210. A clause number is enough fuel for `clause_trail`, since
the clauses of a trail are older than the clause. -/
def clauseRequirements (e : Evidence N U) : Nat → Nat → List Nat → Memo → Except XErr (List Nat × List Nat × Memo)
  | 0, _, _, _ => .error .outOfFuel
  | fuel + 1, c, ign, m =>
    if c ∈ ign then .ok ([], ign, m)
    else
      let ign := sadd c ign
      match dget m.reqs c with
      | some reqs => .ok (reqs, ign, m)
      | none =>
        let reqs := if e.hasReqs c then [c] else []
        if e.learned c then
          match clauseTrail e (c + 1) c [] m with
          | .error x => .error x
          | .ok (trail, _, m) => match reqLoop (clauseRequirements e fuel) trail reqs ign m with
            | .error x => .error x
            | .ok (reqs, ign, m) => .ok (reqs, ign, { m with reqs := dset m.reqs c reqs })
        else .ok (reqs, ign, { m with reqs := dset m.reqs c reqs })

/-- The iteration orders of the sets of clauses that are sorted; clauses are hashed by their addresses. -/
structure XOrders where
  /-- `flat_clauses`; minisat.py:164-169 -/
  ends : List Nat → List Nat
  endsPerm : ∀ l, (ends l).Perm l
  /-- `set.union(*clause_sets)`, for the clause given first; minisat.py:111-112 -/
  near : Nat → List Nat → List Nat
  nearPerm : ∀ c l, (near c l).Perm l

/-- `_key(clause)`; minisat.py:89-90 -/
def Evidence.key (e : Evidence N U) (c : Nat) : List Int := sortBy id (e.lits c)

/-- the condition of `_end_clauses`; minisat.py:164-168 -/
def Evidence.isEnd (e : Evidence N U) (implicand : Int) (c : Nat) : Bool :=
  match e.rule c with
  | none => false
  | some r => !r.requirements.isEmpty && (decide (implicand ∈ e.lits c) || r.reason.isJob)

/-- `_end_clauses(relevant_clauses, implicand)`; minisat.py:155-170 -/
def endClauses (e : Evidence N U) (o : XOrders) (relevant : List Nat) (implicand : Int) : List Nat :=
  sortBy e.key (o.ends (fromkeys (relevant.filter (e.isEnd implicand))))

/-- `lit_to_clauses`; minisat.py:102-106 -/
def litToClauses (e : Evidence N U) : List Nat → Dict Int (List Nat) → Dict Int (List Nat)
  | [], d => d
  | c :: cs, d => litToClauses e cs ((e.lits c).foldl (fun d l => dset d (iabs l) (sadd c ((dget d (iabs l)).getD []))) d)

/-- `lit_to_clauses[v]`; minisat.py:111 -/
def clausesOf (d : Dict Int (List Nat)) (v : Int) : Except XErr (List Nat) :=
  match dget d v with
  | none => .error .keyError
  | some s => .ok s

/-- `get_neighbors(clause)`; minisat.py:108-112. `set.union()` without arguments is a TypeError. -/
def getNeighbors (e : Evidence N U) (o : XOrders) (d : Dict Int (List Nat)) (c : Nat) : Except XErr (List Nat) :=
  match e.lits c with
  | [] => .error .typeError
  | l :: ls => match mapX (fun x => clausesOf d (iabs x)) (l :: ls) with
    | .error x => .error x
    | .ok sets => .ok (sortBy e.lits (o.near c (fromkeys sets.flatten)))

/-- The loop of `breadth_first_search`, as `Graph.bfsLoop` with `target_func` None, for a function of neighbours that may
raise; utils/graph.py:233-251 -/
def bfsLoopX (start : Nat) (f : Nat → Except XErr (List Nat)) :
    Nat → List Nat → List (Nat × Option Nat) → List Nat → Except XErr (List (List Nat))
  | 0, _, _, _ => .error .outOfFuel
  | _ + 1, [], _, _ => .ok []
  | fuel + 1, node :: queue, visited, targets =>
    let targets' := sdiscard node targets
    let next := if targets' = [] then .ok [] else
      match f node with
      | .error x => .error x
      | .ok ns =>
        let r := bfsExpand node ns queue visited
        bfsLoopX start f fuel r.1 r.2 targets'
    if node ∈ targets then
      match backtrack start visited node with
      | .error _ => .error .keyError
      | .ok path => match next with
        | .error x => .error x
        | .ok paths => .ok (path :: paths)
    else next

/-- `raw_paths`: the paths from each end to the later ones; minisat.py:126-133 -/
def rawPaths (f : Nat → Except XErr (List Nat)) (fuel : Nat) : List Nat → Except XErr (List (List Nat))
  | [] => .ok []
  | [_] => .ok []
  | start :: rest => match bfsLoopX start f fuel [start] [(start, none)] (fromkeys rest) with
    | .error x => .error x
    | .ok ps => match rawPaths f fuel rest with
      | .error x => .error x
      | .ok qs => .ok (ps ++ qs)

/-- `jobs_in_path(path)`; minisat.py:122-124. A clause without rule is an AttributeError. -/
def jobsInPath (e : Evidence N U) : List Nat → Except XErr Nat
  | [] => .ok 0
  | c :: cs => match e.rule c with
    | none => .error .attributeError
    | some r => match jobsInPath e cs with
      | .error x => .error x
      | .ok n => .ok (if r.reason.isJob then n + 1 else n)

/-- a path with its number of jobs; minisat.py:138-140 -/
def withJobs (e : Evidence N U) (p : List Nat) : Except XErr (List Nat × Nat) :=
  match jobsInPath e p with
  | .error x => .error x
  | .ok n => .ok (p, n)

/-- `equal_job_paths`: the paths with the most jobs, in order; minisat.py:135-141. Sorting with `reverse=True` is stable
as well, and the paths come with their number of jobs. -/
def mostJobs (ps : List (List Nat × Nat)) : List (List Nat) :=
  match sortBy (fun p => -(p.2 : Int)) ps with
  | [] => []
  | p :: rest => ((p :: rest).takeWhile (fun q => decide (q.2 = p.2))).map Prod.fst

/-- The loop that drops the paths with nothing new; minisat.py:143-151 -/
def newPaths : List (List Nat) → List Nat → List (List Nat)
  | [], _ => []
  | p :: ps, seen =>
    if p.all (fun c => decide (c ∈ seen)) then newPaths ps seen
    else p :: newPaths ps (supdate p seen)

/-- `_find_conflict_paths(end_clauses, relevant_clauses)`; minisat.py:92-153 -/
def findConflictPaths (e : Evidence N U) (o : XOrders) (ends relevant : List Nat) : Except XErr (List (List Nat)) :=
  let d := litToClauses e relevant []
  if ends.length < 2 then .ok [ends]
  else match rawPaths (getNeighbors e o d) (relevant.length + 2) (fromkeys ends) with
    | .error x => .error x
    | .ok raw => match mapX (withJobs e) raw with
      | .error x => .error x
      | .ok ps => .ok (newPaths (sortBy List.length (mostJobs ps)) [])

/-- The fields of an UNSAT object; minisat.py:43-57 -/
structure Explanation (N U : Type) where
  evidence : Evidence N U
  memo : Memo
  implicand : Int
  details : List Nat
  paths : List (List Nat)

/-- what the solver hands to `UNSAT(...)`; minisat.py:348-351, 445-448 -/
def evidenceOf (s : Sat.Solver) (rules : List (Rule N U)) : Evidence N U :=
  { heap := s.heap
    trails := s.clauseTrails
    assigning := s.assigning
    rules := rules }

/-- `UNSAT(conflict_clause, learned_clause, trails, assigning_clauses)`; minisat.py:24-87. `clause_requirements` recurses
once. -/
def mkExplanation (o : XOrders) (e : Evidence N U) (conflict learned : Nat) : Except XErr (Explanation N U) :=
  match e.lits learned with
  | [l] => match e.assigning (iabs (-l)) with
    | none => .error .keyError
    | some implicandClause => match clauseRequirements e 2 implicandClause [] ⟨[], []⟩ with
      | .error x => .error x
      | .ok (r1, _, m) => match clauseRequirements e 2 learned [] m with
        | .error x => .error x
        | .ok (r2, _, m) => match clauseRequirements e 2 conflict [] m with
          | .error x => .error x
          | .ok (r3, _, m) =>
            let details := r1 ++ r2 ++ r3
            match findConflictPaths e o (endClauses e o details (-l)) details with
            | .error x => .error x
            | .ok paths => .ok ⟨e, m, -l, details, paths⟩
  | _ => .error .assertion

namespace Explanation

/-- `OrderedDict.fromkeys(xs).keys()` for an equality given by a key: the first of each kind stays -/
def firstBy {α κ : Type} [DecidableEq κ] (key : α → κ) : List α → List α → List α
  | [], acc => acc
  | x :: xs, acc => if acc.any (fun y => decide (key y = key x)) then firstBy key xs acc else firstBy key xs (acc ++ [x])

/-- the property `rules`; rules are equal when their literals are; minisat.py:172-175, rules_generator.py:144-152.
`none` is the value None of a clause without rule. -/
def rules (x : Explanation N U) : List (Option (Rule N U)) :=
  firstBy (fun r => r.map Rule.literals) (x.paths.flatten.map x.evidence.rule) []

/-- `rule._requirements[0]` -/
def firstReq : Option (Rule N U) → Except XErr (Requirement N U)
  | none => .error .attributeError
  | some r => match r.requirements with
    | [] => .error .indexError
    | q :: _ => .ok q

/-- the property `requirements`; requirements are equal when name and constraints are; minisat.py:177-181,
requirement.py:196-204 -/
def requirements (x : Explanation N U) : Except XErr (List (Requirement N U)) :=
  match mapX firstReq x.rules with
  | .error e => .error e
  | .ok qs => .ok (firstBy (fun q => (q.name, q.constraints)) qs [])

end Explanation

/-! ### texts -/

/-- The texts of names, versions and requirements: `name`, `str(version)`, `str(requirement)`. -/
structure Texts (N U : Type) where
  name : N → List Char
  version : Version U → List Char
  requirement : Requirement N U → List Char

/-- `sep.join(parts)` -/
def joinWith (sep : List Char) : List (List Char) → List Char
  | [] => []
  | [p] => p
  | p :: q :: ps => p ++ sep ++ joinWith sep (q :: ps)

/-- `pool.id_to_string(id)`; pool.py:108-117 -/
def idToString (T : Texts N U) (pool : Pool N S U) (l : Int) : Except XErr (List Char) :=
  match dget pool.idToPackage l.natAbs with
  | none => .error .keyError
  | some p => .ok ((if 0 < l then '+' else '-') :: (T.name p.name ++ '-' :: T.version p.version))

/-- `_pretty_literals(pool, literals, sign, unique)`; rules_generator.py:91-97 -/
def prettyLiterals (T : Texts N U) (pool : Pool N S U) (lits : List Int) (sign unique : Bool) : Except XErr (List Char) :=
  match mapX (idToString T pool) lits with
  | .error e => .error e
  | .ok parts =>
    let parts := if sign then parts else parts.map List.tail
    .ok (joinWith " | ".toList (if unique then fromkeys parts else parts))

/-- `rule_desc` before the requirements are added; rules_generator.py:100-135. (The reasons `package_installed` and those
of the last branch do not occur in generated rules.) -/
def describe (T : Texts N U) (pool : Pool N S U) (r : Rule N U) (unique : Bool) : Except XErr (List Char) := do
  let s ← prettyLiterals T pool r.literals true unique
  match r.reason with
  | .jobInstall => .ok ("Install command rule (".toList ++ s ++ ")".toList)
  | .jobUpdate => .ok ("Update to latest command rule (".toList ++ s ++ ")".toList)
  | .jobRemove => .ok ("Remove command rule (".toList ++ s ++ ")".toList)
  | .packageSameName =>
    let s ← prettyLiterals T pool (r.literals.map iabs) true unique
    .ok ("Can only install one of: (".toList ++ s ++ ")".toList)
  | .packageRequires => match r.literals with
    | [] => .error .indexError
    | l :: ls =>
      let source ← prettyLiterals T pool [iabs l] true unique
      let s ← prettyLiterals T pool ls true unique
      .ok (source.tail ++ " requires (".toList ++ s ++ ")".toList)
  | .packageConflicts =>
    let left ← prettyLiterals T pool (r.literals.take 1) false false
    let right ← prettyLiterals T pool ((r.literals.drop 1).map iabs) true false
    .ok (left ++ " conflicts with ".toList ++ right)
  | .packageBroken => match r.literals with
    | [] => .error .indexError
    | l :: _ =>
      let s ← idToString T pool (iabs l)
      .ok (s ++ " was ignored because it depends on missing packages".toList)

/-- `rule.to_string(pool, unique)`; rules_generator.py:99-142. `INDENT` is 4. -/
def ruleToString (T : Texts N U) (pool : Pool N S U) (r : Rule N U) (unique : Bool) : Except XErr (List Char) := do
  let desc ← describe T pool r unique
  if r.requirements.isEmpty then .ok desc
  else .ok ("Requirements: ".toList ++
    joinWith " <- ".toList (r.requirements.map (fun q => "'".toList ++ T.requirement q ++ "'".toList)) ++
    "\n    ".toList ++ desc)

/-- `str(clause.lits)`: a list of ints -/
def intsToString (ls : List Int) : List Char :=
  "[".toList ++ joinWith ", ".toList (ls.map (fun l => (toString l).toList)) ++ "]".toList

namespace Explanation

/-- The loop that collects `details`, the values of the OrderedDict in order; minisat.py:244-253. The dictionaries of the
object may grow, so they are returned. -/
def collect (e : Evidence N U) : List Nat → Dict (List Int) Nat → Memo → Except XErr (Dict (List Int) Nat × Memo)
  | [], d, m => .ok (d, m)
  | c :: cs, d, m => match clauseTrail e (c + 1) c [] m with
    | .error x => .error x
    | .ok (trail, _, m) =>
      collect e cs ((if trail.isEmpty then [c] else trail).foldl (fun d c => dsetdefault d (e.key c) c) d) m

/-- the line of a clause; minisat.py:256-260 -/
def line (T : Texts N U) (pool : Option (Pool N S U)) (e : Evidence N U) (c : Nat) : Except XErr (List Char) :=
  match pool with
  | none => .ok (intsToString (e.lits c))
  | some pool => match e.rule c with
    | none => .error .attributeError
    | some r => ruleToString T pool r true

/-- `string_from_clauses(clauses, pool)`; minisat.py:243-262 -/
def stringFromClauses (T : Texts N U) (pool : Option (Pool N S U)) (e : Evidence N U) (cs : List Nat) (m : Memo) :
    Except XErr (List Char × Memo) :=
  match collect e cs [] m with
  | .error x => .error x
  | .ok (d, m) => match mapX (line T pool e) (d.map Prod.snd) with
    | .error x => .error x
    | .ok lines => .ok (joinWith "\n".toList ("Conflicting requirements:".toList :: lines) ++ "\n".toList, m)

/-- the texts of the paths, one after the other -/
def pathTexts (T : Texts N U) (pool : Option (Pool N S U)) (e : Evidence N U) :
    List (List Nat) → Memo → Except XErr (List (List Char) × Memo)
  | [], m => .ok ([], m)
  | p :: ps, m => match stringFromClauses T pool e p m with
    | .error x => .error x
    | .ok (t, m) => match pathTexts T pool e ps m with
      | .error x => .error x
      | .ok (ts, m) => .ok (t :: ts, m)

/-- `to_string(pool)`; minisat.py:237-241 -/
def toText (T : Texts N U) (pool : Option (Pool N S U)) (x : Explanation N U) : Except XErr (List Char × Explanation N U) :=
  match pathTexts T pool x.evidence x.paths x.memo with
  | .error e => .error e
  | .ok (ts, m) => .ok (joinWith "\n".toList ts, { x with memo := m })

end Explanation

/-! ### solve, with the explanation -/

/-- How `solve` fails: SatisfiabilityError with its `unsat`; another exception, while this is built; or in a way that
has nothing to do with it. -/
inductive Failure (N U : Type) where
  | unsat (x : Explanation N U)
  | explaining (e : XErr)
  | other (e : SErr N U)

/-- `raise SatisfiabilityError(UNSAT(...))`: the exception prints its explanation, without pool, as its message;
minisat.py:348-352, 444-448, errors.py:42-49 -/
def raiseUnsat (T : Texts N U) (o : XOrders) (e : Evidence N U) (u : Sat.UnsatInfo) : Failure N U :=
  match mkExplanation o e u.conflict u.learned with
  | .error x => .explaining x
  | .ok x => match x.toText (S := Unit) T none with
    | .error x => .explaining x
    | .ok (_, x) => .unsat x

/-- `search`, with the state of the SAT solver in which an exception is raised; dependency_solver.py:402-405 -/
def searchX (o : Orders) (pool : Pool N S U) (st : Setup N S U) : Except (Sat.Err × Sat.Solver) ASet :=
  let G := st.gen.rules.map Rule.literals
  let reqs := st.requirementIds.map (fun (i : Nat) => (i : Int))
  Sat.solveRulesX (Sat.packagePolicy (idVersion pool) o.policy) (searchFuel G st.prefer reqs)
    (Sat.PolState.start st.prefer reqs) G

/-- `solve(request)` again, with what SatisfiabilityError carries; dependency_solver.py:373-419 -/
def DependencySolver.solveExplained (T : Texts N U) (s : DependencySolver N S U) (o : Orders) (xo : XOrders)
    (q : Request N U) : Except (Failure N U) (Transaction N S U) :=
  let q := convertUpgrade q s.remote s.installed
  let pool := s.solvePool q
  match createRules s o pool q with
  | .error e => .error (.other (.pkg e))
  | .ok st => match searchX o pool st with
    | .error (.satisfiability u, sv) => .error (raiseUnsat T xo (evidenceOf sv st.gen.rules) u)
    | .error (e, _) => .error (.other (.sat e))
    | .ok a => match finish s o pool st.requirementIds a with
      | .error e => .error (.other (.pkg e))
      | .ok t => .ok t

end Verif.Solve
