import Verif.Solve.Session
/-
Model of the objects that modifiers, requests, pool and solver share by reference.

A `ConstraintModifiers` holds three Python sets, a `Request` and a `Pool` hold a `ConstraintModifiers`, and all of them can be
changed in place. `Pkg/Constraints.lean` and `Solve/Model.lean` treat them as values; here each set and each modifiers object
has a place in a store, and calls act on the store in the order in which the Python code does. What is not modelled: assigning
to an attribute of a modifiers object or of a request (`m.allow_any = s`), and the list `request.jobs` handed around by the user.
-/
namespace Verif.Solve
open Verif Verif.Pkg

/-- The three sets of a `ConstraintModifiers`, by reference; constraint_modifiers.py:84-88 -/
structure ModsRefs where
  newer : Nat
  any : Nat
  older : Nat

/-- The sets of a modifiers object -/
def ModsRefs.all (r : ModsRefs) : List Nat := [r.newer, r.any, r.older]

/-- A `Request`: its modifiers by reference, and its jobs; request.py:64-66 -/
structure RequestObj (N U : Type) where
  modifiers : Nat
  jobs : List (Job N U)

/-- The objects at one moment: all sets, all modifiers objects, all requests, the solver, and the modifiers that its pool holds
(what `solver.pool.modifiers` contains is not used). -/
structure World (N S U : Type) where
  sets : List (List N)
  mods : List ModsRefs
  requests : List (RequestObj N U)
  solver : DependencySolver N S U
  poolMods : Option Nat

/-- A collection of names as an argument: a string, a collection made for the call, or a set that exists already -/
inductive Names (N : Type) where
  | str (n : N)
  | list (l : List N)
  | set (r : Nat)

section
variable {N S U : Type} [DecidableEq N]

namespace World

/-- the names in a set -/
def setAt (w : World N S U) (r : Nat) : List N := w.sets.getD r []

/-- What iterating over the argument gives, where a string counts as one name -/
def contents (w : World N S U) : Names N → List N
  | .str n => [n]
  | .list l => l
  | .set r => w.setAt r

/-- the set that is handed over exists -/
def has (w : World N S U) : Names N → Prop
  | .set r => r < w.sets.length
  | _ => True

instance (w : World N S U) (a : Names N) : Decidable (w.has a) := by
  cases a <;> simp only [has] <;> infer_instance

/-- The modifiers object as a value -/
def value (w : World N S U) (m : Nat) : Option (Modifiers N) :=
  (w.mods[m]?).map (fun r => ⟨w.setAt r.newer, w.setAt r.any, w.setAt r.older⟩)

/-- `s.add(x)` -/
def addTo (w : World N S U) (r : Nat) (x : N) : World N S U := { w with sets := w.sets.set r (sadd x (w.setAt r)) }

/-- `s.update(t)` -/
def updateFrom (w : World N S U) (r r' : Nat) : World N S U :=
  { w with sets := w.sets.set r (supdate (w.setAt r') (w.setAt r)) }

/-- `s.difference_update(packages)` -/
def diffFrom (w : World N S U) (r : Nat) (ps : List N) : World N S U :=
  { w with sets := w.sets.set r (Modifiers.diffUpdate (w.setAt r) ps) }

/-- `as_set(container)`: a new set with the elements; constraint_modifiers.py:67-77 -/
def asSet (w : World N S U) (a : Names N) : World N S U × Nat :=
  ({ w with sets := w.sets ++ [fromkeys (w.contents a)] }, w.sets.length)

/-- `ConstraintModifiers(allow_newer, allow_any, allow_older)`: the converters are called in the order of the attributes;
constraint_modifiers.py:80-88 -/
def newModifiers (w : World N S U) (a b c : Names N) : World N S U × Nat :=
  let (w, r1) := w.asSet a
  let (w, r2) := w.asSet b
  let (w, r3) := w.asSet c
  ({ w with mods := w.mods ++ [⟨r1, r2, r3⟩] }, w.mods.length)

/-- `Request(modifiers)`, or `Request()`, which makes new modifiers; request.py:64-66 -/
def newRequest (w : World N S U) : Option Nat → World N S U
  | some m => { w with requests := w.requests ++ [⟨m, []⟩] }
  | none =>
    let (w, m) := w.newModifiers (.list []) (.list []) (.list [])
    { w with requests := w.requests ++ [⟨m, []⟩] }

/-- `self.update(other_modifiers)`; constraint_modifiers.py:93-97 -/
def update (w : World N S U) (self other : ModsRefs) : World N S U :=
  let w := w.updateFrom self.any other.any
  let w := w.updateFrom self.newer other.newer
  w.updateFrom self.older other.older

/-- `self.remove(packages)` for something that is not a string; constraint_modifiers.py:110-113 -/
def remove (w : World N S U) (self : ModsRefs) (a : Names N) : World N S U :=
  let ps := fromkeys (w.contents a)
  let w := w.diffFrom self.any ps
  let w := w.diffFrom self.newer ps
  w.diffFrom self.older ps

/-- A request as a value -/
def request (w : World N S U) (q : Nat) : Option (Request N U) :=
  match w.requests[q]? with
  | none => none
  | some o => (w.value o.modifiers).map (fun m => ⟨m, o.jobs⟩)

/-- The solver with the modifiers that its pool holds now -/
def solverNow (w : World N S U) : DependencySolver N S U :=
  { w.solver with
    pool := { w.solver.pool with
      modifiers := w.poolMods.bind w.value } }

/-- `self._pool.modifiers = modifiers if modifiers.targets else None`; dependency_solver.py:395-396. The request that
`_convert_upgrade_request_if_needed` gives back (514-540), and those that the callback of `solve_with_hint` makes (452-455), hold
the same modifiers object. -/
def setPool (w : World N S U) (o : RequestObj N U) : World N S U :=
  { w with
    poolMods := match w.value o.modifiers with
      | some m => if m.targets = [] then none else some o.modifiers
      | none => none }

end World
end

/-- What the user can call -/
inductive Call (N S U : Type) where
  /-- `s = set(names)` -/
  | newSet (a : List N)
  /-- `s.add(x)`; `s` may also be `m.allow_any` -/
  | addToSet (r : Nat) (x : N)
  /-- `ConstraintModifiers(a, b, c)` -/
  | newModifiers (a b c : Names N)
  /-- `Request(modifiers)` or `Request()` -/
  | newRequest (m : Option Nat)
  /-- `request.allow_newer(x)` -/
  | allowNewer (q : Nat) (x : N)
  /-- `request.allow_any(x)` -/
  | allowAny (q : Nat) (x : N)
  /-- `request.allow_older(x)` -/
  | allowOlder (q : Nat) (x : N)
  /-- `m.update(other)` -/
  | update (m other : Nat)
  /-- `m.remove(packages)` -/
  | remove (m : Nat) (a : Names N)
  /-- `request.install(requirement)`, `request.remove(requirement)`, ... -/
  | addJob (q : Nat) (r : Option (Requirement N U)) (k : JobKind)
  /-- `pool.modifiers = m` -/
  | setPoolModifiers (m : Option Nat)
  /-- `solver.solve(request)` -/
  | solve (o : Orders) (q : Nat)
  /-- `solver.solve_with_hint(request)` -/
  | solveWithHint (o : Orders) (o' : List (Job N U) → Orders) (q : Nat)
  /-- `pool.what_provides(requirement)` -/
  | whatProvides (r : Requirement N U) (useModifiers : Bool)

/-- What comes back -/
inductive CallResult (N S U : Type) where
  | done
  /-- there is no such object: no program can make this call -/
  | noObject
  | raised (e : PErr)
  | solved (r : Except (SErr N U) (Transaction N S U))
  | packages (r : Except PErr (List (Package N S U)))

section
variable {N S U : Type} [LinearOrder N] [DecidableEq S] [LinearOrder U] [Syntax S U]

namespace World

/-- a method of the modifiers of a request -/
def onRequest (w : World N S U) (q : Nat) (f : ModsRefs → World N S U) : World N S U × CallResult N S U :=
  match w.requests[q]? with
  | none => (w, .noObject)
  | some o => match w.mods[o.modifiers]? with
    | none => (w, .noObject)
    | some r => (f r, .done)

/-- One call -/
def step (w : World N S U) : Call N S U → World N S U × CallResult N S U
  | .newSet a => ((w.asSet (.list a)).1, .done)
  | .addToSet r x => (w.addTo r x, if r < w.sets.length then .done else .noObject)
  | .newModifiers a b c =>
    if w.has a ∧ w.has b ∧ w.has c then ((w.newModifiers a b c).1, .done) else (w, .noObject)
  | .newRequest none => (w.newRequest none, .done)
  | .newRequest (some m) => if m < w.mods.length then (w.newRequest (some m), .done) else (w, .noObject)
  -- request.py:83-84
  | .allowNewer q x => w.onRequest q (fun r => w.addTo r.newer x)
  -- request.py:86-87
  | .allowAny q x => w.onRequest q (fun r => w.addTo r.any x)
  -- request.py:89-90
  | .allowOlder q x => w.onRequest q (fun r => w.addTo r.older x)
  | .update m m' => match w.mods[m]?, w.mods[m']? with
    | some r, some r' => (w.update r r', .done)
    | _, _ => (w, .noObject)
  | .remove m a => match w.mods[m]? with
    | none => (w, .noObject)
    | some r => match a with
      -- constraint_modifiers.py:107-109
      | .str _ => (w, .raised .typeError)
      | a => (w.remove r a, .done)
  | .addJob q r k => match w.requests[q]? with
    | none => (w, .noObject)
    | some o =>
      -- `_add_job` does not look at the modifiers; request.py:92-100
      match Request.addJob ⟨Modifiers.empty, o.jobs⟩ r k with
      | .error e => (w, .raised e)
      | .ok q' => ({ w with requests := w.requests.set q { o with jobs := q'.jobs } }, .done)
  | .setPoolModifiers none => ({ w with poolMods := none }, .done)
  | .setPoolModifiers (some m) =>
    if m < w.mods.length then ({ w with poolMods := some m }, .done) else (w, .noObject)
  | .solve o q => match w.requests[q]?, w.request q with
    | some obj, some v => (w.setPool obj, .solved (w.solverNow.solveEff o v).1)
    | _, _ => (w, .noObject)
  | .solveWithHint o o' q => match w.requests[q]?, w.request q with
    | some obj, some v => (w.setPool obj, .solved (w.solverNow.solveWithHintEff o o' v).1)
    | _, _ => (w, .noObject)
  | .whatProvides r b => (w, .packages (w.solverNow.pool.whatProvides r b))

/-- One call after the other -/
def run : List (Call N S U) → World N S U → World N S U
  | [], w => w
  | c :: cs, w => run cs (w.step c).1

/-- At the start: a solver whose pool has no modifiers -/
def start (s : DependencySolver N S U) : World N S U := ⟨[], [], [], s, none⟩

end World
end
end Verif.Solve
