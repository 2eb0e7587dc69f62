import Verif.AssignmentSet
/-
AssignmentSets as objects: their dictionaries and sets have places in a store, some calls hand them out, and a copy gets
dictionaries and sets of its own. `AssignmentSet.lean` treats an AssignmentSet as a value; here each call acts on the store as
the code of simplesat/sat/assignment_set.py does.
-/
namespace Verif

/-- The attributes of an AssignmentSet, by reference (`cached` is None or a dictionary); assignment_set.py:14-19 -/
structure ARefs where
  data : Nat
  orig : Nat
  seen : Nat
  cached : Option Nat
  assigned : Nat
  newKeys : Nat

/-- All AssignmentSets, in the order in which they were made, and the contents of all dictionaries (those of `_data`, of
`_orig`, and changelogs) and sets. `next` is the place of the next one that is made. -/
structure AWorld where
  objs : List ARefs
  datas : Nat → (Int → Option Bool)
  origs : Nat → List (Int × Option Bool)
  sets : Nat → List Int
  logs : Nat → List (Int × Change)
  next : Nat

namespace AWorld

/-- no object yet -/
def empty : AWorld := ⟨[], fun _ _ => none, fun _ => [], fun _ => [], fun _ => [], 0⟩

/-- the dictionary `_data` at `r` is changed -/
def setData (w : AWorld) (r : Nat) (d : Int → Option Bool) : AWorld := { w with datas := fun x => if x = r then d else w.datas x }
/-- the dictionary `_orig` at `r` is changed -/
def setOrig (w : AWorld) (r : Nat) (d : List (Int × Option Bool)) : AWorld :=
  { w with origs := fun x => if x = r then d else w.origs x }
/-- the set at `r` is changed -/
def setSet (w : AWorld) (r : Nat) (s : List Int) : AWorld := { w with sets := fun x => if x = r then s else w.sets x }
/-- an attribute of the `i`-th AssignmentSet is assigned to -/
def setObj (w : AWorld) (i : Nat) (o : ARefs) : AWorld := { w with objs := w.objs.set i o }

/-- `AssignmentSet()`: new dictionaries and sets; assignment_set.py:11-21 -/
def new (w : AWorld) : AWorld :=
  let n := w.next
  { ((((w.setData n (fun _ => none)).setOrig n []).setSet n []).setSet (n + 1) []).setSet (n + 2) [] with
    objs := w.objs ++ [⟨n, n, n, none, n + 1, n + 2⟩]
    next := n + 3 }

/-- `_update_diff(key, value)`; assignment_set.py:81-89 -/
def updateDiff (w : AWorld) (i : Nat) (o : ARefs) (key : Int) (value : Option Bool) : AWorld :=
  let key := if key < 0 ∧ value ≠ none then -key else key
  (w.setOrig o.orig (ASet.setdefault (w.origs o.orig) key (w.datas o.data key))).setObj i { o with cached := none }

/-- `__delitem__(key)`; assignment_set.py:40-47 -/
def delItem (w : AWorld) (i : Nat) (o : ARefs) (key : Int) : AWorld :=
  let w := w.setSet o.seen (sdiscard (iabs key) (w.sets o.seen))
  if w.datas o.data key = none then w
  else
    let w := w.updateDiff i o key none
    let w := w.setData o.data (fset (fset (w.datas o.data) key none) (-key) none)
    w.setSet o.assigned (sdiscard (iabs key) (w.sets o.assigned))

/-- `__setitem__(key, value)`; assignment_set.py:23-38 -/
def setItem (w : AWorld) (i : Nat) (o : ARefs) (key : Int) (value : Option Bool) : AWorld :=
  let w := if iabs key ∈ w.sets o.seen then w else w.setSet o.newKeys (sadd (iabs key) (w.sets o.newKeys))
  let w := match value with
    | none => w.delItem i o key
    | some b =>
      let w := w.updateDiff i o key (some b)
      let w := w.setData o.data (fset (fset (w.datas o.data) key (some b)) (-key) (some (!b)))
      w.setSet o.assigned (sadd (iabs key) (w.sets o.assigned))
  w.setSet o.seen (sadd (iabs key) (w.sets o.seen))

/-- `get_changelog()`: the place of the dictionary that is returned; assignment_set.py:91-99 -/
def getChangelog (w : AWorld) (i : Nat) (o : ARefs) : AWorld × Nat :=
  match o.cached with
  | some c => (w, c)
  | none =>
    let c := (w.origs o.orig).filterMap (fun (key, old) =>
      let new := w.datas o.data key
      if new ≠ old then some (key, (old, new)) else none)
    let n := w.next
    ({ w.setObj i { o with cached := some n } with
        logs := fun x => if x = n then c else w.logs x
        next := n + 1 }, n)

/-- `consume_changelog()`: `_orig` and the cached changelog are new dictionaries, `new_keys` is emptied;
assignment_set.py:101-106 -/
def consumeChangelog (w : AWorld) (i : Nat) (o : ARefs) : AWorld × Nat :=
  let r := w.getChangelog i o
  let n := r.1.next
  let w := (r.1.setOrig n []).setSet o.newKeys []
  ({ w.setObj i { o with orig := n, cached := some (n + 1) } with
      logs := fun x => if x = n + 1 then [] else w.logs x
      next := n + 2 }, r.2)

/-- `copy()`: a new AssignmentSet with copies of the dictionaries and sets (those of `AssignmentSet()`, line 109, are
thrown away); assignment_set.py:108-115 -/
def copy (w : AWorld) (o : ARefs) : AWorld :=
  let n := w.next
  { ((((w.setData n (w.datas o.data)).setOrig n (w.origs o.orig)).setSet n (w.sets o.seen)).setSet (n + 1)
      (w.sets o.assigned)).setSet (n + 2) (w.sets o.newKeys) with
    objs := w.objs ++ [⟨n, n, n, none, n + 1, n + 2⟩]
    next := n + 3 }

/-- `assigned_ids`: the set itself; assignment_set.py:128-130 -/
def assignedIds (o : ARefs) : Nat := o.assigned

/-- The calls; `i` is the number of the AssignmentSet. (The calls that only read, and return numbers or new lists, sets
and dictionaries, are functions of `view`.) -/
inductive Call where
  | new
  | set (i : Nat) (key : Int) (value : Option Bool)
  | del (i : Nat) (key : Int)
  | getLog (i : Nat)
  | consume (i : Nat)
  | copy (i : Nat)

/-- a call; on an AssignmentSet that does not exist it does nothing -/
def step (w : AWorld) : Call → AWorld
  | .new => w.new
  | .set i key value => match w.objs[i]? with
    | some o => w.setItem i o key value
    | none => w
  | .del i key => match w.objs[i]? with
    | some o => w.delItem i o key
    | none => w
  | .getLog i => match w.objs[i]? with
    | some o => (w.getChangelog i o).1
    | none => w
  | .consume i => match w.objs[i]? with
    | some o => (w.consumeChangelog i o).1
    | none => w
  | .copy i => match w.objs[i]? with
    | some o => w.copy o
    | none => w

def run (calls : List Call) : AWorld := calls.foldl step empty

/-- what an AssignmentSet has -/
def view (w : AWorld) (o : ARefs) : ASet :=
  { data := w.datas o.data
    orig := w.origs o.orig
    seen := w.sets o.seen
    cached := o.cached.map w.logs
    assigned := w.sets o.assigned
    newKeys := w.sets o.newKeys }

end AWorld
end Verif
