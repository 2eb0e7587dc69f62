import Verif.Py
/-
Model of simplesat/sat/assignment_set.py (class AssignmentSet).
-/
namespace Verif

/-- Entry of the changelog: (original value, new value). assignment_set.py:91-99 -/
abbrev Change := Option Bool × Option Bool

/-- Fields of an AssignmentSet, assignment_set.py:11-21.
`_data` is never iterated, so the dictionary is a function (absent key = `none`; `None` is never stored).
`_seen`, `_assigned_ids` and `new_keys` are Python sets: duplicate-free lists here.
`_orig` is a dictionary with `setdefault` only: an association list. -/
structure ASet where
  data : Int → Option Bool
  orig : List (Int × Option Bool)
  seen : List Int
  cached : Option (List (Int × Change))
  assigned : List Int
  newKeys : List Int

namespace ASet

/-- `AssignmentSet()`; assignment_set.py:11-21 (called without argument everywhere in the solver). -/
def empty : ASet :=
  { data := fun _ => none, orig := [], seen := [], cached := none, assigned := [], newKeys := [] }

/-- `value(lit)`; assignment_set.py:120-122. -/
def value (a : ASet) (lit : Int) : Option Bool := a.data lit

/-- `self._orig.setdefault(key, prev)`. -/
def setdefault (d : List (Int × Option Bool)) (key : Int) (prev : Option Bool) :
    List (Int × Option Bool) :=
  if key ∈ d.map Prod.fst then d else d ++ [(key, prev)]

/-- `_update_diff(key, value)`; assignment_set.py:81-89. -/
def updateDiff (a : ASet) (key : Int) (value : Option Bool) : ASet :=
  let key := if key < 0 ∧ value ≠ none then -key else key
  { a with orig := setdefault a.orig key (a.data key), cached := none }

/-- `__delitem__(key)`; assignment_set.py:40-47. -/
def delItem (a : ASet) (key : Int) : ASet :=
  let a := { a with seen := sdiscard (iabs key) a.seen }
  if a.data key = none then a
  else
    let a := a.updateDiff key none
    { a with data := fset (fset a.data key none) (-key) none,
             assigned := sdiscard (iabs key) a.assigned }

/-- `__setitem__(key, value)`; assignment_set.py:23-38. -/
def setItem (a : ASet) (key : Int) (value : Option Bool) : ASet :=
  let a := if iabs key ∈ a.seen then a else { a with newKeys := sadd (iabs key) a.newKeys }
  let a := match value with
    | none => a.delItem key
    | some b =>
      let a := a.updateDiff key (some b)
      { a with data := fset (fset a.data key (some b)) (-key) (some (!b)),
               assigned := sadd (iabs key) a.assigned }
  { a with seen := sadd (iabs key) a.seen }

/-- `__getitem__(key)`; assignment_set.py:49-53. `none` at the outside = KeyError. -/
def getItem (a : ASet) (key : Int) : Option (Option Bool) :=
  if a.data key = none ∧ iabs key ∉ a.seen then none else some (a.data key)

/-- `__len__`; assignment_set.py:58-59. -/
def len (a : ASet) : Nat := a.seen.length

/-- `__contains__`; assignment_set.py:64-65. -/
def contains (a : ASet) (key : Int) : Bool := decide (iabs key ∈ a.seen)

/-- Insertion into a list sorted in increasing order (used for `sorted` on distinct ints). -/
def insertSorted (x : Int) : List Int → List Int
  | [] => [x]
  | y :: ys => if x ≤ y then x :: y :: ys else y :: insertSorted x ys

/-- `sorted` on integers (insertion sort; on integers every sorting algorithm gives the same list). -/
def isort (l : List Int) : List Int := l.foldr insertSorted []

/-- `items()`; assignment_set.py:67-70. Keys are distinct, so sorting the pairs sorts the keys. -/
def items (a : ASet) : List (Int × Option Bool) := (isort a.seen).map (fun k => (k, a.data k))

/-- `get_changelog()`: returns the set with its cache filled, and the changelog.
assignment_set.py:91-99. -/
def getChangelog (a : ASet) : ASet × List (Int × Change) :=
  match a.cached with
  | some c => (a, c)
  | none =>
    let c := a.orig.filterMap (fun (key, old) =>
      let new := a.data key
      if new ≠ old then some (key, (old, new)) else none)
    ({ a with cached := some c }, c)

/-- `consume_changelog()`; assignment_set.py:101-106. -/
def consumeChangelog (a : ASet) : ASet × List (Int × Change) :=
  let (a, old) := a.getChangelog
  ({ a with orig := [], cached := some [], newKeys := [] }, old)

/-- `copy()`; assignment_set.py:108-115 (the cache is not copied). -/
def copy (a : ASet) : ASet := { a with cached := none }

/-- `num_assigned`; assignment_set.py:124-126. -/
def numAssigned (a : ASet) : Nat := a.assigned.length

/-- `unassigned_ids`; assignment_set.py:132-134. -/
def unassignedIds (a : ASet) : List Int := a.seen.filter (fun v => decide (v ∉ a.assigned))

end ASet
end Verif
