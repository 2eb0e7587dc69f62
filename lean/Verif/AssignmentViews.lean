import Verif.AssignmentSet
import Verif.PyDict
/-
Model of the methods of AssignmentSet that make it look like a dictionary (simplesat/sat/assignment_set.py).
-/
namespace Verif
namespace ASet

/-- `get(key, default)`: asks the dictionary of assigned literals; assignment_set.py:55-56. (`None` is never stored there.) -/
def get (a : ASet) (key : Int) (default : Option Bool := none) : Option Bool :=
  match a.data key with
  | some b => some b
  | none => default

/-- `keys()`; assignment_set.py:75-76 -/
def keys (a : ASet) : List Int := a.items.map Prod.fst

/-- `values()`; assignment_set.py:78-79 -/
def vals (a : ASet) : List (Option Bool) := a.items.map Prod.snd

/-- `list(a)`; assignment_set.py:61-62 -/
def iter (a : ASet) : List Int := a.keys

/-- `to_dict()`; assignment_set.py:117-118 -/
def toDict (a : ASet) : Dict Int (Option Bool) := dictOf a.items

/-- `assigned_ids`; assignment_set.py:128-130 -/
def assignedIds (a : ASet) : List Int := a.assigned

/-- `AssignmentSet(d)` for a dictionary `d`; assignment_set.py:11-21 -/
def ofDict (d : Dict Int (Option Bool)) : ASet := d.foldl (fun a kv => a.setItem kv.1 kv.2) empty

end ASet
end Verif
