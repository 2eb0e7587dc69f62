import Verif.Py
import Verif.PySort
import Verif.Pkg.Version
/-
Model of simplesat/constraints/{kinds,multi,requirement,constraint_modifiers}.py, except the text side (parsing and
printing), which is in Verif/Text.

`N` is the type of package names (Python strings), `U` that of upstream versions.
-/
namespace Verif.Pkg
open Verif

variable {N U : Type} [DecidableEq N] [LinearOrder U]

/-- Exceptions of the package layer. `formatting` is whatever `str.format` raises for a bad template (ValueError, KeyError,
IndexError, AttributeError or TypeError). `outOfFuel` belongs to the model. -/
inductive PErr where
  | noPackageFound
  | missingInstallRequires
  | missingConflicts
  | invalidConstraint
  | invalidDependencyString
  | solverException
  | notImplemented
  | valueError
  | keyError
  | typeError
  | assertion
  | satisfiability
  | satInternal
  | formatting
  | outOfFuel
deriving DecidableEq

/-- The constraint classes; constraints/kinds.py:20-114. Two constraints are equal when they have the same class and
the same version. -/
inductive Constraint (U : Type) where
  | any
  | equal (v : Version U)
  | not (v : Version U)
  | geq (v : Version U)
  | gt (v : Version U)
  | leq (v : Version U)
  | lt (v : Version U)
  | upstream (v : Version U)
deriving DecidableEq

/-- `matches(candidate_version)` of each class; kinds.py:21-22, 58-59, 66-67, 74-75, 82-83, 90-91, 98-99, 113-114. -/
def Constraint.matches (c : Constraint U) (candidate : Version U) : Bool :=
  match c with
  | .any => true
  | .equal v => decide (v = candidate)
  | .not v => decide (v ≠ candidate)
  | .geq v => decide (candidate ≥ v)
  | .gt v => decide (candidate > v)
  | .leq v => decide (candidate ≤ v)
  | .lt v => decide (candidate < v)
  | .upstream v => decide (candidate.upstream = v.upstream)

/-- `MultiConstraints.matches`: the loop with its early return; constraints/multi.py:37-50. -/
def multiMatches : List (Constraint U) → Version U → Bool
  | [], _ => true
  | c :: cs, v => if !(c.matches v) then false else multiMatches cs v

/-- `Requirement`, `InstallRequirement` and `ConflictRequirement`; constraints/requirement.py:44, 236-241. -/
inductive ReqClass where
  | plain
  | install
  | conflict
deriving DecidableEq

/-- Fields `name` and `_constraints._constraints`, and the class; requirement.py:180-182. -/
structure Requirement (N U : Type) where
  cls : ReqClass
  name : N
  constraints : List (Constraint U)
deriving DecidableEq

/-- `Requirement.matches`; requirement.py:184-194. -/
def Requirement.matches (r : Requirement N U) (v : Version U) : Bool := multiMatches r.constraints v

/-- `has_any_version_constraint`; requirement.py:223-233. -/
def Requirement.hasAnyVersionConstraint (r : Requirement N U) : Bool :=
  match r.constraints with
  | [] => false
  | [c] => match c with
    | .any => false
    | _ => true
  | _ => true

/-- `cls._from_string(name)` for a plain distribution name: the requirement without version constraint;
requirement.py:126-156, parser.py:216-218. (That the parser returns this is shown in Verif/Text.) -/
def Requirement.ofName (cls : ReqClass) (name : N) : Requirement N U :=
  { cls := cls
    name := name
    constraints := [.any] }

/-- The requirement of class `cls` with the only constraint `== version`: `cls.from_package_string("name-version")`
(requirement.py:158-178) and `cls._from_string("name == version")`. (That the parser returns this is shown in
Verif/Text.) -/
def Requirement.exactly (cls : ReqClass) (name : N) (v : Version U) : Requirement N U :=
  { cls := cls
    name := name
    constraints := [.equal v] }

/-! ### Modifiers; constraints/constraint_modifiers.py -/

/-- `MAX_BUILD`; constraint_modifiers.py:19 -/
def MAX_BUILD : Nat := 999999999

/-- ALLOW_NEWER_MAP; constraint_modifiers.py:33-42 -/
def allowNewerMap : Constraint U → Constraint U
  | .any => .any
  | .equal v => .geq v
  | .not v => .not v
  | .geq v => .geq v
  | .gt v => .gt v
  | .leq _ => .any
  | .lt _ => .any
  | .upstream v => .geq v

/-- LEQ_LEAST_UPPER_BOUND; constraint_modifiers.py:27-30. Printing and reparsing the upstream part is taken to be the
identity. -/
def leqLeastUpperBound (v : Version U) : Constraint U := .leq ⟨v.upstream, MAX_BUILD⟩

/-- ALLOW_OLDER_MAP; constraint_modifiers.py:44-53 -/
def allowOlderMap : Constraint U → Constraint U
  | .any => .any
  | .equal v => .leq v
  | .not v => .not v
  | .geq _ => .any
  | .gt _ => .any
  | .leq v => .leq v
  | .lt v => .lt v
  | .upstream v => leqLeastUpperBound v

/-- ALLOW_ANY_MAP; constraint_modifiers.py:55-64 -/
def allowAnyMap : Constraint U → Constraint U
  | .any => .any
  | .equal _ => .any
  | .not v => .not v
  | .geq _ => .any
  | .gt _ => .any
  | .leq _ => .any
  | .lt _ => .any
  | .upstream _ => .any

/-- `ConstraintModifiers`: three sets of names; constraint_modifiers.py:84-88 -/
structure Modifiers (N : Type) where
  allowNewer : List N
  allowAny : List N
  allowOlder : List N

def Modifiers.empty : Modifiers N := ⟨[], [], []⟩

namespace Modifiers

/-- `update(other)`; constraint_modifiers.py:93-97 -/
def update (m other : Modifiers N) : Modifiers N :=
  { allowAny := supdate other.allowAny m.allowAny
    allowNewer := supdate other.allowNewer m.allowNewer
    allowOlder := supdate other.allowOlder m.allowOlder }

/-- `set.difference_update` -/
def diffUpdate (l ps : List N) : List N := l.filter (fun x => decide (x ∉ ps))

/-- `remove(packages)` for a collection that is not a string; constraint_modifiers.py:99-113 -/
def remove (m : Modifiers N) (packages : List N) : Modifiers N :=
  { allowAny := diffUpdate m.allowAny packages
    allowNewer := diffUpdate m.allowNewer packages
    allowOlder := diffUpdate m.allowOlder packages }

/-- `targets`; constraint_modifiers.py:115-117 -/
def targets (m : Modifiers N) : List N := supdate m.allowOlder (supdate m.allowAny m.allowNewer)

/-- `asdict()`: the three sets, sorted; constraint_modifiers.py:90-91. (As a triple instead of a dictionary.) -/
def asdict {N : Type} [LinearOrder N] (m : Modifiers N) : List N × List N × List N :=
  (sortBy id m.allowNewer, sortBy id m.allowAny, sortBy id m.allowOlder)

/-- `Request.allow_newer(name)`; request.py:83-84 -/
def addNewer (m : Modifiers N) (x : N) : Modifiers N := { m with allowNewer := sadd x m.allowNewer }

/-- `Request.allow_any(name)`; request.py:86-87 -/
def addAny (m : Modifiers N) (x : N) : Modifiers N := { m with allowAny := sadd x m.allowAny }

/-- `Request.allow_older(name)`; request.py:89-90 -/
def addOlder (m : Modifiers N) (x : N) : Modifiers N := { m with allowOlder := sadd x m.allowOlder }

end Modifiers

/-- One turn of the loop over `type_maps`; constraint_modifiers.py:133-137. The pair is (modified, constraints). -/
def applyMap (name : N) (names : List N) (f : Constraint U → Constraint U)
    (st : Bool × List (Constraint U)) : Bool × List (Constraint U) :=
  if name ∈ names then (true, st.2.map f) else st

/-- `_modify_install_requirement`: `some` of the new requirement, or `none` when the original object is returned;
constraint_modifiers.py:120-144. -/
def modifyInstall (r : Requirement N U) (m : Modifiers N) : Option (Requirement N U) :=
  let st := (false, r.constraints)
  let st := applyMap r.name m.allowOlder allowOlderMap st
  let st := applyMap r.name m.allowNewer allowNewerMap st
  let st := applyMap r.name m.allowAny allowAnyMap st
  if st.1 && decide (st.2 ≠ r.constraints) then
    some { cls := .install
           name := r.name
           constraints := fromkeys st.2 }
  else none

/-- `modify_requirement`; constraint_modifiers.py:154-163 -/
def modifyRequirement (r : Requirement N U) (m : Modifiers N) : Except PErr (Requirement N U) :=
  match r.cls with
  | .install => .ok ((modifyInstall r m).getD r)
  | _ =>
    if r.hasAnyVersionConstraint then
      match modifyInstall r m with
      | some _ => .error .notImplemented
      | none => .ok r
    else .ok r

end Verif.Pkg
