import Verif.Pkg.Constraints
/-
What constraints and modifiers mean, written without the functions of the code.
-/
namespace Verif.Pkg

variable {N U : Type} [LinearOrder U]

/-- `a` is an earlier version than `b`: compare the upstream parts, then the build numbers. -/
def Earlier (a b : Version U) : Prop :=
  a.upstream < b.upstream ∨ (a.upstream = b.upstream ∧ a.build < b.build)

def SameVersion (a b : Version U) : Prop := a.upstream = b.upstream ∧ a.build = b.build

/-- The documented meaning of the constraint operators: `v` is accepted by the constraint. -/
def Accepts : Constraint U → Version U → Prop
  | .any, _ => True
  | .equal w, v => SameVersion v w
  | .not w, v => ¬ SameVersion v w
  | .geq w, v => Earlier w v ∨ SameVersion v w
  | .gt w, v => Earlier w v
  | .leq w, v => Earlier v w ∨ SameVersion v w
  | .lt w, v => Earlier v w
  | .upstream w, v => v.upstream = w.upstream

/-- A requirement accepts a version when all its constraints do. -/
def ReqAccepts (r : Requirement N U) (v : Version U) : Prop := ∀ c ∈ r.constraints, Accepts c v

/-- not one of the versions that `r` excludes with `!=` -/
def NotExcluded (r : Requirement N U) (v : Version U) : Prop := ∀ w, Constraint.not w ∈ r.constraints → ¬ SameVersion v w

/-- Calls that change a `ConstraintModifiers`. -/
inductive ModOp (N : Type) where
  | allowNewer (x : N)
  | allowAny (x : N)
  | allowOlder (x : N)
  | update (other : Modifiers N)
  | remove (packages : List N)

/-- which calls add the name `x` to the set of names allowed to be newer / any / older -/
def ModOp.addsNewer (x : N) : ModOp N → Prop
  | .allowNewer y => y = x
  | .update o => x ∈ o.allowNewer
  | _ => False
def ModOp.addsAny (x : N) : ModOp N → Prop
  | .allowAny y => y = x
  | .update o => x ∈ o.allowAny
  | _ => False
def ModOp.addsOlder (x : N) : ModOp N → Prop
  | .allowOlder y => y = x
  | .update o => x ∈ o.allowOlder
  | _ => False
def ModOp.removes (x : N) : ModOp N → Prop
  | .remove ps => x ∈ ps
  | _ => False

/-- `x` was added by some call of the history and not removed by a later one -/
def AddedAndNotRemoved (adds removes : ModOp N → Prop) (history : List (ModOp N)) : Prop :=
  ∃ before op after, history = before ++ op :: after ∧ adds op ∧ ∀ o ∈ after, ¬ removes o

end Verif.Pkg
