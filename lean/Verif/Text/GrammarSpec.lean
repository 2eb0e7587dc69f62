import Verif.Text.Spec
/-
How constraint strings and requirement strings are written, without regular expressions, tokens or scanners.
-/
namespace Verif.Text
open Verif Verif.Pkg CharTable

variable [CharTable] {U : Type} [LinearOrder U] [VersionText U]

/-- The operators of constraints -/
inductive Op where
  | equal
  | not
  | geq
  | gt
  | leq
  | lt
  | upstream
deriving DecidableEq

def Op.text : Op → Str
  | .equal => ['=', '=']
  | .not => ['!', '=']
  | .geq => ['>', '=']
  | .gt => ['>']
  | .leq => ['<', '=']
  | .lt => ['<']
  | .upstream => ['^', '=']

/-- the constraint that an operator makes of a version -/
def Op.con : Op → Version U → Constraint U
  | .equal => .equal
  | .not => .not
  | .geq => .geq
  | .gt => .gt
  | .leq => .leq
  | .lt => .lt
  | .upstream => .upstream

/-- texts with commas between them -/
def joined : List Str → Str
  | [] => []
  | [p] => p
  | p :: q :: ps => p ++ ',' :: joined (q :: ps)

def Spaces (s : Str) : Prop := ∀ c ∈ s, isSpace c = true
def Blanks (s : Str) : Prop := ∀ c ∈ s, c = ' '

/-! ### constraint strings -/

/-- What can be written between two commas of a constraint string: nothing but white space, a star, or an operator and a
version. -/
inductive CPart where
  | blank (ws : Str)
  | star (lead trail : Str)
  | op (lead : Str) (o : Op) (gap version trail : Str)

def CPart.render : CPart → Str
  | .blank ws => ws
  | .star lead trail => lead ++ ['*'] ++ trail
  | .op lead o gap version trail => lead ++ (o.text ++ gap ++ version) ++ trail

/-- an operator or a star -/
def Sign (x : Str) : Prop := x = ['*'] ∨ ∃ o : Op, x = o.text

/-- any white space may surround a part, any number of blanks may follow an operator -/
def CPart.OK : CPart → Prop
  | .blank ws => Spaces ws
  | .star lead trail => Spaces lead ∧ Spaces trail
  | .op lead _ gap version trail => Spaces lead ∧ Blanks gap ∧ ValidVersion version ∧ Spaces trail

/-- without a gap, `>` and `<` run into a following `=` -/
def RunsOn (o : Op) (gap next : Str) : Prop := (o = .gt ∨ o = .lt) ∧ gap = [] ∧ next = Op.text .equal

/-- What the parser of constraints accepts: it does not check that what comes after an operator is a version, and leaves that
to `EnpkgVersion.from_string`. -/
def CPart.Loose : CPart → Prop
  | .blank ws => Spaces ws
  | .star lead trail => Spaces lead ∧ Spaces trail
  | .op lead o gap version trail =>
    Spaces lead ∧ Blanks gap ∧ (ValidVersion version ∨ Sign version ∧ ¬ RunsOn o gap version) ∧ Spaces trail

/-- the constraints that the parts stand for -/
inductive CSays : List CPart → List (Constraint U) → Prop where
  | nil : CSays [] []
  | blank {ws ps cs} : CSays ps cs → CSays (.blank ws :: ps) cs
  | star {lead trail ps cs} : CSays ps cs → CSays (.star lead trail :: ps) (.any :: cs)
  | op {lead o gap version trail ps cs v} : VersionText.ofString version = .ok v → CSays ps cs →
      CSays (.op lead o gap version trail :: ps) (o.con v :: cs)

/-- What `EnpkgVersion.from_string` might refuse: the star and the operators -/
def NoOperatorVersion (U : Type) [VersionText U] : Prop :=
  ∀ x, Sign x → ∀ v : Version U, VersionText.ofString x ≠ .ok v

/-! ### requirement strings -/

/-- What can be written between two commas of a requirement string: nothing but white space, a name, a name and a star, or
a name, an operator and a version. -/
inductive RPart where
  | blank (ws : Str)
  | bare (lead name trail : Str)
  | star (lead name gap trail : Str)
  | op (lead name gap : Str) (o : Op) (gap' version trail : Str)

def RPart.render : RPart → Str
  | .blank ws => ws
  | .bare lead name trail => lead ++ name ++ trail
  | .star lead name gap trail => lead ++ (name ++ gap ++ ['*']) ++ trail
  | .op lead name gap o gap' version trail => lead ++ (name ++ gap ++ o.text ++ gap' ++ version) ++ trail

def RPart.OK : RPart → Prop
  | .blank ws => Spaces ws
  | .bare lead name trail => Spaces lead ∧ ValidName name ∧ Spaces trail
  | .star lead name gap trail => Spaces lead ∧ ValidName name ∧ Blanks gap ∧ Spaces trail
  | .op lead name gap _ gap' version trail =>
    Spaces lead ∧ ValidName name ∧ Blanks gap ∧ Blanks gap' ∧ ValidVersion version ∧ Spaces trail

/-- What the parser of requirements accepts: where there is no operator, it does not check that what stands in the place of the
name is one. -/
def RPart.Loose : RPart → Prop
  | .blank ws => Spaces ws
  | .bare lead name trail => Spaces lead ∧ (ValidName name ∨ ValidVersion name ∨ Sign name) ∧ Spaces trail
  | .star lead name gap trail => Spaces lead ∧ (ValidName name ∨ Sign name) ∧ Blanks gap ∧ Spaces trail
  | .op lead name gap _ gap' version trail =>
    Spaces lead ∧ ValidName name ∧ Blanks gap ∧ Blanks gap' ∧ ValidVersion version ∧ Spaces trail

/-- the name in the part -/
def RPart.name? : RPart → Option Str
  | .blank _ => none
  | .bare _ n _ => some n
  | .star _ n _ _ => some n
  | .op _ n _ _ _ _ _ => some n

/-- the constraints that the parts stand for -/
inductive RSays : List RPart → List (Constraint U) → Prop where
  | nil : RSays [] []
  | blank {ws ps cs} : RSays ps cs → RSays (.blank ws :: ps) cs
  | bare {lead name trail ps cs} : RSays ps cs → RSays (.bare lead name trail :: ps) (.any :: cs)
  | star {lead name gap trail ps cs} : RSays ps cs → RSays (.star lead name gap trail :: ps) (.any :: cs)
  | op {lead name gap o gap' version trail ps cs v} : VersionText.ofString version = .ok v → RSays ps cs →
      RSays (.op lead name gap o gap' version trail :: ps) (o.con v :: cs)

end Verif.Text
