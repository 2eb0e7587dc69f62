import Verif.Pkg.Constraints
/-
Model of simplesat/package.py and of `Requirement.from_constraints` (constraints/requirement.py).

`S` is the type of constraint strings such as ">= 1.3". How they are parsed is a parameter (class `Syntax`): the results
of this layer hold for every syntax. Verif/Text gives the actual one.
-/
namespace Verif.Pkg
open Verif

/-- `_RawConstraintsParser().parse(s, EnpkgVersion.from_string)`, and the string "*". parser.py:166-189. The exceptions
are InvalidConstraint, the AssertionError of a lonely token, the ValueError of a bad version, and what `str.format` raises
when a brace of the string gets into the template of the message (parser.py:149-155). -/
class Syntax (S : Type) (U : outParam Type) where
  parse : S → Except PErr (List (Constraint U))
  star : S
  parse_star : parse star = .ok [.any]
  parse_err : ∀ s e, parse s = .error e →
    e = .invalidConstraint ∨ e = .valueError ∨ e = .assertion ∨ e = .formatting

/-- A constraint tuple `(name, ((s, ...), ...))`; package.py:78-93. (Tuples of another shape, for which
`from_constraints` raises InvalidConstraint or TypeError, are not represented.) -/
abbrev CTuple (N S : Type) := N × List (List S)

variable {N S U : Type} [DecidableEq N] [DecidableEq S] [LinearOrder U] [Syntax S U]

/-- parse the strings from left to right, stopping at the first failure -/
def parseAll : List S → Except PErr (List (Constraint U))
  | [] => .ok []
  | s :: t => match Syntax.parse s with
    | .error e => .error e
    | .ok cs => match parseAll t with
      | .error e => .error e
      | .ok cs' => .ok (cs ++ cs')

/-- `insert_star`; requirement.py:102-103 -/
def insertStar (conj : List S) : List S := if conj.length > 0 then conj else [Syntax.star]

/-- `cls.from_constraints(constraint_tuple)`; requirement.py:56-111 -/
def fromConstraints (cls : ReqClass) (t : CTuple N S) : Except PErr (Requirement N U) :=
  if t.2.length > 1 then .error .invalidConstraint
  else match parseAll (t.2.flatMap insertStar) with
    | .error e => .error e
    | .ok cs => .ok ⟨cls, t.1, cs⟩

/-- `PackageMetadata` / `RepositoryPackageMetadata`; package.py:66-114, 164-169. `repo` is the name of the
`repository_info`, `none` for a plain PackageMetadata. `declaredProvides` is the field `_provides`. -/
structure Package (N S U : Type) where
  name : N
  version : Version U
  installRequires : List (CTuple N S)
  conflicts : List (CTuple N S)
  declaredProvides : List (CTuple N S)
  repo : Option N
deriving DecidableEq

/-- `_key`, on which equality and hash are based: what is provided is not part of it; package.py:112-113, 168. -/
structure PKey (N S U : Type) where
  name : N
  version : Version U
  installRequires : List (CTuple N S)
  conflicts : List (CTuple N S)
  repo : Option N
deriving DecidableEq

def Package.key (p : Package N S U) : PKey N S U := ⟨p.name, p.version, p.installRequires, p.conflicts, p.repo⟩

/-- `p == q`; package.py:145-149, 204-208 -/
def Package.same (p q : Package N S U) : Bool := decide (p.key = q.key)

/-- `provides`: the name of the package itself, then the declared ones; package.py:120-124 -/
def Package.provides (p : Package N S U) : List (CTuple N S) := (p.name, [[Syntax.star]]) :: p.declaredProvides

end Verif.Pkg
