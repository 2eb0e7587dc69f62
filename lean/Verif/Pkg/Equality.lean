import Verif.Rules.Model
/-
Model of `==`, `!=` and `hash` of the value objects of the library: constraints, requirements, repository infos, packages and
rules, also when they are compared with one another.
-/
namespace Verif.Pkg
open Verif Verif.Rules

variable {N S U : Type} [DecidableEq N] [DecidableEq S] [LinearOrder U]

/-- The objects that define `__eq__`. A package without repository is a PackageMetadata, one with a repository a
RepositoryPackageMetadata. kinds.py:20-52, multi.py:6-60, requirement.py:44-241, package.py:20-214, rules_generator.py:26-152 -/
inductive Obj (N S U : Type) where
  | constraint (c : Constraint U)
  | multi (cs : List (Constraint U))
  | requirement (r : Requirement N U)
  | info (name : N)
  | package (p : Package N S U)
  | rule (r : Rule N U)

/-- what a comparison gives; `unknown` is the object NotImplemented -/
inductive Cmp where
  | yes
  | no
  | unknown
  | attributeError
deriving DecidableEq

def Cmp.of (b : Bool) : Cmp := if b then .yes else .no

/-- `not x` -/
def Cmp.neg : Cmp → Cmp
  | .yes => .no
  | .no => .yes
  | c => c

/-- the attribute `name` of an object, if it has one -/
def Obj.nameOf : Obj N S U → Option N
  | .requirement r => some r.name
  | .info n => some n
  | .package p => some p.name
  | _ => none

/-- `a.__eq__(b)`; kinds.py:27-28, 41-45, multi.py:52-54, requirement.py:196-198, package.py:34-35, 145-149, 204-208,
rules_generator.py:144-146. The keys of a RepositoryInfo (one component), a PackageMetadata (four) and a
RepositoryPackageMetadata (two) are never equal to one another. -/
def Obj.eqMethod : Obj N S U → Obj N S U → Cmp
  | .constraint c, .constraint d => .of (decide (c = d))
  | .constraint _, _ => .no
  | .multi cs, .multi ds => .of (decide (cs = ds))
  | .multi _, _ => .no
  | .requirement r, b => match b.nameOf with
    | none => .attributeError
    | some n => if r.name = n then
        match b with
        | .requirement r' => .of (decide (r.constraints = r'.constraints))
        | _ => .attributeError
      else .no
  | .info n, .info m => .of (decide (n = m))
  | .info _, .package _ => .no
  | .info _, _ => .attributeError
  | .package p, .package q => .of (p.same q)
  | .package _, .info _ => .no
  | .package _, _ => .unknown
  | .rule r, .rule r' => .of (decide (r.literals = r'.literals))
  | .rule _, _ => .no

/-- `a == b`: the reflected method is tried if the first one does not know. (When neither knows, Python compares the identities;
this does not happen here.) -/
def Obj.eq (a b : Obj N S U) : Cmp :=
  match a.eqMethod b with
  | .unknown => b.eqMethod a
  | c => c

/-- `a.__ne__(b)`: `not (self == other)`, except for repository infos and packages, which compare the keys;
kinds.py:30-31, 47-48, multi.py:56-57, requirement.py:200-201, package.py:37-38, 151-155, 210-214, rules_generator.py:148-149 -/
def Obj.neMethod : Obj N S U → Obj N S U → Cmp
  | .info n, .info m => .of (decide (n ≠ m))
  | .info _, .package _ => .yes
  | .info _, _ => .attributeError
  | .package p, .package q => .of (decide (p.key ≠ q.key))
  | .package _, .info _ => .yes
  | .package _, _ => .unknown
  | a, b => (a.eq b).neg

/-- `a != b` -/
def Obj.ne (a b : Obj N S U) : Cmp :=
  match a.neMethod b with
  | .unknown => b.neMethod a
  | c => c

/-- The hash functions of Python's own types: strings, versions, classes, the tuples of a package, and pairs and tuples of
hashes. Nothing is assumed about them. -/
structure Hashes (N S U : Type) where
  name : N → Int
  version : Version U → Int
  anyClass : Int
  strings : List (CTuple N S) → Int
  tuple : List Int → Int
  int : Int → Int

/-- `hash(constraint)`: the class does not count, except that of Any; kinds.py:33-34, 50-51 -/
def Constraint.hash (h : Hashes N S U) : Constraint U → Int
  | .any => h.anyClass
  | .equal v => h.version v
  | .not v => h.version v
  | .geq v => h.version v
  | .gt v => h.version v
  | .leq v => h.version v
  | .lt v => h.version v
  | .upstream v => h.version v

/-- the hash of a package without its repository; package.py:112-113 -/
def Package.coreHash (h : Hashes N S U) (p : Package N S U) : Int :=
  h.tuple [h.name p.name, h.version p.version, h.strings p.installRequires, h.strings p.conflicts]

/-- `hash(a)`; kinds.py:33-34, 50-51, multi.py:59-60, requirement.py:203-204, package.py:24, 31-32, 113, 142-143, 169, 201-202,
rules_generator.py:151-152 -/
def Obj.hash (h : Hashes N S U) : Obj N S U → Int
  | .constraint c => c.hash h
  | .multi cs => h.tuple (cs.map (Constraint.hash h))
  | .requirement r => h.tuple [h.name r.name, h.tuple (r.constraints.map (Constraint.hash h))]
  | .info n => h.tuple [h.name n]
  | .package p => match p.repo with
    | none => p.coreHash h
    | some n => h.tuple [p.coreHash h, h.tuple [h.name n]]
  | .rule r => h.tuple (r.literals.map h.int)

end Verif.Pkg
