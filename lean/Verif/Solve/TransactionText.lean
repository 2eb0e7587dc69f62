import Verif.Solve.Transaction
import Verif.Solve.Unsat
/-
Model of the texts of a transaction: `to_string`, `__str__` and `to_simple_string` (simplesat/transaction.py:44-87), and of
the `__repr__` of packages, which `str` and `format` use as well (simplesat/package.py:40-41, 138-140, 195-199).

Texts are lists of characters; the texts of names (of packages and of repositories) and of versions are parameters. The last
branch of both functions ("Unknown operation") is for objects that are none of the three operations, which the model does
not have.
-/
namespace Verif.Solve
open Verif Verif.Pkg Verif.Graph

variable {N S U : Type} [LinearOrder N] [DecidableEq S] [LinearOrder U] [Syntax S U]

/-- `repr(package)`: for a PackageMetadata package.py:134-136; for a RepositoryPackageMetadata package.py:204-208, with the
`repr` of its RepositoryInfo, package.py:39-40 -/
def packageRepr (T : Texts N U) (p : Package N S U) : List Char :=
  match p.repo with
  | none => "PackageMetadata('".toList ++ (T.name p.name ++ '-' :: T.version p.version) ++ '\'' :: ")".toList
  | some r => "RepositoryPackageMetadata('".toList ++ (T.name p.name ++ '-' :: T.version p.version) ++
      '\'' :: (", repo=Repository(<".toList ++ T.name r ++ ">))".toList)

/-- the text of one operation in `to_string`; transaction.py:55-63. (There is no colon after "Removing".) -/
def opText (T : Texts N U) : Op N S U → List Char
  | .install p => "Installing:".toList ++ '\n' :: '\t' :: packageRepr T p
  | .update p source => "Updating:".toList ++ '\n' :: '\t' :: (packageRepr T source ++ '\n' :: '\t' :: packageRepr T p)
  | .remove p => "Removing".toList ++ '\n' :: '\t' :: packageRepr T p

/-- `Transaction.to_string(operations)`; transaction.py:51-68 -/
def opsToString (T : Texts N U) (ops : List (Op N S U)) : List Char := joinWith ['\n'] (ops.map (opText T))

/-- `S(package)`; transaction.py:71 -/
def simplePackage (T : Texts N U) (p : Package N S U) : List Char := T.name p.name ++ ' ' :: '(' :: (T.version p.version ++ [')'])

/-- the text of one operation in `to_simple_string`; transaction.py:74-82 -/
def opSimple (T : Texts N U) : Op N S U → List Char
  | .install p => "Installing ".toList ++ simplePackage T p
  | .update p source => "Updating ".toList ++ (simplePackage T source ++ (" to ".toList ++ simplePackage T p))
  | .remove p => "Removing ".toList ++ simplePackage T p

/-! The cases, one by one (Lean's own equations for these definitions take too long because of the string constants). -/

section
variable (T : Texts N U) (p q : Package N S U)
omit [LinearOrder N] [DecidableEq S] [LinearOrder U] [Syntax S U]

theorem opText_install : opText T (.install p) = "Installing:".toList ++ '\n' :: '\t' :: packageRepr T p := rfl
theorem opText_update : opText T (.update p q) =
    "Updating:".toList ++ '\n' :: '\t' :: (packageRepr T q ++ '\n' :: '\t' :: packageRepr T p) := rfl
theorem opText_remove : opText T (.remove p) = "Removing".toList ++ '\n' :: '\t' :: packageRepr T p := rfl
theorem opSimple_install : opSimple T (.install p) = "Installing ".toList ++ simplePackage T p := rfl
theorem opSimple_update : opSimple T (.update p q) =
    "Updating ".toList ++ (simplePackage T q ++ (" to ".toList ++ simplePackage T p)) := rfl
theorem opSimple_remove : opSimple T (.remove p) = "Removing ".toList ++ simplePackage T p := rfl
end

namespace Transaction

/-- `str(transaction)`; transaction.py:44-45 -/
def str (T : Texts N U) (t : Transaction N S U) : List Char := opsToString T t.operations

/-- `transaction.to_simple_string()`; transaction.py:70-87 -/
def toSimpleString (T : Texts N U) (t : Transaction N S U) : List Char := joinWith ['\n'] (t.operations.map (opSimple T))

end Transaction
end Verif.Solve
