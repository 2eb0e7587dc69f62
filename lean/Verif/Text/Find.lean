import Verif.Text.Parser
import Verif.Pkg.Repository
import Mathlib.Data.List.Lex
import Mathlib.Data.Char
/-
The exception of `Repository.find_package`, which is composed from the texts of the name and of the version;
simplesat/repository.py:94-118, simplesat/errors.py:21-31.
-/
namespace Verif.Text
open Verif Verif.Pkg CharTable

variable [CharTable] {U : Type} [LinearOrder U] [VersionText U]

/-- `find_package(name, version)`: the package, or the exception and, for NoPackageFound, its attribute `requirement`.
`Requirement.from_package_string` may itself raise; repository.py:109-118, requirement.py:158-178. -/
def findPackageText (r : Repository Str (CStr U) U) (name : Str) (v : Version U) :
    Except (PErr × Option (Requirement Str U)) (Package Str (CStr U) U) :=
  match r.findPackage name v with
  | .ok p => .ok p
  | .error _ => match fromPackageString .plain (name ++ '-' :: VersionText.toStr v) with
    | .error e => .error (e, none)
    | .ok req => .error (.noPackageFound, some req)

end Verif.Text
