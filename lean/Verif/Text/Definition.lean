import Verif.Text.Package
import Verif.Pkg.Pool
import Verif.PyMap
/-
Model of `packages_from_definition` and `pool_and_repository_from_packages` of simplesat/test_utils.py.
-/
set_option linter.unusedSectionVars false
namespace Verif.Text
open Verif Verif.Pkg CharTable

/-- the characters at which Python's `str.splitlines` ends a line -/
def lineBreaks : List Char :=
  ['\n', '\r', Char.ofNat 0x0b, Char.ofNat 0x0c, Char.ofNat 0x1c, Char.ofNat 0x1d, Char.ofNat 0x1e, Char.ofNat 0x85,
    Char.ofNat 0x2028, Char.ofNat 0x2029]

/-- `str.splitlines()`; the first argument is the line that has been begun, backwards. A carriage return with the line feed
that follows it is one end of a line. -/
def splitLines : Str → Str → List Str
  | cur, [] => if cur = [] then [] else [cur.reverse]
  | cur, '\r' :: '\n' :: s => cur.reverse :: splitLines [] s
  | cur, c :: s => if c ∈ lineBreaks then cur.reverse :: splitLines [] s else splitLines (c :: cur) s

variable [CharTable] {U : Type} [LinearOrder U] [VersionText U]

/-- `packages_from_definition(packages_definition)`; test_utils.py:48-54 -/
def packagesFromDefinition (definition : Str) : Except PErr (List (Package Str (CStr U) U)) :=
  mapE (fun line => parseToPackage (strip line)) ((splitLines [] definition).filter (fun line => decide (strip line ≠ [])))

variable [Syntax (CStr U) U]

/-- `pool_and_repository_from_packages(packages)`; test_utils.py:57-60 -/
def poolAndRepository (definition : Str) : Except PErr (Pool Str (CStr U) U × Repository Str (CStr U) U) :=
  match packagesFromDefinition definition with
  | .error e => .error e
  | .ok ps =>
    let repository := Repository.ofList ps
    match Pool.addRepositories [repository] (Pool.empty none) with
    | (_, some e) => .error e
    | (pool, none) => .ok (pool, repository)

end Verif.Text
