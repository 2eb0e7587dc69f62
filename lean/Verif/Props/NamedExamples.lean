import Verif.Props.Named
import Verif.Props.ScenarioExamples
/-
Concrete cases of C102: names in ASCII, a name with a dash, a name with a foreign letter, and a name between blanks.
-/
namespace Verif.Props.NamedExample
open Verif Verif.Pkg Verif.Text Verif.Text.Example Verif.Rules Verif.Solve

abbrev P := Package Str (CStr Nat) Nat

def pkg (repo name : String) (x : Nat) : P :=
  { name := str name
    version := ⟨x, 1⟩
    installRequires := []
    conflicts := []
    declaredProvides := []
    repo := some (str repo) }

def solver [CharTable] (inst remote : List P) : DependencySolver Str (CStr Nat) Nat :=
  { pool := (Pool.addRepositories [Repository.ofList inst, Repository.ofList remote] (Pool.empty none)).1
    remote := [Repository.ofList remote]
    installed := Repository.ofList inst
    usePruning := true
    strict := false }

def wanted (name : String) (c : Constraint Nat := .any) : Requirement Str Nat := ⟨.install, str name, [c]⟩
def asked (rs : List (Requirement Str Nat)) : Request Str Nat := ⟨Modifiers.empty, rs.map (fun r => ⟨some r, .install⟩)⟩

/-- the operations of a transaction; `none`: an exception of the SAT solver -/
def shown : Except (SErr Str Nat) (Transaction Str (CStr Nat) Nat) → Option (Except PErr (List (Str × Str)))
  | .ok t => some (.ok (t.operations.map ScenarioExample.opShown))
  | .error (.pkg e) => some (.error e)
  | .error _ => none

theorem ascii_version (v : Version Nat) : AsciiVersion v := printable v

/-! ### in ASCII -/

def old : List P := [pkg "installed" "numpy.core" 1]
def new : List P := [pkg "remote" "numpy.core" 2, pkg "remote" "scipy" 3]

theorem built [CharTable] (inst remote : List P)
    (h : (Pool.addRepositories [Repository.ofList inst, Repository.ofList remote] (Pool.empty none)).2 = none) :
    ∃ m, Built [Repository.ofList inst, Repository.ofList remote] m (solver inst remote).pool :=
  ⟨(solver inst remote).pool.modifiers, none, _, Prod.ext rfl h, rfl⟩

theorem ascii_core : AsciiName (str "numpy.core") :=
  letI := asciiTable
  .dotted (w := str "numpy") (n := str "core") ⟨by decide, by decide⟩ (.word ⟨by decide, by decide⟩)

theorem ascii_scipy : AsciiName (str "scipy") :=
  letI := asciiTable
  .word ⟨by decide, by decide⟩

/-- the hypotheses of `C102_solve_partial` can be met -/
example (q : Request Str Nat) : (∀ o, (solver old new).solveN textReaders o q = (solver old new).solve o q) ∧
    ∀ o o', (solver old new).solveWithHintN textReaders o o' q = (solver old new).solveWithHint o o' q := by
  have h1 : ∀ p ∈ allPackages [Repository.ofList old, Repository.ofList new], p.name = str "numpy.core" ∨ p.name = str "scipy" := by
    decide +kernel
  have h2 : ∀ p ∈ remotePackages (solver old new), p.name = str "numpy.core" ∨ p.name = str "scipy" := by
    decide +kernel
  have h : ∀ p : P, p.name = str "numpy.core" ∨ p.name = str "scipy" → AsciiPackage p := by
    intro p e
    refine ⟨?_, ascii_version _⟩
    rcases e with e | e
    · rw [e]; exact ascii_core
    · rw [e]; exact ascii_scipy
  exact C102_solve_partial (built _ _ (by decide +kernel)) (fun p hp => h p (h1 p hp)) (fun p hp => h p (h2 p hp)) q

/-- and an upgrade, whose requirements are all written and parsed, does what it should -/
example : shown ((solver old new).solveN textReaders Solve.Example.insertionOrder ⟨Modifiers.empty, [⟨none, .upgrade⟩]⟩) =
    some (.ok [(str "remove", str "numpy.core 1-1"), (str "install", str "numpy.core 2-1")]) := by
  decide +kernel

/-- the functions on lists of packages, and the leaves -/
example : packagesAreConsistentN textReaders Solve.Example.insertionOrder new none =
      packagesAreConsistent Solve.Example.insertionOrder new none ∧
    computeLeafPackagesN textReaders ⟨id, fun _ => List.Perm.refl _⟩ [Repository.ofList new] =
      computeLeafPackages ⟨id, fun _ => List.Perm.refl _⟩ [Repository.ofList new] := by
  have h1 : ∀ p ∈ new, p.name = str "numpy.core" ∨ p.name = str "scipy" := by decide +kernel
  have h2 : ∀ p ∈ allPackages [Repository.ofList new], p.name = str "numpy.core" ∨ p.name = str "scipy" := by decide +kernel
  have h : ∀ p : P, p.name = str "numpy.core" ∨ p.name = str "scipy" → AsciiPackage p := by
    intro p e
    refine ⟨?_, ascii_version _⟩
    rcases e with e | e
    · rw [e]; exact ascii_core
    · rw [e]; exact ascii_scipy
  exact ⟨(C102_functions_partial (K := Nat) (fun p hp => h p (h1 p hp)) (fun _ => 0) Solve.Example.insertionOrder [] none).2.1,
    C102_leaves_partial (fun p hp => h p (h2 p hp)) _⟩

/-! ### a name with a dash -/

def dashed : P := pkg "installed" "scikit-learn" 1

theorem dash_refused : Refused Nat (str "scikit-learn") :=
  refused_dash (by decide) (by decide) (by rintro c t h; cases h; rfl)

/-- it is installed: nothing can be solved any more -/
example (o : Orders) (q : Request Str Nat) : ∃ e, (solver [dashed] new).solveN textReaders o q = .error (.pkg e) :=
  C102_violated_installed (built _ _ (by decide +kernel)) (p := dashed) (by decide +kernel) dash_refused o q

/-- the model whose names are not parsed solves the empty request -/
example : shown ((solver [dashed] new).solve Solve.Example.insertionOrder (asked [])) = some (.ok []) := by decide +kernel

/-- it is to be installed -/
example (o : Orders) : ∃ e, (solver [] [dashed]).solveN textReaders o (asked [wanted "scikit-learn"]) = .error (.pkg e) :=
  C102_violated_candidate (built _ _ (by decide +kernel)) (p := dashed) (by decide +kernel) (by intro p hp; cases hp) dash_refused
    (r := wanted "scikit-learn") (by decide +kernel) (by decide) (by decide) o

/-! ### a name with a letter that is not one of ASCII -/

example (o : Orders) (q : Request Str Nat) :
    letI := UnicodeExample.table
    ∃ e, (solver [pkg "installed" "naïve" 1] new).solveN textReaders o q = .error (.pkg e) := by
  letI := UnicodeExample.table
  exact C102_violated_installed (built _ _ (by decide +kernel)) (p := pkg "installed" "naïve" 1) (by decide +kernel)
    (refused_foreign (c := 'ï') (by decide) ⟨by decide, by decide⟩) o q

/-! ### a name between blanks: two versions of it are installed together -/

def odd : List P := [pkg "remote" " a" 1, pkg "remote" " a" 2]

def both : Request Str Nat := asked [wanted " a" (.equal ⟨1, 1⟩), wanted " a" (.equal ⟨2, 1⟩)]

/-- The rule against two versions of one package asks for the packages with the name " a" read from a string, which is
"a". -/
theorem C102_violated_two_versions :
    shown ((solver [] odd).solveN textReaders Solve.Example.insertionOrder both) =
      some (.ok [(str "install", str " a 1-1"), (str "install", str " a 2-1")]) ∧
    shown ((solver [] odd).solve Solve.Example.insertionOrder both) = none := by
  decide +kernel

end Verif.Props.NamedExample
