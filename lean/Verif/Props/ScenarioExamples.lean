import Verif.Props.Scenarios
import Verif.Text.Example
import Verif.Solve.Example
import Mathlib.Data.Char
import Mathlib.Data.List.Lex
/-
Concrete scenarios (ASCII texts; upstream versions are numbers): the hypotheses of C80-C83 can be met, and what the full
property of C80 and C81 misses.
-/
namespace Verif.Props.ScenarioExample
open Verif Verif.Pkg Verif.Text Verif.Text.Example Verif.Solve Verif.Scn

def txt (s : String) : Str := s.toList
def ask (op req : String) : Entry := ⟨some op.toList, some req.toList⟩
def plain (n : String) (c : Constraint Nat := .any) : Requirement Str Nat := ⟨.plain, n.toList, [c]⟩

/-- a scenario with dependencies, an installed package, a mark and an update of everything -/
def world : Data where
  packages := [txt "a 1-1", txt "a 2-1", txt "b 1-1; depends (a == 2-1)", txt "c 1-1"]
  installed := [txt "a 1-1", txt "c 1-1"]
  marked := [txt "c", txt "b"]
  modifiers := [(txt "allow_newer", [txt "a"])]
  request := [ask "install" "b", ⟨some (txt "update_all"), none⟩]
  transaction := [⟨some (txt "remove"), some (txt "a 1-1"), none, none⟩, ⟨some (txt "install"), some (txt "a 2-1"), none, none⟩]
  pretty := [⟨some (txt "update"), none, some (txt "a 1-1"), some (txt "a 2-1")⟩]

theorem world_request : (match buildRequest (U := Nat) world with | .ok q => some (q.jobs, q.modifiers.allowNewer) | .error _ => none) =
    some ([⟨some (plain "b"), .install⟩, ⟨some (plain "c"), .hardUpdate⟩], [txt "a"]) := by
  decide +kernel

/-- the texts of a list of packages, with their repositories -/
def shown (ps : List (Package Str (CStr Nat) Nat)) : List (Str × Option Str) := ps.map (fun p => (fullName p, p.repo))

def isOk {ε α : Type} : Except ε α → Bool
  | .ok _ => true
  | .error _ => false

theorem isOk_iff {ε α : Type} {x : Except ε α} : isOk x = true ↔ ∃ a, x = .ok a := by cases x <;> simp [isOk]

def loaded (d : Data) : Option (List (Str × Option Str) × List (Str × Option Str)) :=
  match fromYaml (U := Nat) d with
  | .ok sc => some (shown sc.remote.iter, shown sc.installed.iter)
  | .error _ => none

/-- the scenario loads, and its repositories are as expected -/
theorem world_loads : loaded world =
    some ([(txt "a 1-1", some (txt "remote")), (txt "a 2-1", some (txt "remote")), (txt "b 1-1", some (txt "remote")),
        (txt "c 1-1", some (txt "remote"))],
      [(txt "a 1-1", some (txt "installed")), (txt "c 1-1", some (txt "installed"))]) := by
  decide +kernel

def opShown : Solve.Op Str (CStr Nat) Nat → Str × Str
  | .install p => (txt "install", fullName p)
  | .remove p => (txt "remove", fullName p)
  | .update p q => (fullName q, fullName p)

/-- the operations are those of the lists -/
theorem world_operations : (mapE (readOperation (U := Nat)) world.transaction).map (·.map opShown) =
    .ok [(txt "remove", txt "a 1-1"), (txt "install", txt "a 2-1")] ∧
    (mapE (readOperation (U := Nat)) world.pretty).map (·.map opShown) = .ok [(txt "a 1-1", txt "a 2-1")] := by
  decide +kernel

def solvedTexts (d : Data) : Option (List (Str × Str) × List (Str × Str)) :=
  match fromYaml (U := Nat) d with
  | .error _ => none
  | .ok sc => match sc.solver with
    | .error _ => none
    | .ok s => match s.solve Solve.Example.insertionOrder sc.request with
      | .error _ => none
      | .ok t => some (t.operations.map opShown, t.pretty.map opShown)

/-- the scenario is solved: the hypotheses of C83 can be met -/
theorem world_solved : solvedTexts world =
    some ([(txt "remove", txt "a 1-1"), (txt "install", txt "a 2-1"), (txt "install", txt "b 1-1")],
      [(txt "a 1-1", txt "a 2-1"), (txt "install", txt "b 1-1")]) := by
  decide +kernel

/-! ### What the full properties miss -/

/-- the jobs of a scenario -/
def jobsOf (d : Data) : Option (List (Job Str Nat)) :=
  match buildRequest (U := Nat) d with
  | .ok q => some q.jobs
  | .error _ => none

def twice : Data where
  packages := [txt "numpy 1-1"]
  installed := [txt "numpy 1-1"]
  marked := [txt "numpy", txt "numpy"]
  request := [ask "remove" "numpy"]

/-- C80 violated: a package that is marked twice is to be removed *and* kept. -/
theorem C80_violated_twice : jobsOf twice = some [⟨some (plain "numpy"), .remove⟩, ⟨some (plain "numpy"), .install⟩] := by
  decide +kernel

/-- a constraint in the mark -/
def constrained : Data where
  packages := [txt "numpy 1-1"]
  installed := [txt "numpy 1-1"]
  marked := [txt "numpy == 1-1"]
  request := [ask "remove" "numpy"]

/-- C80 violated: a mark with a version is kept although the package is to be removed. -/
theorem C80_violated_constraint :
    jobsOf constrained = some [⟨some (plain "numpy"), .remove⟩, ⟨some (plain "numpy" (.equal ⟨1, 1⟩)), .install⟩] := by
  decide +kernel

/-- Both scenarios are unsatisfiable, although without the mark the package could just be removed. -/
theorem C80_violated_unsat : solvedTexts twice = none ∧ solvedTexts constrained = none ∧
    (solvedTexts { twice with marked := [txt "numpy"] }).isSome = true := by
  decide +kernel

/-- `upgrade`, an operation of a Request, is none of a scenario: it takes no requirement. -/
theorem C80_no_upgrade : (match buildRequest (U := Nat) { request := [ask "upgrade" "numpy"] } with
    | .error e => some e | .ok _ => none) = some (.pkg .typeError) := by
  decide +kernel

def homonyms : Data where
  packages := [txt "a 1-1; depends (b)", txt "b 1-1", txt "a 1-1; depends (c)"]

/-- C81 violated: of two packages with the same name and version the first one is lost, silently; the second one takes its
place in the order. -/
theorem C81_violated_lost : loaded homonyms = some ([(txt "a 1-1", some (txt "remote")), (txt "b 1-1", some (txt "remote"))], []) := by
  decide +kernel

end Verif.Props.ScenarioExample
