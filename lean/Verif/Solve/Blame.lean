import Verif.Rules.Blame
import Verif.Solve.Model
/-
`DependencySolver.solve` with the data of its exceptions: the requirement that NoPackageFound and its subclasses carry, and
the package that their message names. `Verif/Solve/BlameLemmas.lean` shows that forgetting the data gives
`DependencySolver.solve` of `Solve/Model.lean`.
-/
namespace Verif.Solve
open Verif Verif.Pkg Verif.Graph Verif.Rules

variable {N S U : Type} [LinearOrder N] [DecidableEq S] [LinearOrder U] [Syntax S U]

/-- The loop over the jobs; dependency_solver.py:472-494 -/
def jobIdsB (pool : Pool N S U) (installed : Repository N S U) :
    List (Job N U) → List Nat → List (Package N S U) → Except (Blame N S U) (List Nat × List (Package N S U))
  | [], ids, soft => .ok (ids, soft)
  | j :: js, ids, soft =>
    if j.kind = .upgrade then plain (.error .assertion)
    else match j.requirement with
      | none => plain (.error .typeError)
      | some r => do
        let providers ← plain (pool.whatProvides r false)
        if providers.isEmpty then .error ⟨.noPackageFound, some r, none⟩
        else
          let kept ← plain (if j.kind = .hardUpdate then (maxPkg (hardKey installed) providers).map (fun p => [p])
            else .ok providers)
          let soft := if j.kind = .softUpdate then soft ++ providers.filter installed.contains else soft
          let more ← plain (mapE pool.packageId kept)
          jobIdsB pool installed js (ids ++ more) soft

/-- `_create_rules_and_initialize_policy`; dependency_solver.py:465-511 -/
def createRulesB (s : DependencySolver N S U) (o : Orders) (pool : Pool N S U) (q : Request N U) :
    Except (Blame N S U) (Setup N S U) := do
  let (ids, soft) ← jobIdsB pool s.installed q.jobs [] []
  let d ← plain (installedDict pool s.installed.iter [])
  let prefer ← plain (preferIds pool o.prefer s.installed.iter soft)
  let gen ← iterRulesB s.strict pool q.jobs d
  .ok { requirementIds := ids
        gen := gen
        prefer := prefer
        installedDict := d }

/-- an exception of `solve`, with its data -/
inductive SBlame (N S U : Type) where
  | pkg (b : Blame N S U)
  | sat (e : Sat.Err)

/-- `solve(request)`; dependency_solver.py:373-419 -/
def DependencySolver.solveB (s : DependencySolver N S U) (o : Orders) (q : Request N U) :
    Except (SBlame N S U) (Transaction N S U) :=
  let q := convertUpgrade q s.remote s.installed
  let pool := s.solvePool q
  match createRulesB s o pool q with
  | .error b => .error (.pkg b)
  | .ok st => match search o pool st with
    | .error e => .error (.sat e)
    | .ok a => match plain (finish s o pool st.requirementIds a) with
      | .error b => .error (.pkg b)
      | .ok t => .ok t

end Verif.Solve
