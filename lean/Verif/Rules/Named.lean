import Verif.Rules.Model
/-
The generator with the text of package names. `_add_conflicts_rules` hands the name of a package to the parser of
requirement strings (rules_generator.py:367), which may refuse it or read something else. `Rules/Model.lean` takes the
requirement to be the one for that name; below the reader is an argument. `Verif/Rules/NamedLemmas.lean` shows that the two
agree if the reader reads names as they are.
-/
namespace Verif.Rules
open Verif Verif.Pkg

variable {N S U : Type} [DecidableEq N] [DecidableEq S] [LinearOrder U] [Syntax S U]

/-- What `ConflictRequirement._from_string` makes of the name of a package: an exception, a requirement, or a requirement
without a name (None), which no package provides; requirement.py:126-156 -/
abbrev Reader (N U : Type) := N → Except PErr (Option (Requirement N U))

/-- the reader reads the name as it is -/
def Reader.Plain (read : Reader N U) (cls : ReqClass) (n : N) : Prop := read n = .ok (some (Requirement.ofName cls n))

/-- `_add_conflicts_rules`; rules_generator.py:361-418 -/
def addConflictsN (read : Reader N U) (strict : Bool) (pool : Pool N S U) (p : Package N S U) (reqs : Reqs N U)
    (rules : List (Rule N U)) : Except PErr (List (Rule N U)) := do
  let req ← read p.name
  match req with
  | none => addDeclared strict pool p reqs p.conflicts rules
  | some req =>
    let obsolete ← pool.whatProvides req
    let rules ← addSameName pool p (combine reqs req) obsolete rules
    addDeclared strict pool p reqs p.conflicts rules

/-- The loop of `_add_package_rules`; rules_generator.py:427-435 -/
def workN (read : Reader N U) (strict : Bool) (pool : Pool N S U) :
    Nat → List (Work N S U) → Gen N U → Except PErr (Gen N U)
  | _, [], g => .ok g
  | 0, _ :: _, _ => .error .outOfFuel
  | n + 1, (p, reqs) :: queue, g => do
    let i ← pool.packageId p
    if i ∈ g.added then workN read strict pool n queue g
    else
      let (rules, more) ← addRequires strict pool p reqs p.installRequires g.rules []
      let rules ← addConflictsN read strict pool p reqs rules
      workN read strict pool n (queue ++ more)
        { rules := rules
          added := sadd i g.added }

/-- `_add_package_rules`; rules_generator.py:420-435 -/
def addPackageRulesN (read : Reader N U) (strict : Bool) (pool : Pool N S U) (p : Package N S U) (reqs : Reqs N U)
    (g : Gen N U) : Except PErr (Gen N U) :=
  workN read strict pool (enoughTurns pool) [(p, reqs)] g

/-- The loop over the packages of an install job; rules_generator.py:441-449 -/
def addCandidatesN (read : Reader N U) (strict : Bool) (pool : Pool N S U) (installed : Dict Nat (Package N S U))
    (r : Requirement N U) : List (Package N S U) → Gen N U → Except PErr (Gen N U)
  | [], g => .ok g
  | p :: ps, g => do
    let i ← pool.packageId p
    if i ∈ dkeys installed then addCandidatesN read strict pool installed r ps g
    else
      let g ← addPackageRulesN read strict pool p (some [r]) g
      addCandidatesN read strict pool installed r ps g

/-- `_add_install_job_rules`; rules_generator.py:437-456 -/
def addInstallJobN (read : Reader N U) (strict : Bool) (pool : Pool N S U) (installed : Dict Nat (Package N S U))
    (r : Requirement N U) (g : Gen N U) : Except PErr (Gen N U) := do
  let ps ← pool.whatProvides r false
  if ps.isEmpty then .error .noPackageFound
  else
    let g ← addCandidatesN read strict pool installed r ps g
    let rule ← installOneOfRule pool ps .jobInstall (some [r])
    .ok { g with rules := addRule rule g.rules }

/-- `_add_update_job_rules`; rules_generator.py:466-489 -/
def addUpdateJobN (read : Reader N U) (strict : Bool) (pool : Pool N S U) (installed : Dict Nat (Package N S U))
    (r : Requirement N U) (g : Gen N U) : Except PErr (Gen N U) := do
  let ps ← pool.whatProvides r false
  if ps.isEmpty then .ok g
  else
    let p ← maxPkg (updateKey pool installed) ps
    let g ← addPackageRulesN read strict pool p (some [r]) g
    let i ← pool.packageId p
    .ok { g with rules := addRule (mkRule [(i : Int)] .jobUpdate (some [r])) g.rules }

/-- One turn of the loop of `_add_job_rules`; rules_generator.py:496-506 -/
def addJobN (read : Reader N U) (strict : Bool) (pool : Pool N S U) (installed : Dict Nat (Package N S U)) (j : Job N U)
    (g : Gen N U) : Except PErr (Gen N U) :=
  match j.kind, j.requirement with
  | .install, some r => addInstallJobN read strict pool installed r g
  | .softUpdate, some r => addInstallJobN read strict pool installed r g
  | .remove, some r => addRemoveJob pool r g
  | .hardUpdate, some r => addUpdateJobN read strict pool installed r g
  | .upgrade, _ => .error .notImplemented
  | _, none => .error .typeError

/-- `_add_job_rules`; rules_generator.py:496-506 -/
def addJobsN (read : Reader N U) (strict : Bool) (pool : Pool N S U) (installed : Dict Nat (Package N S U)) :
    List (Job N U) → Gen N U → Except PErr (Gen N U)
  | [], g => .ok g
  | j :: js, g => do
    let g ← addJobN read strict pool installed j g
    addJobsN read strict pool installed js g

/-- The loop of `_add_installed_package_rules`; rules_generator.py:491-494 -/
def addOthersN (read : Reader N U) (strict : Bool) (pool : Pool N S U) :
    List (Package N S U) → Gen N U → Except PErr (Gen N U)
  | [], g => .ok g
  | p :: ps, g => do
    let g ← addPackageRulesN read strict pool p none g
    addOthersN read strict pool ps g

/-- The loop over the installed packages; rules_generator.py:176-178, 491-494 -/
def addInstalledN (read : Reader N U) (strict : Bool) (pool : Pool N S U) :
    List (Package N S U) → Gen N U → Except PErr (Gen N U)
  | [], g => .ok g
  | p :: ps, g => do
    let g ← addOthersN read strict pool (pool.nameToPackages p.name) g
    let g ← addPackageRulesN read strict pool p none g
    addInstalledN read strict pool ps g

/-- `RulesGenerator(pool, request, installed_package_ids, strict).iter_rules()`; rules_generator.py:155-179 -/
def iterRulesN (read : Reader N U) (strict : Bool) (pool : Pool N S U) (jobs : List (Job N U))
    (installed : Dict Nat (Package N S U)) : Except PErr (Gen N U) := do
  let g ← addJobsN read strict pool installed jobs ⟨[], []⟩
  addInstalledN read strict pool (installed.map Prod.snd) g

end Verif.Rules
