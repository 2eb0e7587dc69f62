import Verif.Rules.Model
/-
What the exceptions of the generator carry: NoPackageFound and its subclasses have an attribute `requirement`
(errors.py:20-39), and the messages of MissingInstallRequires and MissingConflicts name a package
(rules_generator.py:321-337, 391-406). The functions below are those of `Rules/Model.lean` that can raise, with these
data; `Verif/Rules/BlameLemmas.lean` shows that forgetting the data gives the functions of `Rules/Model.lean`.
-/
namespace Verif.Rules
open Verif Verif.Pkg

variable {N S U : Type} [DecidableEq N] [DecidableEq S] [LinearOrder U] [Syntax S U]

/-- An exception: its class, its attribute `requirement` (if it has one), and the package named in its message (if one
is); errors.py:20-39 -/
structure Blame (N S U : Type) where
  err : PErr
  requirement : Option (Requirement N U)
  package : Option (Package N S U)

/-- an exception that names nothing -/
def plain {α : Type} : Except PErr α → Except (Blame N S U) α
  | .ok a => .ok a
  | .error e => .error ⟨e, none, none⟩

/-- What happens when nothing provides the requirement `r` of `p`; rules_generator.py:321-341, 391-412 -/
def strictCheckB (strict : Bool) (reqs : Reqs N U) (e : PErr) (r : Requirement N U) (p : Package N S U) :
    Except (Blame N S U) Unit :=
  if strict then
    match reqs with
    | none => .error ⟨.typeError, none, none⟩
    | some l => if l.length = 1 then .error ⟨e, some r, some p⟩ else .ok ()
  else .ok ()

/-- The loop of `_add_install_requires_rules`; rules_generator.py:308-359 -/
def addRequiresB (strict : Bool) (pool : Pool N S U) (p : Package N S U) (reqs : Reqs N U) :
    List (CTuple N S) → List (Rule N U) → List (Work N S U) →
      Except (Blame N S U) (List (Rule N U) × List (Work N S U))
  | [], rules, queued => .ok (rules, queued)
  | c :: cs, rules, queued => do
    let req ← plain (fromConstraints .install c)
    let cands ← plain (pool.whatProvides req)
    if cands.isEmpty then
      strictCheckB strict reqs .missingInstallRequires req p
      let rule ← plain (removeRule pool p .packageBroken (combine reqs req))
      .ok (addRule rule rules, [])
    else
      let rule ← plain (dependencyRule pool p cands .packageRequires (combine reqs req))
      addRequiresB strict pool p reqs cs (addRule rule rules) (queued ++ cands.map (fun q => (q, combine reqs req)))

/-- The loop over `package.conflicts`; rules_generator.py:382-418 -/
def addDeclaredB (strict : Bool) (pool : Pool N S U) (p : Package N S U) (reqs : Reqs N U) :
    List (CTuple N S) → List (Rule N U) → Except (Blame N S U) (List (Rule N U))
  | [], rules => .ok rules
  | c :: cs, rules => do
    let req ← plain (fromConstraints .conflict c)
    let cands ← plain (pool.whatProvides req)
    if cands.isEmpty then
      strictCheckB strict reqs .missingConflicts req p
      addDeclaredB strict pool p reqs cs rules
    else
      let rules ← plain (addProviderConflicts pool p (combine reqs req) cands rules)
      addDeclaredB strict pool p reqs cs rules

/-- `_add_conflicts_rules`; rules_generator.py:361-418 -/
def addConflictsB (strict : Bool) (pool : Pool N S U) (p : Package N S U) (reqs : Reqs N U)
    (rules : List (Rule N U)) : Except (Blame N S U) (List (Rule N U)) := do
  let req : Requirement N U := Requirement.ofName .conflict p.name
  let obsolete ← plain (pool.whatProvides req)
  let rules ← plain (addSameName pool p (combine reqs req) obsolete rules)
  addDeclaredB strict pool p reqs p.conflicts rules

/-- The loop of `_add_package_rules`; rules_generator.py:427-435 -/
def workB (strict : Bool) (pool : Pool N S U) : Nat → List (Work N S U) → Gen N U → Except (Blame N S U) (Gen N U)
  | _, [], g => .ok g
  | 0, _ :: _, _ => plain (.error .outOfFuel)
  | n + 1, (p, reqs) :: queue, g => do
    let i ← plain (pool.packageId p)
    if i ∈ g.added then workB strict pool n queue g
    else
      let (rules, more) ← addRequiresB strict pool p reqs p.installRequires g.rules []
      let rules ← addConflictsB strict pool p reqs rules
      workB strict pool n (queue ++ more)
        { rules := rules
          added := sadd i g.added }

/-- `_add_package_rules`; rules_generator.py:420-435 -/
def addPackageRulesB (strict : Bool) (pool : Pool N S U) (p : Package N S U) (reqs : Reqs N U) (g : Gen N U) :
    Except (Blame N S U) (Gen N U) :=
  workB strict pool (enoughTurns pool) [(p, reqs)] g

/-- The loop over the packages of an install job; rules_generator.py:441-449 -/
def addCandidatesB (strict : Bool) (pool : Pool N S U) (installed : Dict Nat (Package N S U))
    (r : Requirement N U) : List (Package N S U) → Gen N U → Except (Blame N S U) (Gen N U)
  | [], g => .ok g
  | p :: ps, g => do
    let i ← plain (pool.packageId p)
    if i ∈ dkeys installed then addCandidatesB strict pool installed r ps g
    else
      let g ← addPackageRulesB strict pool p (some [r]) g
      addCandidatesB strict pool installed r ps g

/-- `_add_install_job_rules`; rules_generator.py:437-456 -/
def addInstallJobB (strict : Bool) (pool : Pool N S U) (installed : Dict Nat (Package N S U)) (r : Requirement N U)
    (g : Gen N U) : Except (Blame N S U) (Gen N U) := do
  let ps ← plain (pool.whatProvides r false)
  if ps.isEmpty then .error ⟨.noPackageFound, some r, none⟩
  else
    let g ← addCandidatesB strict pool installed r ps g
    let rule ← plain (installOneOfRule pool ps .jobInstall (some [r]))
    .ok { g with rules := addRule rule g.rules }

/-- `_add_update_job_rules`; rules_generator.py:466-489 -/
def addUpdateJobB (strict : Bool) (pool : Pool N S U) (installed : Dict Nat (Package N S U)) (r : Requirement N U)
    (g : Gen N U) : Except (Blame N S U) (Gen N U) := do
  let ps ← plain (pool.whatProvides r false)
  if ps.isEmpty then .ok g
  else
    let p ← plain (maxPkg (updateKey pool installed) ps)
    let g ← addPackageRulesB strict pool p (some [r]) g
    let i ← plain (pool.packageId p)
    .ok { g with rules := addRule (mkRule [(i : Int)] .jobUpdate (some [r])) g.rules }

/-- One turn of the loop of `_add_job_rules`; rules_generator.py:496-506 -/
def addJobB (strict : Bool) (pool : Pool N S U) (installed : Dict Nat (Package N S U)) (j : Job N U)
    (g : Gen N U) : Except (Blame N S U) (Gen N U) :=
  match j.kind, j.requirement with
  | .install, some r => addInstallJobB strict pool installed r g
  | .softUpdate, some r => addInstallJobB strict pool installed r g
  | .remove, some r => plain (addRemoveJob pool r g)
  | .hardUpdate, some r => addUpdateJobB strict pool installed r g
  | .upgrade, _ => plain (.error .notImplemented)
  | _, none => plain (.error .typeError)

/-- `_add_job_rules`; rules_generator.py:496-506 -/
def addJobsB (strict : Bool) (pool : Pool N S U) (installed : Dict Nat (Package N S U)) :
    List (Job N U) → Gen N U → Except (Blame N S U) (Gen N U)
  | [], g => .ok g
  | j :: js, g => do
    let g ← addJobB strict pool installed j g
    addJobsB strict pool installed js g

/-- The loop of `_add_installed_package_rules`; rules_generator.py:491-494 -/
def addOthersB (strict : Bool) (pool : Pool N S U) : List (Package N S U) → Gen N U → Except (Blame N S U) (Gen N U)
  | [], g => .ok g
  | p :: ps, g => do
    let g ← addPackageRulesB strict pool p none g
    addOthersB strict pool ps g

/-- The loop over the installed packages; rules_generator.py:176-178, 491-494 -/
def addInstalledB (strict : Bool) (pool : Pool N S U) : List (Package N S U) → Gen N U → Except (Blame N S U) (Gen N U)
  | [], g => .ok g
  | p :: ps, g => do
    let g ← addOthersB strict pool (pool.nameToPackages p.name) g
    let g ← addPackageRulesB strict pool p none g
    addInstalledB strict pool ps g

/-- `RulesGenerator(pool, request, installed_package_ids, strict).iter_rules()`; rules_generator.py:156-179 -/
def iterRulesB (strict : Bool) (pool : Pool N S U) (jobs : List (Job N U)) (installed : Dict Nat (Package N S U)) :
    Except (Blame N S U) (Gen N U) := do
  let g ← addJobsB strict pool installed jobs ⟨[], []⟩
  addInstalledB strict pool (installed.map Prod.snd) g

end Verif.Rules
