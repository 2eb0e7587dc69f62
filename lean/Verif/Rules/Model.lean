import Verif.Pkg.Pool
import Mathlib.Data.Int.Order.Basic
/-
Model of simplesat/rules_generator.py: from a pool, a request and the installed packages to the rules of the SAT problem.
`PackageRule._from_string` (a test helper) and `to_string` (texts) are not modelled, nor is the logging.
-/
namespace Verif.Rules
open Verif Verif.Pkg

variable {N S U : Type} [DecidableEq N] [DecidableEq S] [LinearOrder U] [Syntax S U]

/-- The members of `RuleType` that the generator uses; rules_generator.py:17-28. -/
inductive Reason where
  | jobInstall
  | jobRemove
  | jobUpdate
  | packageRequires
  | packageConflicts
  | packageSameName
  | packageBroken
deriving DecidableEq

/-- `RuleType.is_job`; rules_generator.py:30-36 -/
def Reason.isJob : Reason → Bool
  | .jobInstall => true
  | .jobRemove => true
  | .jobUpdate => true
  | _ => false

/-- Fields of PackageRule; rules_generator.py:77-81 -/
structure Rule (N U : Type) where
  literals : List Int
  reason : Reason
  requirements : List (Requirement N U)
deriving DecidableEq

/-- `PackageRule(literals, reason, requirements=requirements)`: the literals are sorted, and no requirements (None)
is the same as an empty tuple; rules_generator.py:77-81 -/
def mkRule (literals : List Int) (reason : Reason) (requirements : Option (List (Requirement N U))) : Rule N U :=
  { literals := sortBy id literals
    reason := reason
    requirements := requirements.getD [] }

/-- a history of requirements, or None -/
abbrev Reqs (N U : Type) := Option (List (Requirement N U))

/-- `requirements + (pkg_requirement,) if requirements is not None else None`; rules_generator.py:316-319, 371-374 -/
def combine (reqs : Reqs N U) (r : Requirement N U) : Reqs N U := reqs.map (· ++ [r])

/-- `_create_dependency_rule`: the ids of the candidates different from the package itself;
rules_generator.py:184-213 -/
def candidateIds (pool : Pool N S U) (p : Package N S U) : List (Package N S U) → Except PErr (List Int)
  | [] => .ok []
  | d :: ds =>
    if d.same p then candidateIds pool p ds
    else do
      let i ← pool.packageId d
      let rest ← candidateIds pool p ds
      .ok ((i : Int) :: rest)

/-- `_create_dependency_rule`; rules_generator.py:184-213 -/
def dependencyRule (pool : Pool N S U) (p : Package N S U) (deps : List (Package N S U)) (reason : Reason)
    (reqs : Reqs N U) : Except PErr (Rule N U) := do
  let i ← pool.packageId p
  let ids ← candidateIds pool p deps
  .ok (mkRule (-(i : Int) :: ids) reason reqs)

/-- `_create_conflicts_rule`; rules_generator.py:215-243 -/
def conflictRule (pool : Pool N S U) (issuer provider : Package N S U) (reason : Reason) (reqs : Reqs N U) :
    Except PErr (Option (Rule N U)) :=
  if issuer.same provider then .ok none
  else do
    let i ← pool.packageId issuer
    let j ← pool.packageId provider
    .ok (some (mkRule [-(i : Int), -(j : Int)] reason reqs))

/-- `[pool.package_id(p) for p in packages]` -/
def idsOfAll (pool : Pool N S U) : List (Package N S U) → Except PErr (List Int)
  | [] => .ok []
  | p :: ps => do
    let i ← pool.packageId p
    let rest ← idsOfAll pool ps
    .ok ((i : Int) :: rest)

/-- `_create_install_one_of_rule`; rules_generator.py:245-265 -/
def installOneOfRule (pool : Pool N S U) (ps : List (Package N S U)) (reason : Reason) (reqs : Reqs N U) :
    Except PErr (Rule N U) := do
  let ids ← idsOfAll pool ps
  .ok (mkRule ids reason reqs)

/-- `_create_remove_rule`; rules_generator.py:267-287 -/
def removeRule (pool : Pool N S U) (p : Package N S U) (reason : Reason) (reqs : Reqs N U) :
    Except PErr (Rule N U) := do
  let i ← pool.packageId p
  .ok (mkRule [-(i : Int)] reason reqs)

/-- `_add_rule` on the ordered set of rules: rules are equal when their literals are, and the first one stays;
rules_generator.py:292-306, 144-152 -/
def addRule (r : Rule N U) (rules : List (Rule N U)) : List (Rule N U) :=
  if rules.any (fun r' => decide (r'.literals = r.literals)) then rules else rules ++ [r]

/-- `_add_rule` of a rule or None -/
def addRule? (r : Option (Rule N U)) (rules : List (Rule N U)) : List (Rule N U) :=
  match r with
  | some r => addRule r rules
  | none => rules

/-- What happens when nothing provides a requirement: `strict` mode raises if the history has length 1, and `len(None)`
is a TypeError; rules_generator.py:321-341, 391-412 -/
def strictCheck (strict : Bool) (reqs : Reqs N U) (e : PErr) : Except PErr Unit :=
  if strict then
    match reqs with
    | none => .error .typeError
    | some l => if l.length = 1 then .error e else .ok ()
  else .ok ()

/-- an entry of the work queue -/
abbrev Work (N S U : Type) := Package N S U × Reqs N U

/-- The loop of `_add_install_requires_rules`, `queued` being `all_dependency_candidates`: the rules and the entries to
append to the work queue (none if a dependency has no candidate); rules_generator.py:308-359 -/
def addRequires (strict : Bool) (pool : Pool N S U) (p : Package N S U) (reqs : Reqs N U) :
    List (CTuple N S) → List (Rule N U) → List (Work N S U) → Except PErr (List (Rule N U) × List (Work N S U))
  | [], rules, queued => .ok (rules, queued)
  | c :: cs, rules, queued => do
    let req ← fromConstraints .install c
    let cands ← pool.whatProvides req
    if cands.isEmpty then
      strictCheck strict reqs .missingInstallRequires
      let rule ← removeRule pool p .packageBroken (combine reqs req)
      .ok (addRule rule rules, [])
    else
      let rule ← dependencyRule pool p cands .packageRequires (combine reqs req)
      addRequires strict pool p reqs cs (addRule rule rules) (queued ++ cands.map (fun q => (q, combine reqs req)))

/-- The loop over the providers of the package's own name; rules_generator.py:375-380 -/
def addSameName (pool : Pool N S U) (p : Package N S U) (reqs : Reqs N U) :
    List (Package N S U) → List (Rule N U) → Except PErr (List (Rule N U))
  | [], rules => .ok rules
  | q :: qs, rules =>
    if !(q.same p) && decide (q.name = p.name) then do
      let rule ← conflictRule pool p q .packageSameName reqs
      addSameName pool p reqs qs (addRule? rule rules)
    else addSameName pool p reqs qs rules

/-- The loop over the providers of a declared conflict; rules_generator.py:414-418 -/
def addProviderConflicts (pool : Pool N S U) (p : Package N S U) (reqs : Reqs N U) :
    List (Package N S U) → List (Rule N U) → Except PErr (List (Rule N U))
  | [], rules => .ok rules
  | q :: qs, rules => do
    let rule ← conflictRule pool p q .packageConflicts reqs
    addProviderConflicts pool p reqs qs (addRule? rule rules)

/-- The loop over `package.conflicts`; rules_generator.py:382-418 -/
def addDeclared (strict : Bool) (pool : Pool N S U) (p : Package N S U) (reqs : Reqs N U) :
    List (CTuple N S) → List (Rule N U) → Except PErr (List (Rule N U))
  | [], rules => .ok rules
  | c :: cs, rules => do
    let req ← fromConstraints .conflict c
    let cands ← pool.whatProvides req
    if cands.isEmpty then
      strictCheck strict reqs .missingConflicts
      addDeclared strict pool p reqs cs rules
    else
      let rules ← addProviderConflicts pool p (combine reqs req) cands rules
      addDeclared strict pool p reqs cs rules

/-- `_add_conflicts_rules`; rules_generator.py:361-418. The requirement parsed from the name is taken to be the one for that
name (`Rules/Named.lean` parses it). -/
def addConflicts (strict : Bool) (pool : Pool N S U) (p : Package N S U) (reqs : Reqs N U)
    (rules : List (Rule N U)) : Except PErr (List (Rule N U)) := do
  let req : Requirement N U := Requirement.ofName .conflict p.name
  let obsolete ← pool.whatProvides req
  let rules ← addSameName pool p (combine reqs req) obsolete rules
  addDeclared strict pool p reqs p.conflicts rules

/-- The fields `_rules_set` and `added_package_ids`; rules_generator.py:158, 163 -/
structure Gen (N U : Type) where
  rules : List (Rule N U)
  added : List Nat

/-- The loop of `_add_package_rules`; rules_generator.py:427-435. The number of turns is bounded by the first argument;
Verif/Rules/Terminates.lean shows that `enoughTurns` is never exceeded. -/
def work (strict : Bool) (pool : Pool N S U) : Nat → List (Work N S U) → Gen N U → Except PErr (Gen N U)
  | _, [], g => .ok g
  | 0, _ :: _, _ => .error .outOfFuel
  | n + 1, (p, reqs) :: queue, g => do
    let i ← pool.packageId p
    if i ∈ g.added then work strict pool n queue g
    else
      let (rules, more) ← addRequires strict pool p reqs p.installRequires g.rules []
      let rules ← addConflicts strict pool p reqs rules
      work strict pool n (queue ++ more)
        { rules := rules
          added := sadd i g.added }

/-- The number of dependency candidates of a package, at most -/
def fanOut (pool : Pool N S U) (p : Package N S U) : Nat :=
  (p.installRequires.map (fun t => ((dget pool.packagesByName t.1).getD []).length)).sum

/-- a bound on the number of turns of `work` -/
def enoughTurns (pool : Pool N S U) : Nat := 1 + (pool.idToPackage.map (fun kv => fanOut pool kv.2)).sum

/-- `_add_package_rules`; rules_generator.py:420-435 -/
def addPackageRules (strict : Bool) (pool : Pool N S U) (p : Package N S U) (reqs : Reqs N U) (g : Gen N U) :
    Except PErr (Gen N U) :=
  work strict pool (enoughTurns pool) [(p, reqs)] g

/-- The loop over the packages of an install job; rules_generator.py:441-449. `installed` is
`installed_package_ids`. -/
def addCandidates (strict : Bool) (pool : Pool N S U) (installed : Dict Nat (Package N S U))
    (r : Requirement N U) : List (Package N S U) → Gen N U → Except PErr (Gen N U)
  | [], g => .ok g
  | p :: ps, g => do
    let i ← pool.packageId p
    if i ∈ dkeys installed then addCandidates strict pool installed r ps g
    else
      let g ← addPackageRules strict pool p (some [r]) g
      addCandidates strict pool installed r ps g

/-- `_add_install_job_rules`; rules_generator.py:437-456 -/
def addInstallJob (strict : Bool) (pool : Pool N S U) (installed : Dict Nat (Package N S U)) (r : Requirement N U)
    (g : Gen N U) : Except PErr (Gen N U) := do
  let ps ← pool.whatProvides r false
  if ps.isEmpty then .error .noPackageFound
  else
    let g ← addCandidates strict pool installed r ps g
    let rule ← installOneOfRule pool ps .jobInstall (some [r])
    .ok { g with rules := addRule rule g.rules }

/-- The loop of `_add_remove_job_rules`; rules_generator.py:461-464 -/
def addRemovals (pool : Pool N S U) (r : Requirement N U) :
    List (Package N S U) → Gen N U → Except PErr (Gen N U)
  | [], g => .ok g
  | p :: ps, g => do
    let rule ← removeRule pool p .jobRemove (some [r])
    addRemovals pool r ps { g with rules := addRule rule g.rules }

/-- `_add_remove_job_rules`; rules_generator.py:458-464 -/
def addRemoveJob (pool : Pool N S U) (r : Requirement N U) (g : Gen N U) : Except PErr (Gen N U) := do
  let ps ← pool.whatProvides r false
  addRemovals pool r ps g

/-- comparison of the keys `(version, installed)`; False < True -/
def keyLT (a b : Version U × Bool) : Bool := decide (a.1 < b.1) || (decide (a.1 = b.1) && !a.2 && b.2)

/-- `max(packages, key=key)` once the first element is known: the first maximal one -/
def maxPkgFrom (key : Package N S U → Except PErr (Version U × Bool)) :
    List (Package N S U) → Package N S U × (Version U × Bool) → Except PErr (Package N S U)
  | [], b => .ok b.1
  | p :: ps, b => do
    let k ← key p
    if keyLT b.2 k then maxPkgFrom key ps (p, k) else maxPkgFrom key ps b

/-- `max(packages, key=key)` of a nonempty list (the empty one is excluded by the callers) -/
def maxPkg (key : Package N S U → Except PErr (Version U × Bool)) :
    List (Package N S U) → Except PErr (Package N S U)
  | [] => .error .valueError
  | p :: ps => do
    let k ← key p
    maxPkgFrom key ps (p, k)

/-- the `key` of `_add_update_job_rules`; rules_generator.py:478-481 -/
def updateKey (pool : Pool N S U) (installed : Dict Nat (Package N S U)) (p : Package N S U) :
    Except PErr (Version U × Bool) := do
  let i ← pool.packageId p
  .ok (p.version, decide (i ∈ dkeys installed))

/-- `_add_update_job_rules`; rules_generator.py:466-489 -/
def addUpdateJob (strict : Bool) (pool : Pool N S U) (installed : Dict Nat (Package N S U)) (r : Requirement N U)
    (g : Gen N U) : Except PErr (Gen N U) := do
  let ps ← pool.whatProvides r false
  if ps.isEmpty then .ok g
  else
    let p ← maxPkg (updateKey pool installed) ps
    let g ← addPackageRules strict pool p (some [r]) g
    let i ← pool.packageId p
    .ok { g with rules := addRule (mkRule [(i : Int)] .jobUpdate (some [r])) g.rules }

/-- One turn of the loop of `_add_job_rules`; rules_generator.py:496-506. A job without requirement is always an upgrade
job. -/
def addJob (strict : Bool) (pool : Pool N S U) (installed : Dict Nat (Package N S U)) (j : Job N U)
    (g : Gen N U) : Except PErr (Gen N U) :=
  match j.kind, j.requirement with
  | .install, some r => addInstallJob strict pool installed r g
  | .softUpdate, some r => addInstallJob strict pool installed r g
  | .remove, some r => addRemoveJob pool r g
  | .hardUpdate, some r => addUpdateJob strict pool installed r g
  | .upgrade, _ => .error .notImplemented
  | _, none => .error .typeError

/-- `_add_job_rules`; rules_generator.py:496-506 -/
def addJobs (strict : Bool) (pool : Pool N S U) (installed : Dict Nat (Package N S U)) :
    List (Job N U) → Gen N U → Except PErr (Gen N U)
  | [], g => .ok g
  | j :: js, g => do
    let g ← addJob strict pool installed j g
    addJobs strict pool installed js g

/-- The loop of `_add_installed_package_rules`; rules_generator.py:491-494 -/
def addOthers (strict : Bool) (pool : Pool N S U) : List (Package N S U) → Gen N U → Except PErr (Gen N U)
  | [], g => .ok g
  | p :: ps, g => do
    let g ← addPackageRules strict pool p none g
    addOthers strict pool ps g

/-- The loop over the installed packages; rules_generator.py:176-178, 491-494 -/
def addInstalled (strict : Bool) (pool : Pool N S U) : List (Package N S U) → Gen N U → Except PErr (Gen N U)
  | [], g => .ok g
  | p :: ps, g => do
    let g ← addOthers strict pool (pool.nameToPackages p.name) g
    let g ← addPackageRules strict pool p none g
    addInstalled strict pool ps g

/-- `RulesGenerator(pool, request, installed_package_ids, strict).iter_rules()`, with the ids whose rules were added;
rules_generator.py:155-179. -/
def iterRules (strict : Bool) (pool : Pool N S U) (jobs : List (Job N U)) (installed : Dict Nat (Package N S U)) :
    Except PErr (Gen N U) := do
  let g ← addJobs strict pool installed jobs ⟨[], []⟩
  addInstalled strict pool (installed.map Prod.snd) g

end Verif.Rules
