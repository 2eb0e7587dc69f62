import Verif.Text.Package
import Verif.Props.Text
import Verif.Solve.Model
/-
Model of simplesat/test_utils.py: what `Scenario.from_yaml` makes of a scenario file once the YAML text has been loaded, and
the small helpers of that module. The loaded document is a value of `Data`; a document whose parts do not have the expected
shape (a list, a mapping, a string) is not represented. `decisions` and `failure` are handed on unread and are left out.
-/
set_option linter.unusedSectionVars false
namespace Verif.Scn
open Verif Verif.Pkg Verif.Text Verif.Solve

/-- Exceptions: those of the package layer, AttributeError, and `nameless`, which belongs to the model: a requirement
without name, i.e. a blank text, for which Python goes on (and finds no such package in the end). -/
inductive ScErr where
  | pkg (e : PErr)
  | attributeError
  | nameless
deriving DecidableEq

/-! The words of a scenario file -/

@[irreducible] def wNewer : Str := "allow_newer".toList
@[irreducible] def wAny : Str := "allow_any".toList
@[irreducible] def wOlder : Str := "allow_older".toList
@[irreducible] def wInstall : Str := "install".toList
@[irreducible] def wRemove : Str := "remove".toList
@[irreducible] def wHardUpdate : Str := "hard_update".toList
@[irreducible] def wSoftUpdate : Str := "soft_update".toList
@[irreducible] def wUpgrade : Str := "upgrade".toList
@[irreducible] def wUpdateAll : Str := "update_all".toList
@[irreducible] def wUpdate : Str := "update".toList

theorem words_distinct : [wNewer, wAny, wOlder, wInstall, wRemove, wHardUpdate, wSoftUpdate, wUpgrade, wUpdateAll, wUpdate].Nodup := by
  simp [wNewer, wAny, wOlder, wInstall, wRemove, wHardUpdate, wSoftUpdate, wUpgrade, wUpdateAll, wUpdate]

/-- one entry under "request"; `none`: the key is missing -/
structure Entry where
  operation : Option Str
  requirement : Option Str

/-- one entry under "transaction" or "pretty_transaction"; `none`: the key is missing -/
structure TEntry where
  kind : Option Str
  package : Option Str := none
  source : Option Str := none
  target : Option Str := none

/-- The document, after `yaml.load`; test_utils.py:132-142 -/
structure Data where
  packages : List Str := []
  remote : Option (List Str) := none
  installed : List Str := []
  marked : List Str := []
  modifiers : List (Str × List Str) := []
  request : List Entry := []
  transaction : List TEntry := []
  pretty : List TEntry := []

variable [CharTable] {U : Type} [LinearOrder U] [VersionText U] [LinearOrder Str]

def liftP {α : Type} : Except PErr α → Except ScErr α
  | .error e => .error (.pkg e)
  | .ok a => .ok a

/-- `d[key]` for a key that may be missing -/
def required : Option Str → Except ScErr Str
  | none => .error (.pkg .keyError)
  | some s => .ok s

/-- `Requirement._from_string(text)`. The scanner knows only the classes of ASCII. -/
def readRequirement (s : Str) : Except ScErr (Requirement Str U) :=
  match (letI := asciiTable; fromString .plain s : Except PErr (Requirement (Option Str) U)) with
  | .error e => .error (.pkg e)
  | .ok r => match r.name with
    | none => .error .nameless
    | some n => .ok ⟨r.cls, n, r.constraints⟩

/-- `getattr(request, kind)(value)` for a name: the methods for jobs want a Requirement (request.py:20, 71-72), `upgrade`
takes no argument; test_utils.py:146-148, request.py:83-90. (Other attributes of Request are not callable with a name
either; here they count as missing.) -/
def addModifier (m : Modifiers Str) (kind value : Str) : Except ScErr (Modifiers Str) :=
  if kind = wNewer then .ok (m.addNewer value)
  else if kind = wAny then .ok (m.addAny value)
  else if kind = wOlder then .ok (m.addOlder value)
  else if kind = wInstall ∨ kind = wRemove ∨ kind = wHardUpdate ∨ kind = wSoftUpdate ∨
    kind = wUpgrade then .error (.pkg .typeError)
  else .error .attributeError

def addValues (m : Modifiers Str) (kind : Str) : List Str → Except ScErr (Modifiers Str)
  | [] => .ok m
  | v :: vs => match addModifier m kind v with
    | .error e => .error e
    | .ok m => addValues m kind vs

/-- the loop over "modifiers"; test_utils.py:146-148 -/
def addModifiers (m : Modifiers Str) : List (Str × List Str) → Except ScErr (Modifiers Str)
  | [] => .ok m
  | (k, vs) :: rest => match addValues m k vs with
    | .error e => .error e
    | .ok m => addModifiers m rest

/-- `getattr(request, kind)(requirement)`; test_utils.py:162, request.py:68-80. `upgrade` takes no argument. (An operation
named like one of the other methods of Request is not represented; here it counts as an unknown one.) -/
def addOperation (q : Request Str U) (kind : Str) (r : Requirement Str U) : Except ScErr (Request Str U) :=
  if kind = wInstall then liftP (q.addJob (some r) .install)
  else if kind = wRemove then liftP (q.addJob (some r) .remove)
  else if kind = wHardUpdate then liftP (q.addJob (some r) .hardUpdate)
  else if kind = wSoftUpdate then liftP (q.addJob (some r) .softUpdate)
  else if kind = wUpgrade then .error (.pkg .typeError)
  else .error .attributeError

/-- The loop over "request": the request, the marked packages that remain, and `update_all`. `marked.remove(name)` removes
the first occurrence; test_utils.py:150-162 -/
def requestLoop : List Entry → Request Str U → List Str → Bool → Except ScErr (Request Str U × List Str × Bool)
  | [], q, marked, updateAll => .ok (q, marked, updateAll)
  | e :: es, q, marked, updateAll => match required e.operation with
    | .error x => .error x
    | .ok kind =>
      if kind = wUpdateAll then requestLoop es q marked true
      else match required e.requirement with
        | .error x => .error x
        | .ok text => match readRequirement text with
          | .error x => .error x
          | .ok r => match addOperation q kind r with
            | .error x => .error x
            | .ok q => requestLoop es q (marked.erase r.name) updateAll

/-- The loop over the marked packages that remain; test_utils.py:164-170 -/
def markedLoop (kind : JobKind) : List Str → Request Str U → Except ScErr (Request Str U)
  | [], q => .ok q
  | m :: ms, q => match readRequirement m with
    | .error x => .error x
    | .ok r => match q.addJob (some r) kind with
      | .error x => .error (.pkg x)
      | .ok q => markedLoop kind ms q

/-- The request of the scenario; test_utils.py:140-170 -/
def buildRequest (d : Data) : Except ScErr (Request Str U) :=
  match addModifiers Modifiers.empty d.modifiers with
  | .error x => .error x
  | .ok m => match requestLoop d.request ⟨m, []⟩ d.marked false with
    | .error x => .error x
    | .ok (q, marked, updateAll) => markedLoop (if updateAll then .hardUpdate else .install) marked q

/-- `P(p)` in `_operations_from_transaction_list`; test_utils.py:191-192 -/
def readPackage (s : Option Str) : Except ScErr (Package Str (CStr U) U) :=
  match required s with
  | .error x => .error x
  | .ok t => liftP (parseToPackage t)

/-- one turn of the loop in `_operations_from_transaction_list`; test_utils.py:194-206. Arguments are evaluated from left to
right: "to" before "from". -/
def readOperation (t : TEntry) : Except ScErr (Solve.Op Str (CStr U) U) :=
  match required t.kind with
  | .error x => .error x
  | .ok kind =>
    if kind = wInstall then match readPackage t.package with
      | .error x => .error x
      | .ok p => .ok (.install p)
    else if kind = wUpdate then match readPackage t.target with
      | .error x => .error x
      | .ok p => match readPackage t.source with
        | .error x => .error x
        | .ok s => .ok (.update p s)
    else if kind = wRemove then match readPackage t.package with
      | .error x => .error x
      | .ok p => .ok (.remove p)
    else .error (.pkg .valueError)

/-- `full_name`; test_utils.py:77 -/
def fullName (p : Package Str (CStr U) U) : Str := p.name ++ ' ' :: VersionText.toStr p.version

/-- `parse_package_list(packages)`; test_utils.py:63-78 -/
def parsePackageList : List Str → Except ScErr (List (Str × Package Str (CStr U) U))
  | [] => .ok []
  | s :: ss => match parseToPackage s with
    | .error e => .error (.pkg e)
    | .ok p => match parsePackageList ss with
      | .error x => .error x
      | .ok l => .ok ((fullName p, p) :: l)

/-- `repository_factory(package_names, repository_info, reference_packages)`; test_utils.py:81-87 -/
def repositoryFactory (info : Str) (ref : Dict Str (Package Str (CStr U) U)) :
    List Str → Repository Str (CStr U) U → Except ScErr (Repository Str (CStr U) U)
  | [], r => .ok r
  | n :: ns, r => match dget ref n with
    | none => .error (.pkg .keyError)
    | some p => repositoryFactory info ref ns (r.addPackage { p with repo := some info })

/-- `remote_repository(yaml_data, packages)`; test_utils.py:90-93 -/
def remoteRepository (d : Data) (ref : Dict Str (Package Str (CStr U) U)) : Except ScErr (Repository Str (CStr U) U) :=
  repositoryFactory "remote".toList ref (d.remote.getD (dkeys ref)) Repository.empty

/-- `installed_repository(yaml_data, packages)`; test_utils.py:96-99 -/
def installedRepository (d : Data) (ref : Dict Str (Package Str (CStr U) U)) : Except ScErr (Repository Str (CStr U) U) :=
  repositoryFactory "installed".toList ref d.installed Repository.empty

/-- The fields of `Scenario`; test_utils.py:208-218 -/
structure Scenario (U : Type) where
  packages : Dict Str (Package Str (CStr U) U)
  remote : Repository Str (CStr U) U
  installed : Repository Str (CStr U) U
  request : Request Str U
  operations : List (Solve.Op Str (CStr U) U)
  pretty : List (Solve.Op Str (CStr U) U)

/-- `Scenario.from_yaml`, after loading; test_utils.py:132-187 -/
def fromYaml (d : Data) : Except ScErr (Scenario U) :=
  match buildRequest d with
  | .error x => .error x
  | .ok q => match mapE readOperation d.transaction with
    | .error x => .error x
    | .ok ops => match mapE readOperation d.pretty with
      | .error x => .error x
      | .ok pretty => match parsePackageList d.packages with
        | .error x => .error x
        | .ok l => match remoteRepository d (dictOf l) with
          | .error x => .error x
          | .ok remote => match installedRepository d (dictOf l) with
            | .error x => .error x
            | .ok installed => .ok
              { packages := dictOf l
                remote := remote
                installed := installed
                request := q
                operations := ops
                pretty := pretty }

/-- `pool = Pool(scenario.remote_repositories); pool.add_repository(scenario.installed_repository)`, and the solver with its
defaults: how a scenario is solved; tests/test_scenarios_policy.py:71-76 -/
def Scenario.solver (s : Scenario U) : Except PErr (DependencySolver Str (CStr U) U) :=
  match Pool.addRepositories [s.remote, s.installed] (Pool.empty none) with
  | (_, some e) => .error e
  | (pool, none) => .ok
    { pool := pool
      remote := [s.remote]
      installed := s.installed
      usePruning := true
      strict := false }

end Verif.Scn
