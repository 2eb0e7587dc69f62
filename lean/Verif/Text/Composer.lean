import Verif.Text.Package
import Verif.Pkg.Pool
import Verif.PyMap
import Verif.PyDict
/-
Model of simplesat/utils/_composer_utils.py: the export of repositories and requests for PHP's Composer.

The encoding of the entries as JSON is not modelled: a file holds the list of entries. Neither are failures of `open`.
-/
set_option linter.unusedSectionVars false
namespace Verif.Text
open Verif Verif.Pkg

/-- the exceptions of the export; `pkg` are those of `InstallRequirement.from_constraints` -/
inductive ExportErr where
  | pkg (e : PErr)
  | valueError
  | notImplemented
  | keyError
  | attributeError
  | indexError
deriving DecidableEq

/-- `_TO_NORMALIZE`; _composer_utils.py:16-28 -/
def toNormalize : Dict Str Str :=
  [("1.0a3".toList, "1.0.0".toList),
   ("1.0b1".toList, "1.0.0".toList),
   ("2010o".toList, "2010.15.0.0".toList),
   ("2011n".toList, "2011.14.0.0".toList),
   ("2011g".toList, "2011.7.0.0".toList),
   ("0.14.1rc1".toList, "0.14.1.0".toList),
   ("0.11rc1".toList, "0.11.0.0".toList),
   ("0.9.0rc2".toList, "0.9.0".toList),
   ("2.3b1.dev4669".toList, "2.3.0".toList),
   ("1.2.dev213".toList, "1.2.0".toList),
   ("0.4.2.dev2".toList, "0.4.2".toList)]

/-- `while upstream.count(".") < 3: upstream += ".0"`; _composer_utils.py:114-115, 125-126. The first argument bounds the
rounds; each adds a dot, so that three are enough. -/
def padDots : Nat → Str → Str
  | 0, s => s
  | n + 1, s => if s.count '.' < 3 then padDots n (s ++ ['.', '0']) else s

variable {S U : Type} [DecidableEq S] [LinearOrder U] [VersionText U] [Syntax S U]
open VersionText

/-- `_TO_NORMALIZE.get(str(version.upstream), ...)` with the padding; _composer_utils.py:112-115, 123-126 -/
def phpUpstream (v : Version U) : Str :=
  let upstream := upstreamStr v.upstream
  let upstream := (dget toNormalize upstream).getD upstream
  padDots 3 upstream

/-- `"-patch{0}".format(version.build)` -/
def patchText (b : Nat) : Str := "-patch".toList ++ Nat.toDigits 10 b

/-- `_normalize_php_version(version)`; _composer_utils.py:108-116 -/
def normalizePhpVersion (v : Version U) : Str := phpUpstream v ++ patchText v.build

/-- `_normalize_php_version_constraint(version)`; _composer_utils.py:119-131 -/
def normalizePhpConstraint (v : Version U) : Str :=
  if v.build = 0 then phpUpstream v else phpUpstream v ++ patchText v.build

/-- one constraint in `_requirement_to_php_constraints`; _composer_utils.py:143-151 -/
def requestPart : Constraint U → Except ExportErr Str
  | .geq v => .ok ('>' :: '=' :: ' ' :: normalizePhpConstraint v)
  | .gt v => .ok ('>' :: ' ' :: normalizePhpConstraint v)
  | .leq v => .ok ('<' :: '=' :: ' ' :: normalizePhpConstraint v)
  | .lt v => .ok ('<' :: ' ' :: normalizePhpConstraint v)
  | .any => .ok ['*']
  | .equal _ => .error .valueError
  | .not _ => .error .valueError
  | .upstream _ => .error .valueError

/-- `_requirement_to_php_constraints(requirement)`; _composer_utils.py:134-153. The requirement of an upgrade job is None,
which has no attribute `_constraints`. -/
def requirementToPhpConstraints : Option (Requirement Str U) → Except ExportErr (Str × Str)
  | none => .error .attributeError
  | some r => match mapE requestPart r.constraints with
    | .error e => .error e
    | .ok parts => .ok (r.name, joinComma parts)

/-- one constraint in `_requirement_to_php_string`; _composer_utils.py:160-170 -/
def requirePart : Constraint U → Except ExportErr Str
  | .upstream v => .ok ('~' :: normalizePhpConstraint v)
  | .any => .ok ['*']
  | .equal v => .ok (normalizePhpConstraint v)
  | .not _ => .error .notImplemented
  | .geq _ => .error .notImplemented
  | .gt _ => .error .notImplemented
  | .leq _ => .error .notImplemented
  | .lt _ => .error .notImplemented

/-- `_requirement_to_php_string(requirement)`; _composer_utils.py:156-171 -/
def requirementToPhpString (r : Requirement Str U) : Except ExportErr Str :=
  match mapE requirePart r.constraints with
  | .error e => .error e
  | .ok parts => .ok (joinComma parts)

/-- the loop of `_requirements_to_php_dict`; _composer_utils.py:183-186. (The entry of the name is made in the defaultdict
before the text is computed; if that raises, the dictionary is gone.) -/
def phpLists : List (Requirement Str U) → Dict Str (List Str) → Except ExportErr (Dict Str (List Str))
  | [], d => .ok d
  | r :: rs, d => match requirementToPhpString r with
    | .error e => .error e
    | .ok t => phpLists rs (dset d r.name ((dget d r.name).getD [] ++ [t]))

/-- `_requirements_to_php_dict(requirements)`; _composer_utils.py:174-188 -/
def requirementsToPhpDict (rs : List (Requirement Str U)) : Except ExportErr (Dict Str Str) :=
  match phpLists rs [] with
  | .error e => .error e
  | .ok d => .ok (d.map (fun kv => (kv.1, joinComma kv.2)))

/-- an entry; _composer_utils.py:64-69 -/
structure PhpEntry where
  name : Str
  version : Str
  versionNormalized : Str
  require : Dict Str Str
deriving DecidableEq

def liftPkg {α : Type} : Except PErr α → Except ExportErr α
  | .error e => .error (.pkg e)
  | .ok a => .ok a

/-- one round of `repository_to_composer_json_dict`; _composer_utils.py:61-69, 101-105 -/
def phpEntry (p : Package Str S U) : Except ExportErr PhpEntry :=
  match mapE (fun t => liftPkg (fromConstraints .install t)) p.installRequires with
  | .error e => .error e
  | .ok requires => match requirementsToPhpDict requires with
    | .error e => .error e
    | .ok d => .ok { name := p.name
                     version := toStr p.version
                     versionNormalized := normalizePhpVersion p.version
                     require := d }

/-- `for package in repository: ... yield ...`: what is yielded, and the exception that ends it -/
def phpEntries : List (Package Str S U) → List PhpEntry × Option ExportErr
  | [] => ([], none)
  | p :: ps => match phpEntry p with
    | .error e => ([], some e)
    | .ok x => let r := phpEntries ps
               (x :: r.1, r.2)

/-- `repository_to_composer_json_dict(repository)`; _composer_utils.py:37-69 -/
def repositoryToComposer (r : Repository Str S U) : List PhpEntry × Option ExportErr := phpEntries r.iter

/-- `JOB_KIND_TO_PHP_METHOD[kind]`; _composer_utils.py:31-34 -/
def phpMethod : JobKind → Except ExportErr Str
  | .install => .ok "install".toList
  | .remove => .ok "remove".toList
  | .softUpdate => .error .keyError
  | .hardUpdate => .error .keyError
  | .upgrade => .error .keyError

/-- one round of `request_to_php_parts`; _composer_utils.py:75-78 -/
def phpPart (j : Job Str U) : Except ExportErr (Str × Str × Str) :=
  match requirementToPhpConstraints j.requirement with
  | .error e => .error e
  | .ok (name, constraints) => match phpMethod j.kind with
    | .error e => .error e
    | .ok m => .ok (m, name, constraints)

/-- `request_to_php_parts(request)`; _composer_utils.py:72-79 -/
def requestToPhpParts (q : Request Str U) : Except ExportErr (List (Str × Str × Str)) := mapE phpPart q.jobs

/-- the files: `none` is an empty file -/
abbrev Files := Dict Str (Option (List PhpEntry))

/-- `with open(path, "wt") as fp: fp.write(json.dumps(list(entries), indent=4))`: opening makes the file empty;
_composer_utils.py:86-88, 91-94 -/
def writeEntries (path : Str) (r : Repository Str S U) (files : Files) : Files × Option ExportErr :=
  let files := dset files path none
  match repositoryToComposer r with
  | (_, some e) => (files, some e)
  | (es, none) => (dset files path (some es), none)

/-- the attributes of a scenario that the export uses -/
structure ExportScenario (S U : Type) where
  remotes : List (Repository Str S U)
  installed : Repository Str S U
  request : Request Str U

/-- the result of the export -/
structure TemplateVariables where
  remoteDefinition : Str
  installedDefinition : Str
  requestParts : List (Str × Str × Str)
deriving DecidableEq

/-- `scenario_to_php_template_variables(scenario, remote_definition, installed_definition)`; _composer_utils.py:82-98 -/
def scenarioToPhp (sc : ExportScenario S U) (remotePath installedPath : Str) (files : Files) :
    Files × Except ExportErr TemplateVariables :=
  match sc.remotes with
  | [] => (files, .error .indexError)
  | remote :: _ => match writeEntries remotePath remote files with
    | (files, some e) => (files, .error e)
    | (files, none) => match writeEntries installedPath sc.installed files with
      | (files, some e) => (files, .error e)
      | (files, none) => match requestToPhpParts sc.request with
        | .error e => (files, .error e)
        | .ok parts => (files, .ok { remoteDefinition := remotePath
                                     installedDefinition := installedPath
                                     requestParts := parts })

end Verif.Text
