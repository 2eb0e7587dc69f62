import Verif.Text.Parser
import Verif.PySort
import Mathlib.Data.List.Lex
import Mathlib.Data.Char
/-
Model of simplesat/constraints/package_parser.py: pretty package strings such as
"numpy 1.8.1-1; install_requires (MKL == 10.3, nose ^= 1.3.4); conflicts (numeric)".
-/
namespace Verif.Text
open Verif Verif.Pkg CharTable

variable [CharTable]

/-! ### The regular expressions; package_parser.py:8-16

The groups are numbered: 1 is `kind` or `distribution`, 2 is `constraints`, `version` or `constraint`. -/

/-- `.`: any character but a newline -/
def dotR : Re := .cls (fun c => c != '\n')

/-- `CONSTRAINT_BLOCK_RC`; package_parser.py:14 -/
def blockR : Re :=
  .seq (.group 1 (.plus wordR)) (.seq (.star (.cls isSpace)) (.seq (.chr '(') (.seq (.group 2 (.lazyStar dotR)) (.chr ')'))))

/-- `PACKAGE_RC`; package_parser.py:15 -/
def packageR : Re := .seq (.group 1 nameR) (.seq (.plus (.chr ' ')) (.group 2 versionR))

/-- `CONSTRAINT_RC`; package_parser.py:16 -/
def itemR : Re := .seq (.group 1 nameR) (.seq (.star (.chr ' ')) (.group 2 (.star (.cls (fun c => c != ',')))))

/-- `r.finditer(string)` from a position on: where nothing matches, the next position is tried; after a match the search
goes on behind it. (The two patterns it is used for do not match the empty string.) -/
def findIter (r : Re) : Nat → St → List St
  | 0, _ => []
  | fuel + 1, s => match r.first ⟨s.pre, s.rest, []⟩ with
    | some m => m :: findIter r fuel m
    | none => match s.rest with
      | [] => []
      | c :: cs => findIter r fuel ⟨c :: s.pre, cs, []⟩

/-- `match.group(i)`. (Both groups take part in every match.) -/
def St.text (m : St) (i : Nat) : Str := (m.cap i).getD []

/-- `r.finditer(string)`: the texts of the two groups of each match -/
def findAll (r : Re) (s : Str) : List (Str × Str) := (findIter r (s.length + 1) (St.start s)).map (fun m => (m.text 1, m.text 2))

/-- `s.split(";", 1)`: what is before the first semicolon, and what is behind it; package_parser.py:41-45 -/
def splitSemicolon : Str → Str × Option Str
  | [] => ([], none)
  | c :: cs => if c = ';' then ([], some cs) else (c :: (splitSemicolon cs).1, (splitSemicolon cs).2)

/-! ### Parsing -/

/-- `ConstraintKinds`; package.py:8-11 -/
inductive CKind where
  | installRequires
  | conflicts
  | provides
deriving DecidableEq

/-- `CONSTRAINT_SYNONYMS`; package_parser.py:18-23 -/
def synonyms : Dict Str CKind :=
  [("depends".toList, .installRequires), ("install_requires".toList, .installRequires), ("conflicts".toList, .conflicts),
    ("provides".toList, .provides)]

/-- `constraints[dist][0].append(constraint_str)`; package_parser.py:54-58 -/
def addItem (d : Dict Str (List Str)) (m : Str × Str) : Dict Str (List Str) :=
  dset d m.1 ((dget d m.1).getD [] ++ [m.2])

/-- the constraints of a block; package_parser.py:54-58 -/
def blockItems (s : Str) : Dict Str (List Str) := (findAll itemR s).foldl addItem []

/-- The loop over the blocks; package_parser.py:47-59 -/
def parseBlocks : List (Str × Str) → Dict CKind (Dict Str (List Str)) → Except PErr (Dict CKind (Dict Str (List Str)))
  | [], d => .ok d
  | m :: ms, d => match dget synonyms m.1 with
    | none => .error .valueError
    | some k => parseBlocks ms (dset d k (blockItems m.2))

/-- The entry of the dictionary for a kind, as constraint tuples sorted by name; package_parser.py:61-68. The names are
different, so only they are compared. Without entry: `install_requires or ()` and the like, package.py:107-111. -/
def entryTuples {U : Type} (d : Dict CKind (Dict Str (List Str))) (k : CKind) : List (CTuple Str (CStr U)) :=
  match dget d k with
  | none => []
  | some items => (sortBy Prod.fst items).map (fun kv => (kv.1, [kv.2.map CStr.mk]))

/-- `_parse_preamble(preamble)`; package_parser.py:133-142 -/
def parsePreamble (s : Str) : Except PErr (Str × Str) :=
  match packageR.first (St.start s) with
  | none => .error .valueError
  | some m => if m.rest.length ≠ 0 then .error .valueError else .ok (m.text 1, m.text 2)

variable {U : Type} [LinearOrder U] [VersionText U]

/-- `PrettyPackageStringParser(EnpkgVersion.from_string).parse_to_package(package_string)`, which is also
`PackageMetadata._from_pretty_string`; package_parser.py:31-92, package.py:49-64 -/
def parseToPackage (s : Str) : Except PErr (Package Str (CStr U) U) :=
  let parts := splitSemicolon (strip s)
  match parseBlocks (findAll blockR (parts.2.getD [])) [] with
  | .error e => .error e
  | .ok d => match parsePreamble parts.1 with
    | .error e => .error e
    | .ok (name, v) => match VersionText.ofString v with
      | .error e => .error e
      | .ok version => .ok
        { name := name
          version := version
          installRequires := entryTuples d .installRequires
          conflicts := entryTuples d .conflicts
          declaredProvides := entryTuples d .provides
          repo := none }

/-! ### Printing -/

/-- `constraints_to_pretty_strings(constraint_tuples)`; package_parser.py:95-110 -/
def prettyConstraints (ts : List (CTuple Str (CStr U))) : List Str :=
  ts.flatMap (fun t => t.2.flatMap (fun conj => conj.map (fun c => strip (t.1 ++ ' ' :: c.text))))

/-- one block of `package_to_pretty_string`; package_parser.py:127-129 -/
def prettyBlock (kind : Str) (ts : List (CTuple Str (CStr U))) : Str :=
  if ts.length > 0 then "; ".toList ++ kind ++ " (".toList ++ joinComma (prettyConstraints ts) ++ ")".toList else []

variable [Syntax (CStr U) U]

/-- `package_to_pretty_string(package)`; package_parser.py:113-130. The template that is formatted at the end contains the
constraint strings: a brace in one of them would be taken for a replacement field, which is not represented here. -/
def packageToPretty (p : Package Str (CStr U) U) : Str :=
  p.name ++ " ".toList ++ VersionText.toStr p.version ++ prettyBlock "install_requires".toList p.installRequires ++
    prettyBlock "conflicts".toList p.conflicts ++
    prettyBlock "provides".toList (p.provides.filter (fun t => decide (t.1 ≠ p.name)))

end Verif.Text
