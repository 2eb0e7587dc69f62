import Verif.Text.Regex
import Verif.Pkg.Package
import Verif.PyDict
/-
Model of simplesat/constraints/parser.py and of the text side of constraints/requirement.py and constraints/kinds.py.
-/
namespace Verif.Text
open Verif Verif.Pkg

/-! ### Characters -/

/-- What the code takes from Python's strings: the classes `\w`, `\d` and `\s` that are in effect in a regular expression
(`str.strip` uses the same notion of space as `\s`), and whether formatting fails; only a few facts are used. A pattern
that is compiled with `re.compile` uses the classes of Unicode. `re.Scanner` compiles its patterns without the flag for
Unicode, so that `\w` and `\d` are those of ASCII: see `asciiTable`. What follows is written for any table. -/
class CharTable where
  isWord : Char → Bool
  isDigit : Char → Bool
  isSpace : Char → Bool
  digit_word : ∀ c, isDigit c = true → isWord c = true
  word_space : ∀ c, isWord c = true → isSpace c = false
  blank_space : isSpace ' ' = true
  newline_space : isSpace '\n' = true
  plain : ∀ c ∈ ['.', '-', ',', '=', '<', '>', '!', '^', '*', '(', ')', ';', '{', '}'], isWord c = false ∧ isSpace c = false
  /-- letters, digits and the underscore of ASCII -/
  ascii_word : ∀ c : Char, c.isAlphanum = true ∨ c = '_' → isWord c = true
  ascii_digit : ∀ c : Char, c.isDigit = true → isDigit c = true
  /-- `template.format(x)` raises an exception, where the template is "{0!r}", some text without braces, and the given
  text between quotes. -/
  formatFails : Str → Bool
  format_plain : ∀ s, '{' ∉ s → '}' ∉ s → formatFails s = false
  format_one_brace : ∀ s, s.count '{' + s.count '}' = 1 → formatFails s = true

open CharTable

variable [CharTable]

/-- letters, digits and the underscore of ASCII: `\w` without the flag for Unicode -/
def asciiWord (c : Char) : Bool := c.isAlphanum || c == '_'

theorem asciiWord_word {c : Char} (h : asciiWord c = true) : isWord c = true := by
  apply ascii_word
  simpa [asciiWord] using h

/-- The table that is in effect in a `re.Scanner`: Lib/re, class Scanner, hands the flags 0 to the compiler, which takes
`\w` and `\d` as the classes of ASCII without the flag UNICODE. The white space that `str.strip` removes stays the same. -/
@[reducible] def asciiTable : CharTable where
  isWord := asciiWord
  isDigit := Char.isDigit
  isSpace := isSpace
  digit_word := by intro c h; simp [asciiWord, Char.isAlphanum, h]
  word_space := fun c h => word_space c (asciiWord_word h)
  blank_space := blank_space
  newline_space := newline_space
  plain := by
    intro c hc
    refine ⟨?_, (plain c hc).2⟩
    revert hc
    revert c
    decide
  ascii_word := by
    intro c h
    rcases h with h | h <;> simp [asciiWord, h]
  ascii_digit := fun _ h => h
  formatFails := formatFails
  format_plain := format_plain
  format_one_brace := format_one_brace

/-! ### The regular expressions; parser.py:18-29 -/

/-- `\w` -/
def wordR : Re := .cls isWord

/-- `(?:\.?\w+)` -/
def bodyR : Re := .seq (.opt (.chr '.')) (.plus wordR)

/-- `_DISTRIBUTION_NAME_R`; parser.py:18-19 -/
def nameR : Re := .seq (.nahead (.chr '.')) (.seq (.plus bodyR) (.nbehind (fun c => c == '.')))

/-- `_VERSION_R`; parser.py:20 -/
def versionR : Re :=
  .seq (.ahead (.cls isDigit)) (.seq nameR (.seq (.opt (.seq (.chr '-') (.plus wordR))) .eos))

/-! ### Tokens; parser.py:61-113 -/

/-- The classes of tokens -/
inductive Kind where
  | version
  | distribution
  | equal
  | geq
  | gt
  | leq
  | lt
  | not
  | upstream
  | any
deriving DecidableEq

/-- `Token`: its class and its `value`, which is None for the `AnyToken()` of an empty string; parser.py:61-65, 140 -/
structure Token where
  kind : Kind
  value : Option Str
deriving DecidableEq

/-- The patterns of the operators, in the order of the two scanners (None: the token is dropped); parser.py:33-41, 48-56 -/
def operators : List (Re × Option Kind) :=
  [(.lit ['=', '='], some .equal), (.lit ['>', '='], some .geq), (.lit ['>'], some .gt), (.lit ['<', '='], some .leq),
    (.lit ['<'], some .lt), (.lit ['!', '='], some .not), (.lit ['^', '='], some .upstream), (.lit ['*'], some .any),
    (.plus (.chr ' '), none)]

/-- `_CONSTRAINTS_SCANNER`; parser.py:31-43 -/
def constraintsLexicon : List (Re × Option Kind) := (versionR, some .version) :: operators

/-- `_REQUIREMENTS_SCANNER`; parser.py:45-58 -/
def requirementsLexicon : List (Re × Option Kind) :=
  (versionR, some .version) :: (nameR, some .distribution) :: operators

/-- The first pattern of the lexicon that matches, and the position after the match. (`re.Scanner` compiles the patterns
into one alternative.) -/
def scanStep : List (Re × Option Kind) → St → Option (Option Kind × St)
  | [], _ => none
  | (r, k) :: lex, s => match r.first s with
    | some s' => some (k, s')
    | none => scanStep lex s

/-- `scanner.scan(string)`: the tokens and what remains of the string; Lib/re, class Scanner. It stops where nothing, or
only the empty string, matches. -/
def scanLoop (lex : List (Re × Option Kind)) : Nat → St → List Token × Str
  | 0, s => ([], s.rest)
  | fuel + 1, s => match scanStep lex s with
    | none => ([], s.rest)
    | some (k, s') =>
      if s'.rest.length < s.rest.length then
        let r := scanLoop lex fuel s'
        match k with
        | none => r
        | some k => (⟨k, some (s.rest.take (s.rest.length - s'.rest.length))⟩ :: r.1, r.2)
      else ([], s.rest)

def scan (lex : List (Re × Option Kind)) (s : Str) : List Token × Str := scanLoop lex (s.length + 1) (St.start s)

/-! ### Strings -/

/-- `str.strip()` -/
def strip (s : Str) : Str := ((s.dropWhile isSpace).reverse.dropWhile isSpace).reverse

/-- `s.split(",")` -/
def splitComma : Str → List Str
  | [] => [[]]
  | c :: cs => if c = ',' then [] :: splitComma cs else match splitComma cs with
    | [] => [[c]]
    | p :: ps => (c :: p) :: ps

/-! ### `_tokenize`; parser.py:136-157 -/

/-- The exception for the text that cannot be scanned. It becomes part of the template of the message, which is formatted:
a brace in it is taken for a replacement field; parser.py:147-155. (The values of the tokens have no braces.) -/
def unparsedError (remaining : Str) : PErr := if formatFails remaining then .formatting else .invalidConstraint

/-- the loop over the parts -/
def tokenizeParts (lex : List (Re × Option Kind)) : List Str → Except PErr (List (List Token))
  | [] => .ok []
  | p :: ps => match scan lex (strip p) with
    | (scanned, remaining) =>
      if remaining.length > 0 then .error (unparsedError remaining)
      else match tokenizeParts lex ps with
        | .error e => .error e
        | .ok ts => .ok (if scanned.length > 0 then scanned :: ts else ts)

def tokenize (lex : List (Re × Option Kind)) (s : Str) : Except PErr (List (List Token)) :=
  let s := strip s
  if s.length = 0 then .ok [[⟨.any, none⟩]] else tokenizeParts lex (splitComma s)

/-! ### Versions -/

/-- `EnpkgVersion` of okonomiyaki, which is not part of the code: `from_string`, `str(version)` and
`str(version.upstream)`. Whatever it raises for a bad string is called ValueError here. -/
class VersionText (U : Type) where
  ofString : Str → Except PErr (Version U)
  toStr : Version U → Str
  upstreamStr : U → Str
  ofString_err : ∀ s e, ofString s = .error e → e = .valueError

variable {U : Type} [LinearOrder U] [VersionText U]
open VersionText

/-- `_OPERATOR_TO_SPEC` and `_spec_factory`; parser.py:116-133 -/
def specFactory : Kind → Option (Version U → Constraint U)
  | .upstream => some .upstream
  | .equal => some .equal
  | .geq => some .geq
  | .gt => some .gt
  | .leq => some .leq
  | .lt => some .lt
  | .not => some .not
  | .version => none
  | .distribution => none
  | .any => none

/-- `_operator_factory(operator, version, version_factory)`; parser.py:160-163. (Only a token of an empty string has no
value, and it comes alone.) -/
def operatorFactory (op ver : Token) : Except PErr (Constraint U) :=
  match specFactory op.kind with
  | none => .error .invalidConstraint
  | some f => match ver.value with
    | none => .error .typeError
    | some s => match ofString s with
      | .error e => .error e
      | .ok v => .ok (f v)

/-- `compute_constraint` of `_RawConstraintsParser`; parser.py:172-181 -/
def computeConstraint : List Token → Except PErr (Constraint U)
  | [op, ver] => operatorFactory op ver
  | [t] => if t.kind = .any then .ok .any else .error .assertion
  | _ => .error .invalidConstraint

/-- the loop over the blocks, stopping at the first exception -/
def computeAll {α : Type} (f : List Token → Except PErr α) : List (List Token) → Except PErr (List α)
  | [] => .ok []
  | b :: bs => match f b with
    | .error e => .error e
    | .ok a => match computeAll f bs with
      | .error e => .error e
      | .ok as => .ok (a :: as)

/-- `_RawConstraintsParser().parse(string, EnpkgVersion.from_string)`; parser.py:166-189 -/
def parseConstraints (s : Str) : Except PErr (List (Constraint U)) :=
  match tokenize constraintsLexicon s with
  | .error e => .error e
  | .ok blocks => computeAll computeConstraint blocks

/-- `compute_constraint` of `_RawRequirementParser`: the name (None for an empty string) and the constraint;
parser.py:198-220 -/
def computeNamed : List Token → Except PErr (Option Str × Constraint U)
  | [dist, op, ver] =>
    if dist.kind ≠ .distribution then .error .invalidConstraint
    else if ver.kind ≠ .version then .error .invalidConstraint
    else match operatorFactory op ver with
      | .error e => .error e
      | .ok c => .ok (dist.value, c)
  | [dist, op] => if op.kind = .any then .ok (dist.value, .any) else .error .invalidConstraint
  | [t] => .ok (t.value, .any)
  | _ => .error .invalidConstraint

/-- `named_constraints`: the constraints of each name, in the order of first appearance; parser.py:222-233 -/
def groupNames : List (Option Str × Constraint U) → Dict (Option Str) (List (Constraint U)) →
    Dict (Option Str) (List (Constraint U))
  | [], d => d
  | (n, c) :: t, d => groupNames t (dset d n ((dget d n).getD [] ++ [c]))

/-- `_RawRequirementParser().parse(string, EnpkgVersion.from_string)`; parser.py:192-233. (The exceptions are raised in
the order of the blocks; the dictionary is filled on the way.) -/
def parseRequirement (s : Str) : Except PErr (Dict (Option Str) (List (Constraint U))) :=
  match tokenize requirementsLexicon s with
  | .error e => .error e
  | .ok blocks => match computeAll computeNamed blocks with
    | .error e => .error e
    | .ok l => .ok (groupNames l [])

/-! ### requirement.py -/

/-- `cls._from_string(string)`; requirement.py:126-156. The name is None for an empty string. -/
def fromString (cls : ReqClass) (s : Str) : Except PErr (Requirement (Option Str) U) :=
  match parseRequirement s with
  | .error e => .error e
  | .ok d => match d with
    | [] => .error .assertion
    | [(n, cs)] => .ok ⟨cls, n, cs⟩
    | _ => .error .invalidDependencyString

/-- `_FULL_PACKAGE_RC`: group 1 is `name`, group 2 is `version`; requirement.py:19-24 -/
def fullPackageR : Re :=
  .seq (.group 1 nameR) (.seq (.alt (.chr '-') (.plus (.cls isSpace))) (.seq (.group 2 versionR) .eos))

/-- `parse_package_full_name(full_name)`; requirement.py:27-37 -/
def parsePackageFullName (s : Str) : Except PErr (Str × Str) :=
  match fullPackageR.first (St.start s) with
  | none => .error .solverException
  | some m => match m.cap 1, m.cap 2 with
    | some n, some v => .ok (n, v)
    | _, _ => .error .typeError

/-- `cls.from_package_string(package_string)`; requirement.py:158-178 -/
def fromPackageString (cls : ReqClass) (s : Str) : Except PErr (Requirement Str U) :=
  match parsePackageFullName s with
  | .error e => .error e
  | .ok (n, v) => match ofString v with
    | .error e => .error e
    | .ok ver => .ok ⟨cls, n, [.equal ver]⟩

/-- `str(constraint)`; kinds.py:24-25, 54-55, 62-63, 70-71, 78-79, 86-87, 94-95, 110-111 -/
def constraintStr : Constraint U → Str
  | .any => []
  | .equal v => '=' :: '=' :: ' ' :: toStr v
  | .not v => '!' :: '=' :: ' ' :: toStr v
  | .geq v => '>' :: '=' :: ' ' :: toStr v
  | .gt v => '>' :: ' ' :: toStr v
  | .leq v => '<' :: '=' :: ' ' :: toStr v
  | .lt v => '<' :: ' ' :: toStr v
  | .upstream v => '^' :: '=' :: ' ' :: upstreamStr v.upstream

/-- one part of `to_constraints`; requirement.py:119-123 -/
def constraintPart (c : Constraint U) : Str := if c = .any then ['*'] else constraintStr c

/-- The constraint strings of packages whose versions have upstream parts in `U`: strings. -/
structure CStr (U : Type) where
  text : Str
deriving DecidableEq

/-- `to_constraints()`; requirement.py:113-124 -/
def toConstraints (r : Requirement Str U) : CTuple Str (CStr U) := 
  (r.name, [r.constraints.map (fun c => ⟨constraintPart c⟩)])

/-- `", ".join(parts)` -/
def joinComma : List Str → Str
  | [] => []
  | [p] => p
  | p :: ps => p ++ ',' :: ' ' :: joinComma ps

/-- `str(requirement)`; requirement.py:206-218 -/
def requirementStr (r : Requirement Str U) : Str :=
  let parts := ((toConstraints r).2.flatten.map CStr.text).filter (fun s => decide (s ≠ ['*']))
  if parts.length = 0 then r.name else r.name ++ ' ' :: joinComma parts

end Verif.Text
