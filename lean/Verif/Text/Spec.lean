import Verif.Text.Parser
/-
Which strings are names and versions, written without regular expressions.
-/
namespace Verif.Text
open Verif Verif.Pkg CharTable

variable [CharTable]

/-- a non-empty string of letters, digits and underscores -/
def Word (w : Str) : Prop := w ≠ [] ∧ ∀ c ∈ w, isWord c = true

/-- a distribution name: words separated by single dots -/
inductive ValidName : Str → Prop where
  | word {w : Str} : Word w → ValidName w
  | dotted {w n : Str} : Word w → ValidName n → ValidName (w ++ '.' :: n)

/-- the string begins with a digit -/
def BeginsWithDigit (s : Str) : Prop := ∃ c t, s = c :: t ∧ isDigit c = true

/-- the text of a version: a name that begins with a digit, and possibly a build: a dash and a word -/
def ValidVersion (s : Str) : Prop :=
  ∃ n, ValidName n ∧ BeginsWithDigit n ∧ (s = n ∨ ∃ w, Word w ∧ s = n ++ '-' :: w)

variable {U : Type} [LinearOrder U] [VersionText U]

/-- The version can be written and read back: `EnpkgVersion.from_string(str(version))` is the version, and its text is that
of a version. -/
structure Printable (v : Version U) : Prop where
  valid : ValidVersion (VersionText.toStr v)
  back : VersionText.ofString (VersionText.toStr v) = .ok v

/-- The upstream part can be written, and read back as a version with build number 0. -/
structure UpstreamPrintable (u : U) : Prop where
  valid : ValidVersion (VersionText.upstreamStr u)
  back : VersionText.ofString (VersionText.upstreamStr u) = .ok ⟨u, 0⟩

/-- The version of the constraint, if it has one, can be written and read back. -/
def ConstraintPrintable : Constraint U → Prop
  | .any => True
  | .equal v => Printable v
  | .not v => Printable v
  | .geq v => Printable v
  | .gt v => Printable v
  | .leq v => Printable v
  | .lt v => Printable v
  | .upstream v => UpstreamPrintable v.upstream

/-- a `^=` constraint whose version has build number 0, or any other constraint -/
def NoBuild : Constraint U → Prop
  | .upstream v => v.build = 0
  | _ => True

end Verif.Text
