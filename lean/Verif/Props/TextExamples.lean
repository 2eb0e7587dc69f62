import Verif.Props.Text
/-
Concrete texts for properties C29, C54 and C55: cases that meet the hypotheses, and cases where the code violates them.
-/
namespace Verif.Props
open Verif Verif.Pkg Verif.Text Verif.Text.Re CharTable

/-! ### concrete texts -/

namespace TextExample
open Verif.Text.Example

def numpy : Str := str "numpy"
def v (u b : Nat) : Version Nat := ⟨u, b⟩

theorem numpy_name : ValidName numpy := .word ⟨by decide, by decide⟩
theorem dotted_name : ValidName (str "zope.interface") :=
  .dotted (w := str "zope") (n := str "interface") ⟨by decide, by decide⟩ (.word ⟨by decide, by decide⟩)

/-- a requirement with three constraints, all of which can be printed -/
def r3 : Requirement Str Nat := ⟨.plain, numpy, [.geq (v 1 2), .not (v 7 0), .any]⟩

example : ∃ r', fromConstraints .plain (toConstraints r3) = .ok r' ∧ r'.cls = .plain ∧ r'.name = r3.name ∧
    ∀ w, r'.matches w = r3.matches w := C29_same_versions _ r3 (fun c _ => constraintPrintable c)

example : fromConstraints .plain (toConstraints r3) = .ok r3 :=
  (C29_equal_partial r3 (fun c _ => constraintPrintable c)).2 ⟨by decide, by simp [r3, NoBuild]⟩

/-- what the tuple is -/
example : toConstraints r3 = (numpy, [[⟨str ">= 1-2"⟩, ⟨str "!= 7-0"⟩, ⟨str "*"⟩]]) := by decide +kernel

/-- C29 is violated: a `^=` constraint loses the build number of its version, -/
theorem C29_violated_build :
    fromConstraints .plain (toConstraints (⟨.plain, numpy, [.upstream (v 1 2)]⟩ : Requirement Str Nat)) =
      .ok ⟨.plain, numpy, [.upstream (v 1 0)]⟩ := by decide +kernel

/-- and a requirement without constraints gets one, so that the two are not equal although they accept the same versions. -/
theorem C29_violated_empty :
    fromConstraints .plain (toConstraints (⟨.plain, numpy, []⟩ : Requirement Str Nat)) =
      .ok ⟨.plain, numpy, [.any]⟩ := by decide +kernel

example : parsePackageFullName (str "zope.interface-4.1-3") = .ok (str "zope.interface", str "4.1-3") :=
  C54_name_version (v := str "4.1-3") dotted_name
    ⟨str "4.1", .dotted (w := str "4") (n := str "1") ⟨by decide, by decide⟩ (.word ⟨by decide, by decide⟩),
      ⟨_, _, rfl, by decide⟩, Or.inr ⟨str "3", ⟨by decide, by decide⟩, rfl⟩⟩

example : fromPackageString .plain (str "numpy-12-3") = .ok (Requirement.exactly .plain numpy (v 12 3)) :=
  C54_from_package_string numpy_name (printable (v 12 3)) _

example : parsePackageFullName (str "numpy") = .error .solverException := by decide +kernel
example : parsePackageFullName (str "numpy-dev") = .error .solverException := by decide +kernel
example : parsePackageFullName (str "1-2-3") = .ok (str "1", str "2-3") := by decide +kernel

/-- C54 is violated: a string with a newline at its end is accepted. -/
theorem C54_violated_newline : parsePackageFullName (str "numpy-12-3\n") = .ok (numpy, str "12-3") := by decide +kernel

/-- C55 is violated: the text of a requirement with two constraints cannot be parsed. -/
theorem C55_violated :
    requirementStr (⟨.plain, numpy, [.geq (v 1 2), .lt (v 7 0)]⟩ : Requirement Str Nat) = str "numpy >= 1-2, < 7-0" ∧
    fromString (U := Nat) .plain (str "numpy >= 1-2, < 7-0") = .error .invalidConstraint := by decide +kernel

/-- what can be parsed is this: -/
example : fromString (U := Nat) .plain (str "numpy >= 1-2, numpy < 7-0") =
    .ok ⟨.plain, some numpy, [.geq (v 1 2), .lt (v 7 0)]⟩ := by decide +kernel

example : fromString (U := Nat) .plain (requirementStr r3) = .error .invalidConstraint :=
  C55_several_refused r3 _ numpy_name (fun c _ => constraintPrintable c) (by decide)

example : ∃ r' : Requirement (Option Str) Nat,
    fromString .plain (requirementStr ⟨.plain, numpy, [.any, .upstream (v 3 1)]⟩) = .ok r' ∧
      r'.cls = .plain ∧ r'.name = some numpy ∧
      ∀ w, r'.matches w = (⟨.plain, numpy, [.any, .upstream (v 3 1)]⟩ : Requirement Str Nat).matches w :=
  C55_round_trip_partial _ _ numpy_name (fun c _ => constraintPrintable c) (by decide)

end TextExample

end Verif.Props
