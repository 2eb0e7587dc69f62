import Verif.Props.Grammar
/-
Concrete constraint and requirement strings for properties C71 and C72: cases that meet the hypotheses, and cases where the code
violates the properties.
-/
namespace Verif.Props
open Verif Verif.Pkg Verif.Text CharTable

namespace GrammarExample
open Verif.Text.Example

def constraints (s : String) : Except PErr (List (Constraint Nat)) := parseConstraints (str s)
def requirement (s : String) : Except PErr (Requirement (Option Str) Nat) := fromString .plain (str s)

instance (s : Str) : Decidable (Spaces s) := inferInstanceAs (Decidable (∀ c ∈ s, isSpace c = true))
instance (s : Str) : Decidable (Blanks s) := inferInstanceAs (Decidable (∀ c ∈ s, c = ' '))

/-- the versions of the examples are not stars or operators -/
theorem noOperator : NoOperatorVersion Nat := by
  rintro x (rfl | ⟨o, rfl⟩) v h
  · cases h
  · cases o <;> cases h

theorem version_digits {s : Str} (h1 : s ≠ []) (h2 : s.all Char.isDigit = true) : ValidVersion s := by
  have h2 := List.all_eq_true.1 h2
  refine ⟨s, .word ⟨h1, fun c hc => CharTable.digit_word c (h2 c hc)⟩, ?_, Or.inl rfl⟩
  cases s with
  | nil => exact absurd rfl h1
  | cons c t => exact ⟨c, t, rfl, h2 c (by simp)⟩

/-- ">=3 , * ,, <   7": four parts, three constraints -/
def parts : List CPart := [.op [] .geq [] (str "3") [' '], .star [' '] [' '], .blank [], .op [' '] .lt (str "   ") (str "7") []]

theorem parts_ok : WrittenAs CPart.render CPart.OK parts (str ">=3 , * ,, <   7") := by
  refine ⟨by decide, ?_, rfl⟩
  intro p hp
  simp only [parts, List.mem_cons, List.not_mem_nil, or_false] at hp
  rcases hp with rfl | rfl | rfl | rfl
  · exact ⟨by decide, by decide, version_digits (by decide) (by decide), by decide⟩
  · exact ⟨by decide, by decide⟩
  · show Spaces []
    decide
  · exact ⟨by decide, by decide, version_digits (by decide) (by decide), by decide⟩

theorem parts_say : CSays parts [.geq (⟨3, 0⟩ : Version Nat), .any, .lt ⟨7, 0⟩] :=
  .op rfl (.star (.blank (.op rfl .nil)))

example : constraints ">=3 , * ,, <   7" = .ok [.geq ⟨3, 0⟩, .any, .lt ⟨7, 0⟩] := by
  refine C71_reads ?_ parts_ok parts_say
  intro h
  have := h '>' (by decide)
  revert this
  decide

example : constraints "" = .ok [.any] := by decide +kernel
example : constraints " , " = .ok [] := by decide +kernel
example : constraints ">= 3 4" = .error .invalidConstraint := by decide +kernel
example : constraints ">= MKL" = .error .invalidConstraint := by decide +kernel
example : constraints ">= 3.x" = .error .valueError := by decide +kernel
example : constraints ">= 1.0}" = .error .formatting := by decide +kernel

/-- C71 in full fails: these are not constraint strings, and the exception is not InvalidConstraint. -/
example : constraints "3" = .error .assertion := C71_lone_version (version_digits (by decide) (by decide))
example : constraints ">=" = .error .assertion := C71_lone_operator .geq

/-- "MKL >= 10 ,MKL<11, MKL *" -/
def mkl : List RPart :=
  [.op [] (str "MKL") [' '] .geq [' '] (str "10") [' '], .op [] (str "MKL") [] .lt [] (str "11") [], .star [' '] (str "MKL") [' '] []]

theorem mkl_name : ValidName (str "MKL") := .word ⟨by decide, by decide⟩

theorem mkl_ok : WrittenAs RPart.render RPart.OK mkl (str "MKL >= 10 ,MKL<11, MKL *") := by
  refine ⟨by decide, ?_, rfl⟩
  intro p hp
  simp only [mkl, List.mem_cons, List.not_mem_nil, or_false] at hp
  rcases hp with rfl | rfl | rfl
  · exact ⟨by decide, mkl_name, by decide, by decide, version_digits (by decide) (by decide), by decide⟩
  · exact ⟨by decide, mkl_name, by decide, by decide, version_digits (by decide) (by decide), by decide⟩
  · exact ⟨by decide, mkl_name, by decide, by decide⟩

theorem mkl_says : RSays mkl [.geq (⟨10, 0⟩ : Version Nat), .lt ⟨11, 0⟩, .any] := .op rfl (.op rfl (.star .nil))

example : requirement "MKL >= 10 ,MKL<11, MKL *" = .ok ⟨.plain, some (str "MKL"), [.geq ⟨10, 0⟩, .lt ⟨11, 0⟩, .any]⟩ := by
  refine C72_reads .plain mkl_ok mkl_says ⟨_, List.mem_cons_self, rfl⟩ ?_
  intro p hp m hm
  simp only [mkl, List.mem_cons, List.not_mem_nil, or_false] at hp
  rcases hp with rfl | rfl | rfl <;> cases hm <;> rfl

theorem two_ok : WrittenAs RPart.render RPart.OK [.bare [] (str "MKL") [], .bare [' '] (str "nose") []] (str "MKL, nose") := by
  refine ⟨by decide, ?_, rfl⟩
  intro p hp
  simp only [List.mem_cons, List.not_mem_nil, or_false] at hp
  rcases hp with rfl | rfl
  · exact ⟨by decide, mkl_name, by decide⟩
  · exact ⟨by decide, .word ⟨by decide, by decide⟩, by decide⟩

example : requirement "MKL, nose" = .error .invalidDependencyString :=
  C72_two_names .plain two_ok (.bare (.bare .nil)) (List.mem_cons_self) (List.mem_cons_of_mem _ List.mem_cons_self) rfl rfl (by decide)

example : requirement "MKL 10" = .error .invalidConstraint := by decide +kernel
example : requirement "MKL >= 3.x" = .error .valueError := by decide +kernel
example : requirement "" = .ok ⟨.plain, none, [.any]⟩ := by decide +kernel

/-- C72 in full fails: these are not requirement strings. -/
example : requirement "," = .error .assertion := by
  refine C72_only_commas .plain (parts := [.blank [], .blank []]) (by decide) ⟨by decide, ?_, rfl⟩
  intro p hp
  simp only [List.mem_cons, List.not_mem_nil, or_false, or_self] at hp
  subst hp
  exact ⟨show Spaces [] by decide, rfl⟩
example : requirement ">=" = .ok ⟨.plain, some (str ">="), [.any]⟩ := C72_sign_name .plain (Or.inr ⟨.geq, rfl⟩)
example : requirement "*" = .ok ⟨.plain, some (str "*"), [.any]⟩ := C72_sign_name .plain (Or.inl rfl)
example : requirement "* *" = .ok ⟨.plain, some (str "*"), [.any]⟩ := by decide +kernel
example : requirement "1.0-1" = .ok ⟨.plain, some (str "1.0-1"), [.any]⟩ := by decide +kernel

end GrammarExample
end Verif.Props
