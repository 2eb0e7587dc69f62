import Verif.Props.PackageText
/-
Concrete package strings for properties C68 and C69: cases that meet the hypotheses, and cases where the code violates them.
-/
namespace Verif.Props
open Verif Verif.Pkg Verif.Text Verif.Text.Re CharTable

namespace PackageTextExample
open Verif.Text.Example

instance {U : Type} : DecidableEq (CStr U) := fun a b =>
  if h : a.text = b.text then .isTrue (by cases a; cases b; simp_all) else .isFalse (fun e => h (by rw [e]))

def read (s : String) : Except PErr (Package Str (CStr Nat) Nat) := parseToPackage (str s)

/-- a package with all three kinds of constraints -/
def numpy : Package Str (CStr Nat) Nat :=
  { name := str "numpy"
    version := ⟨18, 1⟩
    installRequires := [(str "MKL", [[⟨str ">= 10"⟩, ⟨str "< 11"⟩]]), (str "nose", [[⟨[]⟩]])]
    conflicts := [(str "numeric", [[⟨str "*"⟩]])]
    declaredProvides := [(str "numarray", [[⟨str "== 2-1"⟩]])]
    repo := none }

example : packageToPretty numpy =
    str "numpy 18-1; install_requires (MKL >= 10, MKL < 11, nose); conflicts (numeric *); provides (numarray == 2-1)" := by
  decide +kernel

theorem numpy_name : ValidName numpy.name := .word ⟨by decide +kernel, by decide +kernel⟩

theorem plainOf {s : Str} (h1 : ∀ c ∈ s, c ≠ ',' ∧ c ≠ ')' ∧ c ≠ '\n' ∧ c ≠ '{' ∧ c ≠ '}') (h2 : strip s = s) : Plain s := ⟨h1, h2⟩

theorem numpy_requires : Writable numpy.installRequires := by
  intro t ht
  simp only [numpy, List.mem_cons, List.not_mem_nil, or_false] at ht
  rcases ht with rfl | rfl
  · refine ⟨.word ⟨by decide +kernel, by decide +kernel⟩, ?_⟩
    intro conj hc c hcc
    simp only [List.mem_cons, List.not_mem_nil, or_false] at hc
    subst hc
    simp only [List.mem_cons, List.not_mem_nil, or_false] at hcc
    rcases hcc with rfl | rfl
    · exact plainOf (by decide +kernel) (by decide +kernel)
    · exact plainOf (by decide +kernel) (by decide +kernel)
  · refine ⟨.word ⟨by decide +kernel, by decide +kernel⟩, ?_⟩
    intro conj hc c hcc
    simp only [List.mem_cons, List.not_mem_nil, or_false] at hc
    subst hc
    simp only [List.mem_cons, List.not_mem_nil, or_false] at hcc
    subst hcc
    exact plainOf (by decide +kernel) (by decide +kernel)

theorem numpy_conflicts : Writable numpy.conflicts := by
  intro t ht
  simp only [numpy, List.mem_cons, List.not_mem_nil, or_false] at ht
  subst ht
  refine ⟨.word ⟨by decide +kernel, by decide +kernel⟩, ?_⟩
  intro conj hc c hcc
  simp only [List.mem_cons, List.not_mem_nil, or_false] at hc
  subst hc
  simp only [List.mem_cons, List.not_mem_nil, or_false] at hcc
  subst hcc
  exact plainOf (by decide +kernel) (by decide +kernel)

theorem numpy_provides : Writable numpy.declaredProvides := by
  intro t ht
  simp only [numpy, List.mem_cons, List.not_mem_nil, or_false] at ht
  subst ht
  refine ⟨.word ⟨by decide +kernel, by decide +kernel⟩, ?_⟩
  intro conj hc c hcc
  simp only [List.mem_cons, List.not_mem_nil, or_false] at hc
  subst hc
  simp only [List.mem_cons, List.not_mem_nil, or_false] at hcc
  subst hcc
  exact plainOf (by decide +kernel) (by decide +kernel)

/-- the hypotheses of the theorems are met -/
example : parseToPackage (packageToPretty numpy) = .ok numpy := by
  refine C68_identity_partial numpy numpy_name (printable _) numpy_requires numpy_conflicts numpy_provides
    ⟨?_, ?_⟩ ⟨?_, ?_⟩ ⟨?_, ?_⟩ ?_ rfl
  · rw [numpy]
    exact List.pairwise_cons.2 ⟨by intro b hb; rw [List.mem_singleton] at hb; subst hb; decide +kernel, List.pairwise_singleton _ _⟩
  · intro t ht
    simp only [numpy, List.mem_cons, List.not_mem_nil, or_false] at ht
    rcases ht with rfl | rfl <;> exact ⟨_, rfl, by simp⟩
  · exact List.pairwise_singleton _ _
  · intro t ht
    simp only [numpy, List.mem_cons, List.not_mem_nil, or_false] at ht
    subst ht
    exact ⟨_, rfl, by simp⟩
  · exact List.pairwise_singleton _ _
  · intro t ht
    simp only [numpy, List.mem_cons, List.not_mem_nil, or_false] at ht
    subst ht
    exact ⟨_, rfl, by simp⟩
  · intro t ht
    simp only [numpy, List.mem_cons, List.not_mem_nil, or_false] at ht
    subst ht
    decide +kernel

/-- a package with nothing but conflicts -/
def only (conflicts : List (CTuple Str (CStr Nat))) : Package Str (CStr Nat) Nat :=
  { name := str "a"
    version := ⟨1, 1⟩
    installRequires := []
    conflicts := conflicts
    declaredProvides := []
    repo := none }

/-- C68 is violated: a conflict with all versions of a package, written as an empty conjunction, is lost; -/
theorem C68_violated_empty :
    packageToPretty (only [(str "b", [[]])]) = str "a 1-1; conflicts ()" ∧
    parseToPackage (packageToPretty (only [(str "b", [[]])])) = .ok (only []) := by decide +kernel

/-- alternatives become a conjunction, so that a conflict with the versions below 2 and those from 5 on becomes one with no
version at all; -/
theorem C68_violated_disjunction :
    parseToPackage (packageToPretty (only [(str "b", [[⟨str "< 2"⟩], [⟨str ">= 5"⟩]])])) =
      .ok (only [(str "b", [[⟨str "< 2"⟩, ⟨str ">= 5"⟩]])]) := by decide +kernel

/-- and so do two tuples for the same name. -/
theorem C68_violated_repeated :
    parseToPackage (packageToPretty (only [(str "b", [[⟨str "< 2"⟩]]), (str "b", [[⟨str ">= 5"⟩]])])) =
      .ok (only [(str "b", [[⟨str "< 2"⟩, ⟨str ">= 5"⟩]])]) := by decide +kernel

/-! ### C69 -/

/-- a package string with more white space than usual, a synonym, and two blocks -/
def text : PackageText :=
  { lead := str " "
    name := str "numpy"
    gap := str "  "
    version := str "18-1"
    blocks :=
      [⟨[], str "depends", [], some (⟨str "MKL", [], str ">=10"⟩, [(str " ", ⟨str "MKL", str " ", str "< 11"⟩)])⟩,
        ⟨str " ", str "conflicts", str " ", none⟩]
    trail := str "\n" }

example : text.render = str " numpy  18-1;depends(MKL>=10, MKL < 11); conflicts ()\n" := by decide +kernel

theorem text_ok : text.OK where
  lead := by decide +kernel
  name := .word ⟨by decide +kernel, by decide +kernel⟩
  gap := by decide +kernel
  version := ⟨str "18", .word ⟨by decide +kernel, by decide +kernel⟩, ⟨'1', str "8", rfl, by decide +kernel⟩,
    Or.inr ⟨str "1", ⟨by decide +kernel, by decide +kernel⟩, rfl⟩⟩
  blocks := by
    intro b hb
    simp only [text, List.mem_cons, List.not_mem_nil, or_false] at hb
    rcases hb with rfl | rfl
    · refine ⟨by decide +kernel, ⟨by decide +kernel, by decide +kernel⟩, by decide +kernel, ?_⟩
      intro i rest h
      simp only [Option.some.injEq, Prod.mk.injEq] at h
      obtain ⟨rfl, rfl⟩ := h
      refine ⟨⟨.word ⟨by decide +kernel, by decide +kernel⟩, by decide +kernel, by decide +kernel, ?_, ?_⟩, ?_⟩
      · intro c t h
        have : c = '>' := by have := congrArg List.head? h; simpa [str] using this.symm
        subst this; decide
      · intro _ c t h
        have : c = '>' := by have := congrArg List.head? h; simpa [str] using this.symm
        subst this; decide
      · intro x hx
        rw [List.mem_singleton] at hx
        subst hx
        refine ⟨⟨.word ⟨by decide +kernel, by decide +kernel⟩, by decide +kernel, by decide +kernel, ?_, ?_⟩, by decide +kernel⟩
        · intro c t h
          have : c = '<' := by have := congrArg List.head? h; simpa [str] using this.symm
          subst this; decide
        · intro h; exact absurd h (by decide +kernel)
    · exact ⟨by decide +kernel, ⟨by decide +kernel, by decide +kernel⟩, by decide +kernel, by intro i rest h; cases h⟩
  trail := by decide +kernel

example : ∃ p : Package Str (CStr Nat) Nat, parseToPackage text.render = .ok p ∧ p.name = str "numpy" ∧ p.version = ⟨18, 1⟩ ∧
    p.repo = none ∧ Says text.blocks .installRequires p.installRequires ∧ Says text.blocks .conflicts p.conflicts ∧
    Says text.blocks .provides p.declaredProvides := by
  refine C69_reads_what_is_written_partial text text_ok (by decide +kernel) ?_
  decide +kernel

example : read " numpy  18-1;depends(MKL>=10, MKL < 11); conflicts ()\n" =
    .ok { name := str "numpy"
          version := ⟨18, 1⟩
          installRequires := [(str "MKL", [[⟨str ">=10"⟩, ⟨str "< 11"⟩]])]
          conflicts := []
          declaredProvides := []
          repo := none } := by decide +kernel

example : read "" = .error .valueError := by decide +kernel
example : read "numpy" = .error .valueError := by decide +kernel
example : read "numpy18-1" = .error .valueError := by decide +kernel
example : read "numpy 18-1 depends (nose)" = .error .valueError := by decide +kernel
example : read "numpy; depends (nose)" = .error .valueError := by decide +kernel
example : read "numpy 18-1; disparages (nose)" = .error .valueError := by decide +kernel

/-- C69 is violated: of two blocks of one kind the first is ignored, -/
theorem C69_violated_twice :
    read "a 1-1; conflicts (b); conflicts (c)" = .ok (only [(str "c", [[⟨[]⟩]])]) := by decide +kernel

/-- a block without parentheses is ignored, as is anything else that is not a block, -/
theorem C69_violated_ignored :
    read "a 1-1; conflicts b" = .ok (only []) ∧ read "a 1-1; conflicts (b" = .ok (only []) ∧
    read "a 1-1; what? conflicts (b)" = .ok (only [(str "b", [[⟨[]⟩]])]) := by decide +kernel

/-- and so is what is before a name in a block: here the constraint on `b` becomes one on a package called `2`. -/
theorem C69_violated_item :
    read "a 1-1; conflicts (>= 2, b)" = .ok (only [(str "2", [[⟨[]⟩]]), (str "b", [[⟨[]⟩]])]) := by decide +kernel

end PackageTextExample

end Verif.Props
