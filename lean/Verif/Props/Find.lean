import Verif.Text.Find
import Verif.Props.Text
import Verif.Props.Repositories
/-
Property C32, the exception of `find_package`.
-/
set_option linter.unusedSectionVars false
namespace Verif.Props
open Verif Verif.Pkg Verif.Text CharTable

section
variable [CharTable] {U : Type} [LinearOrder U] [VersionText U]

/-- `find_package` finds what `Repository.findPackage` finds. -/
theorem find_text_ok (r : Repository Str (CStr U) U) (n : Str) (v : Version U) (p : Package Str (CStr U) U) :
    findPackageText r n v = .ok p ↔ r.findPackage n v = .ok p := by
  unfold findPackageText
  cases r.findPackage n v with
  | ok q => simp
  | error e =>
    simp only
    cases fromPackageString (U := U) .plain (n ++ '-' :: VersionText.toStr v) <;> simp

theorem find_text_none {l : List (Package Str (CStr U) U)} {n : Str} {v : Version U} (h : ¬ ∃ p ∈ l, p.name = n ∧ p.version = v) :
    findPackageText (Repository.ofList l) n v =
      match fromPackageString .plain (n ++ '-' :: VersionText.toStr v) with
      | .error e => .error (e, none)
      | .ok req => .error (.noPackageFound, some req) := by
  unfold findPackageText
  simp only [(C32_find_package_missing_partial l n v).2 h]
  rfl

/-- C32: if no package of that name and version was added, `find_package` raises NoPackageFound, and its attribute
`requirement` asks for exactly that name and version, provided that the name is one that can be written in a full name. -/
theorem C32_find_package_raises_partial (l : List (Package Str (CStr U) U)) {n : Str} (hn : ValidName n) {v : Version U}
    (hv : Printable v) (h : ¬ ∃ p ∈ l, p.name = n ∧ p.version = v) :
    ∃ req, findPackageText (Repository.ofList l) n v = .error (.noPackageFound, some req) ∧ req.name = n ∧
      ∀ w, req.matches w = true ↔ w = v := by
  refine ⟨_, by rw [find_text_none h, C54_from_package_string hn hv], rfl, ?_⟩
  intro w
  simp only [Requirement.matches, Requirement.exactly, multiMatches, Constraint.matches]
  by_cases e : v = w
  · simp [e]
  · simp [e, Ne.symm e]

theorem count_dash_name {n : Str} (hn : ValidName n) : n.count '-' = 0 := by
  apply List.count_eq_zero_of_not_mem
  intro h
  rcases hn.chars _ h with k | k
  · have := (plain '-' (by simp)).1
    rw [this] at k
    cases k
  · cases k

theorem count_dash_word {w : Str} (hw : Word w) : w.count '-' = 0 := count_dash_name (.word hw)

theorem count_dash_version {v : Str} (hv : ValidVersion v) : v.count '-' ≤ 1 := by
  obtain ⟨n, hn, -, rfl | ⟨w, hw, rfl⟩⟩ := hv
  · rw [count_dash_name hn]; omega
  · rw [List.count_append, List.count_cons, count_dash_name hn, count_dash_word hw]; simp

/-- C32 is violated: for a name with a dash, the exception cannot be composed, and SolverException is raised instead of
NoPackageFound. (The text of a version contains a dash, before its build number.) -/
theorem C32_violated_dash (l : List (Package Str (CStr U) U)) {n : Str} (hn : '-' ∈ n) {v : Version U}
    (hv : '-' ∈ VersionText.toStr v) (h : ¬ ∃ p ∈ l, p.name = n ∧ p.version = v) :
    findPackageText (Repository.ofList l) n v = .error (.solverException, none) := by
  have hp : parsePackageFullName (n ++ '-' :: VersionText.toStr v) = .error .solverException := by
    rcases C54_refuses (n ++ '-' :: VersionText.toStr v) with ⟨⟨m, w⟩, h'⟩ | h'
    · exfalso
      obtain ⟨hm, hw, sep, tail, he, hs, ht⟩ := (C54_exact _ _ _).1 h'
      have hc := congrArg (List.count '-') he
      simp only [List.count_append, List.count_cons, beq_self_eq_true, if_true] at hc
      have h1 := List.count_pos_iff.2 hn
      have h2 := List.count_pos_iff.2 hv
      have h3 := count_dash_name hm
      have h4 := count_dash_version hw
      have h5 : sep.count '-' ≤ 1 := by
        rcases hs with rfl | ⟨-, hs⟩
        · simp
        · have : sep.count '-' = 0 := by
            apply List.count_eq_zero_of_not_mem
            intro k
            have := hs _ k
            rw [(plain '-' (by simp)).2] at this
            cases this
          omega
      have h6 : tail.count '-' = 0 := by
        rcases ht with rfl | rfl <;> decide
      omega
    · exact h'
  rw [find_text_none h]
  simp only [fromPackageString, hp]

end

namespace FindExample
open Verif.Text.Example

def numpy (x : Nat) : Package Str (CStr Nat) Nat :=
  { name := str "numpy"
    version := ⟨x, 1⟩
    installRequires := []
    conflicts := []
    declaredProvides := []
    repo := none }

def repo : List (Package Str (CStr Nat) Nat) := [numpy 2, numpy 1]

example : findPackageText (Repository.ofList repo) (str "numpy") ⟨2, 1⟩ = .ok (numpy 2) :=
  (find_text_ok _ _ _ _).2 rfl

example : ∃ req, findPackageText (Repository.ofList repo) (str "numpy") (⟨3, 1⟩ : Version Nat) = .error (.noPackageFound, some req) ∧
    req.name = str "numpy" ∧ ∀ w, req.matches w = true ↔ w = ⟨3, 1⟩ := by
  refine C32_find_package_raises_partial repo (.word ⟨by decide, by decide⟩) (printable _) ?_
  rintro ⟨p, hp, -, hv⟩
  simp only [repo, List.mem_cons, List.not_mem_nil, or_false] at hp
  rcases hp with rfl | rfl <;> revert hv <;> decide

example : findPackageText (Repository.ofList repo) (str "scikit-learn") (⟨3, 1⟩ : Version Nat) = .error (.solverException, none) := by
  refine C32_violated_dash repo (by decide) (by decide) ?_
  rintro ⟨p, hp, hn, -⟩
  simp only [repo, List.mem_cons, List.not_mem_nil, or_false] at hp
  rcases hp with rfl | rfl <;> revert hn <;> decide

end FindExample

end Verif.Props
