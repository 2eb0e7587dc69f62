import Verif.Text.Readers
import Verif.Solve.NamedLemmas
import Verif.Props.Unicode
import Verif.Props.Find
/-
Property C102: how the names of packages are spelled does not matter to the solver. It writes them into strings and parses
these: `textReaders` has the parsers, `solveN` and the other functions with an N use them.
-/
set_option linter.unusedSectionVars false
set_option linter.style.haveILetI false
namespace Verif.Props
open Verif Verif.Pkg Verif.Text Verif.Rules Verif.Solve CharTable

section
variable [CharTable] {U : Type} [LinearOrder U] [VersionText U]

/-! ### Specification -/

/-- words of ASCII letters, digits and underscores, separated by single dots -/
def AsciiName (n : Str) : Prop := @ValidName asciiTable n

/-- the text of the version is one in ASCII, and is read back -/
def AsciiVersion (v : Version U) : Prop := letI := asciiTable; Printable v

/-- the name and the version of the package are written in this way -/
def AsciiPackage (p : Package Str (CStr U) U) : Prop := AsciiName p.name ∧ AsciiVersion p.version

/-! ### names -/

theorem length_joined {l : List Str} {x : Str} (h : x ∈ l) : x.length ≤ (joined l).length := by
  induction l with
  | nil => cases h
  | cons a l ih =>
    cases l with
    | nil => rw [List.mem_singleton] at h; subst h; exact le_refl _
    | cons b l =>
      simp only [joined, List.length_append, List.length_cons]
      rcases List.mem_cons.1 h with rfl | h
      · omega
      · have := ih h; omega

/-- the strings that are read as the requirement for the name that is the string itself -/
theorem own_name (cls : ReqClass) (s : Str) :
    fromString cls s = .ok (⟨cls, some s, [.any]⟩ : Requirement (Option Str) U) ↔ ValidName s ∨ ValidVersion s ∨ Sign s := by
  constructor
  · intro h
    rcases (C72_exact cls s _).1 h with ⟨-, h⟩ | ⟨-, parts, n, cs, ⟨-, hl, e⟩, -, ⟨p, hp, hn⟩, -, h⟩
    · cases h
    · cases h
      have hlen := length_joined (List.mem_map_of_mem (f := RPart.render) hp)
      rw [← e] at hlen
      have hp' := hl p hp
      cases p with
      | blank ws => cases hn
      | bare lead name trail => cases hn; exact hp'.2.1
      | star lead name gap trail =>
        cases hn
        simp only [RPart.render, List.length_append, List.length_cons, List.length_nil] at hlen
        omega
      | op lead name gap o gap' version trail =>
        cases hn
        have : 0 < o.text.length := by cases o <;> simp [Op.text]
        simp only [RPart.render, List.length_append] at hlen
        omega
  · intro h
    have hsolid : Solid s := by
      rcases h with h | h | h
      · exact solid_name h
      · exact solid_version h
      · exact solid_sign h
    refine (C72_exact cls s _).2 (Or.inr ⟨solid_spaces hsolid, [.bare [] s []], s, [.any], ⟨by simp, ?_, ?_⟩, .bare .nil, ?_, ?_, rfl⟩)
    · intro p hp
      rw [List.mem_singleton] at hp
      subst hp
      exact ⟨by simp [Spaces], h, by simp [Spaces]⟩
    · simp [joined, RPart.render]
    · exact ⟨_, List.mem_singleton_self _, rfl⟩
    · intro p hp m hm
      rw [List.mem_singleton] at hp
      subst hp
      cases hm
      rfl

/-- words, dots and dashes -/
def DashedChar (c : Char) : Prop := isWord c = true ∨ c = '.' ∨ c = '-'

theorem dashed_space {c : Char} (h : DashedChar c) : isSpace c = false := by
  rcases h with h | rfl | rfl
  · exact word_space c h
  · exact (plain '.' (by simp)).2
  · exact (plain '-' (by simp)).2

theorem dashed_not_sign {c : Char} (h : DashedChar c) (hc : c ∈ ['*', ',', '=', '<', '>', '!', '^']) : False := by
  rcases h with h | rfl | rfl
  · have := (plain c (by simp only [List.mem_cons, List.not_mem_nil, or_false] at hc ⊢; tauto)).1
    rw [h] at this; cases this
  · simp at hc
  · simp at hc

theorem op_text_char (o : Op) : ∃ c ∈ o.text, c ∈ ['*', ',', '=', '<', '>', '!', '^'] := by
  cases o <;> simp [Op.text]

theorem sign_char {x : Str} (h : Sign x) : ∃ c ∈ x, c ∈ ['*', ',', '=', '<', '>', '!', '^'] := by
  rcases h with rfl | ⟨o, rfl⟩
  · exact ⟨'*', by simp, by simp⟩
  · exact op_text_char o

/-- Of the strings of words, dots and dashes, those are read that are names or versions, and nothing else. -/
theorem dashed_name (cls : ReqClass) {n : Str} (hne : n ≠ []) (hd : ∀ c ∈ n, DashedChar c) :
    (∃ r : Requirement (Option Str) U, fromString cls n = .ok r) ↔ ValidName n ∨ ValidVersion n := by
  constructor
  · rintro ⟨r, h⟩
    rcases (C72_exact cls n _).1 h with ⟨hs, -⟩ | ⟨hs, parts, m, cs, ⟨hp, hl, e⟩, -, -, -, -⟩
    · exfalso
      cases n with
      | nil => exact hne rfl
      | cons c n =>
        have := hs c (by simp)
        rw [dashed_space (hd c (by simp))] at this
        cases this
    · have hone : ∃ p, parts = [p] := by
        cases parts with
        | nil => exact absurd rfl hp
        | cons p parts =>
          cases parts with
          | nil => exact ⟨p, rfl⟩
          | cons p' parts =>
            exfalso
            have : ',' ∈ n := by rw [e]; simp [joined]
            exact dashed_not_sign (hd _ this) (by simp)
      obtain ⟨p, rfl⟩ := hone
      have hp' := hl p (by simp)
      simp only [List.map_cons, List.map_nil, joined] at e
      have hsp : ∀ w : Str, Spaces w → (∀ c ∈ w, c ∈ n) → w = [] := by
        intro w hw hsub
        cases w with
        | nil => rfl
        | cons c w =>
          have := hw c (by simp)
          rw [dashed_space (hd c (hsub c (by simp)))] at this
          cases this
      cases p with
      | blank ws => rw [e] at hs; exact absurd hp' hs
      | bare lead name trail =>
        simp only [RPart.render] at e
        have h1 := hsp lead hp'.1 (by intro c hc; rw [e]; simp [hc])
        have h2 := hsp trail hp'.2.2 (by intro c hc; rw [e]; simp [hc])
        subst h1
        subst h2
        simp only [List.nil_append, List.append_nil] at e
        subst e
        rcases hp'.2.1 with k | k | k
        · exact Or.inl k
        · exact Or.inr k
        · obtain ⟨c, hc, k⟩ := sign_char k
          exact (dashed_not_sign (hd c hc) k).elim
      | star lead name gap trail =>
        exact (dashed_not_sign (hd '*' (by rw [e]; simp [RPart.render])) (by simp)).elim
      | op lead name gap o gap' version trail =>
        obtain ⟨c, hc, k⟩ := op_text_char o
        exact (dashed_not_sign (hd c (by rw [e]; simp [RPart.render, hc])) k).elim
  · intro h
    exact ⟨_, (own_name cls n).2 (by tauto)⟩

theorem word_of_ascii {w : Str} (h : @Word asciiTable w) : Word w := ⟨h.1, fun c hc => asciiWord_word (h.2 c hc)⟩

theorem name_of_ascii {n : Str} (h : AsciiName n) : ValidName n := by
  unfold AsciiName at h
  induction h with
  | word h => exact .word (word_of_ascii h)
  | dotted h _ ih => exact .dotted (word_of_ascii h) ih

theorem version_of_ascii {s : Str} (h : @ValidVersion asciiTable s) : ValidVersion s := by
  obtain ⟨n, hn, ⟨c, t, e, hc⟩, h⟩ := h
  refine ⟨n, name_of_ascii hn, ⟨c, t, e, ascii_digit c hc⟩, ?_⟩
  rcases h with h | ⟨w, hw, h⟩
  · exact Or.inl h
  · exact Or.inr ⟨w, word_of_ascii hw, h⟩

theorem printable_of_ascii {v : Version U} (h : AsciiVersion v) : Printable v :=
  ⟨version_of_ascii (@Printable.valid asciiTable U _ v h), @Printable.back asciiTable U _ v h⟩

/-- **C102**: which names are read as they are -/
theorem C102_names (cls : ReqClass) (n : Str) :
    (nameReader (U := U) cls).Plain cls n ↔ AsciiName n ∨ @ValidVersion asciiTable n ∨ Sign n := by
  have := @own_name asciiTable U _ _ cls n
  unfold Reader.Plain nameReader
  unfold AsciiName
  rw [← this]
  cases h : (letI := asciiTable; fromString cls n : Except PErr (Requirement (Option Str) U)) with
  | error e => simp
  | ok r =>
    simp only [Except.ok.injEq]
    constructor
    · intro k
      rcases r with ⟨c, nm, cs⟩
      cases nm with
      | none => cases k
      | some m =>
        simp only [Option.map_some, Option.some.injEq, Requirement.ofName, Requirement.mk.injEq] at k
        obtain ⟨rfl, rfl, rfl⟩ := k
        rfl
    · rintro rfl
      rfl

theorem plain_of_ascii {n : Str} (hn : AsciiName n) {v : Version U} (hv : AsciiVersion v) : textReaders.Plain n v where
  conflict := (C102_names .conflict n).2 (Or.inl hn)
  install := (C102_names .install n).2 (Or.inl hn)
  pinned := by
    have : (letI := asciiTable; fromString .install (n ++ ' ' :: '=' :: '=' :: ' ' :: VersionText.toStr v)) =
        .ok (⟨.install, some n, [.equal v]⟩ : Requirement (Option Str) U) := by
      letI := asciiTable
      exact C55_exactly hn hv .install
    simp only [textReaders, nameReader, this]
    rfl
  full := C54_from_package_string (name_of_ascii hn) (printable_of_ascii hv) .install

/-! ### C102: where names are in ASCII -/

variable {rs : List (Repository Str (CStr U) U)} {s : DependencySolver Str (CStr U) U}

/-- **C102**, the part that holds: if the names and versions of all packages are in ASCII and made of words and dots, then
`solve` and `solve_with_hint` do what they do for names that are not parsed at all (and may be anything, see
`Solve/Model.lean`). -/
theorem C102_solve_partial (hs : ∃ m, Built rs m s.pool) (ha : ∀ p ∈ allPackages rs, AsciiPackage p)
    (hr : ∀ p ∈ remotePackages s, AsciiPackage p) (q : Request Str U) :
    (∀ o, s.solveN textReaders o q = s.solve o q) ∧
    ∀ o o', s.solveWithHintN textReaders o o' q = s.solveWithHint o o' q :=
  ⟨fun o => solveN_eq hs (fun p hp => plain_of_ascii (ha p hp).1 (ha p hp).2)
      (fun p hp => plain_of_ascii (hr p hp).1 (hr p hp).2) o q,
    fun o o' => solveWithHintN_eq hs (fun p hp => plain_of_ascii (ha p hp).1 (ha p hp).2)
      (fun p hp => plain_of_ascii (hr p hp).1 (hr p hp).2) o o' q⟩

/-- **C102**, the part that holds: the same for the functions on lists of packages. -/
theorem C102_functions_partial {K : Type} [LinearOrder K] {ps : List (Package Str (CStr U) U)}
    (ha : ∀ p ∈ ps, AsciiPackage p) (rank : List (CTuple Str (CStr U)) → K) (o : Orders) (reqs : List (Requirement Str U))
    (m : Option (Modifiers Str)) :
    requirementsFromPackagesN textReaders ps = .ok (requirementsFromPackages ps) ∧
    packagesAreConsistentN textReaders o ps m = packagesAreConsistent o ps m ∧
    requirementsAreSatisfiableN textReaders o ps reqs m = requirementsAreSatisfiable o ps reqs m ∧
    requirementsAreCompleteN textReaders rank o ps reqs m = requirementsAreComplete rank o ps reqs m ∧
    satisfyRequirementsN textReaders o ps reqs m = satisfyRequirements o ps reqs m ∧
    simplifyRequirementsN textReaders rank ps reqs = simplifyRequirements rank ps reqs := by
  have h : ∀ p ∈ ps, (textReaders (U := U)).Plain p.name p.version := fun p hp => plain_of_ascii (ha p hp).1 (ha p hp).2
  exact ⟨requirementsFromPackagesN_eq h, packagesAreConsistentN_eq h o m, requirementsAreSatisfiableN_eq h o reqs m,
    requirementsAreCompleteN_eq h rank o reqs m, satisfyRequirementsN_eq h o reqs m, simplifyRequirementsN_eq h rank reqs⟩

/-- **C102**, the part that holds: the same for `compute_leaf_packages`. -/
theorem C102_leaves_partial (ha : ∀ p ∈ allPackages rs, AsciiPackage p) (o : SetOrder) :
    computeLeafPackagesN textReaders o rs = computeLeafPackages o rs :=
  computeLeafPackagesN_eq (fun p hp => plain_of_ascii (ha p hp).1 (ha p hp).2) o

/-! ### C102: where they are not -/

/-- names that the parser of requirement strings refuses -/
def Refused (U : Type) [LinearOrder U] [VersionText U] (n : Str) : Prop := ∃ e, (nameReader (U := U) .conflict) n = .error e

theorem nameReader_error {cls : ReqClass} {n : Str} :
    (∃ e, nameReader (U := U) cls n = .error e) ↔
      ¬ ∃ r : Requirement (Option Str) U, (letI := asciiTable; fromString cls n) = .ok r := by
  unfold nameReader
  cases (letI := asciiTable; fromString cls n : Except PErr (Requirement (Option Str) U)) with
  | error e => simp
  | ok r => simp

/-- a name with a dash is refused, unless it begins with a digit -/
theorem refused_dash {n : Str} (hd : '-' ∈ n) (hc : ∀ c ∈ n, asciiWord c = true ∨ c = '.' ∨ c = '-')
    (h0 : ∀ c t, n = c :: t → c.isDigit = false) : Refused U n := by
  refine nameReader_error.2 ?_
  have hne : n ≠ [] := by rintro rfl; cases hd
  have := @dashed_name asciiTable U _ _ .conflict n hne hc
  rw [this]
  rintro (k | ⟨m, hm, ⟨c, t, e, hc⟩, k⟩)
  · rcases @ValidName.chars asciiTable n k _ hd with k | k
    · change asciiWord '-' = true at k
      revert k
      decide
    · cases k
  · have hn : ∃ t, n = c :: t := by
      rcases k with k | ⟨w, -, k⟩
      · exact ⟨_, k.trans e⟩
      · exact ⟨_, by rw [k, e]; rfl⟩
    obtain ⟨t', hn⟩ := hn
    have := h0 c t' hn
    change c.isDigit = true at hc
    rw [this] at hc
    cases hc

/-- and so is one with a letter that is not one of ASCII -/
theorem refused_foreign {n : Str} {c : Char} (hc : c ∈ n) (hf : Foreign c) : Refused U n := by
  obtain ⟨e, he, -⟩ := C101_foreign_refused (U := U) hc hf .conflict
  refine nameReader_error.2 ?_
  unfold scanRequirement at he
  rw [he]
  simp

/-- **C102** is violated: if the name of an installed package is one that the parser of requirement strings refuses, then
`solve` raises an exception for every request, even an empty one; it never returns a transaction, and never says that the
request cannot be met. -/
theorem C102_violated_installed (hs : ∃ m, Built rs m s.pool) {p : Package Str (CStr U) U} (hp : p ∈ s.installed.iter)
    (hn : Refused U p.name) (o : Orders) (q : Request Str U) : ∃ e, s.solveN textReaders o q = .error (.pkg e) := by
  obtain ⟨e, he⟩ := hn
  exact solveN_refuses_installed hs hp he o q

/-- **C102** is violated: nor can a package with such a name be asked for: if it is among those that meet the requirement of
an install job, `solve` raises an exception. -/
theorem C102_violated_candidate (hs : ∃ m, Built rs m s.pool) {p : Package Str (CStr U) U} (hp : p ∈ allPackages rs)
    (hi : ∀ p' ∈ s.installed.iter, p'.key ≠ p.key) (hn : Refused U p.name) {r : Requirement Str U} (hm : MeetsJob r p)
    {q : Request Str U} (hq : ∀ j ∈ q.jobs, j.kind ≠ .upgrade) (hj : ⟨some r, .install⟩ ∈ q.jobs) (o : Orders) :
    ∃ e, s.solveN textReaders o q = .error (.pkg e) := by
  obtain ⟨e, he⟩ := hn
  exact solveN_refuses_candidate hs hp hi he hm hq hj o

end

end Verif.Props
