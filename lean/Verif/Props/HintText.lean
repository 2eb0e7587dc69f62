import Verif.Solve.HintText
import Verif.Props.Hints
import Verif.Props.TransactionText
/-
C99: the text of a hint names the conflicting jobs.
-/
set_option linter.unusedSectionVars false
namespace Verif.Props
open Verif Verif.Pkg Verif.Solve

section
variable {N U : Type}

/-! ### Specification -/

/-- A job as a reader of the text knows it: what is to be done, and the text of the requirement. -/
structure SeenJob where
  kind : JobKind
  requirement : Option (List Char)
deriving DecidableEq

def seenJob (T : Texts N U) (j : Job N U) : SeenJob := ⟨j.kind, j.requirement.map T.requirement⟩

/-- the word for what is to be done -/
def jobWord : JobKind → String
  | .install => "install"
  | .remove => "remove"
  | .softUpdate => "soft_update"
  | .hardUpdate => "hard_update"
  | .upgrade => "upgrade"

/-- a job as it is written on its line: what is to be done, a blank and the requirement, `None` if there is none -/
def jobLine (T : Texts N U) (j : Job N U) : List Char :=
  (jobWord j.kind).toList ++ [' '] ++ (j.requirement.map T.requirement).getD "None".toList

/-- a job as a Request makes it - only an upgrade has no requirement - whose requirement is printed on one line -/
structure PlainJob (T : Texts N U) (j : Job N U) : Prop where
  upgrade : j.requirement = none ↔ j.kind = .upgrade
  oneLine : ∀ r, j.requirement = some r → '\n' ∉ T.requirement r

/-- the lines of a text: the pieces between line feeds -/
def linesOf : List Char → List (List Char)
  | [] => [[]]
  | c :: t => if c = '\n' then [] :: linesOf t else
    match linesOf t with
    | [] => [[c]]
    | l :: ls => (c :: l) :: ls

/-! ### Proofs -/

theorem jobText_eq (T : Texts N U) (j : Job N U) : jobText T j = jobLine T j := by
  have hk : ∀ k, kindText k = (jobWord k).toList := by intro k; cases k <;> rfl
  unfold jobText jobLine
  rw [hk, List.append_assoc, List.singleton_append]
  cases j.requirement <;> rfl

theorem kindText_inj {k k' : JobKind} (h : kindText k = kindText k') : k = k' := by
  cases k <;> cases k' <;> first | rfl | (revert h; decide)

theorem kindText_plain (k : JobKind) : ' ' ∉ kindText k ∧ '\n' ∉ kindText k := by cases k <;> decide

theorem jobText_inj (T : Texts N U) {j j' : Job N U} (hj : PlainJob T j) (hj' : PlainJob T j') :
    jobText T j = jobText T j' ↔ seenJob T j = seenJob T j' := by
  constructor
  · intro h
    unfold jobText at h
    obtain ⟨h1, h2⟩ := split_at (kindText_plain _).1 (kindText_plain _).1 h
    have hk := kindText_inj h1
    unfold seenJob
    rw [hk]
    congr 1
    cases hr : j.requirement with
    | none =>
      have : j'.requirement = none := hj'.upgrade.2 (hk ▸ hj.upgrade.1 hr)
      rw [this]
    | some r =>
      cases hr' : j'.requirement with
      | none =>
        have : j.requirement = none := hj.upgrade.2 (hk ▸ hj'.upgrade.1 hr')
        rw [hr] at this; cases this
      | some r' =>
        rw [hr, hr'] at h2
        simp only at h2
        simp only [Option.map_some, h2]
  · intro h
    unfold seenJob at h
    simp only [SeenJob.mk.injEq] at h
    unfold jobText
    rw [h.1]
    congr 2
    cases hr : j.requirement with
    | none =>
      rw [hr] at h
      cases hr' : j'.requirement with
      | none => rfl
      | some r' => rw [hr'] at h; simp at h
    | some r =>
      rw [hr] at h
      cases hr' : j'.requirement with
      | none => rw [hr'] at h; simp at h
      | some r' => rw [hr'] at h; simpa using h.2

theorem jobText_oneLine (T : Texts N U) {j : Job N U} (hj : PlainJob T j) : '\n' ∉ jobText T j := by
  unfold jobText
  intro h
  rcases List.mem_append.1 h with h | h
  · exact (kindText_plain _).2 h
  · rcases List.mem_cons.1 h with h | h
    · revert h; decide
    · cases hr : j.requirement with
      | none =>
        rw [hr] at h
        have h : '\n' ∈ "None".toList := h
        revert h; decide
      | some r => rw [hr] at h; exact hj.oneLine r hr h

theorem linesOf_plain {a : List Char} (h : '\n' ∉ a) : linesOf a = [a] := by
  induction a with
  | nil => rfl
  | cons c t ih =>
    have hc : c ≠ '\n' := fun e => h (by simp [e])
    rw [linesOf, if_neg hc, ih (fun k => h (by simp [k]))]

theorem linesOf_cut {a b : List Char} (h : '\n' ∉ a) : linesOf (a ++ '\n' :: b) = a :: linesOf b := by
  induction a with
  | nil => simp [linesOf]
  | cons c t ih =>
    have hc : c ≠ '\n' := fun e => h (by simp [e])
    rw [List.cons_append, linesOf, if_neg hc, ih (fun k => h (by simp [k]))]

theorem linesOf_join : ∀ {xs : List (List Char)}, xs ≠ [] → (∀ x ∈ xs, '\n' ∉ x) → linesOf (joinWith ['\n'] xs) = xs
  | [], h, _ => absurd rfl h
  | [x], _, hx => linesOf_plain (hx x (by simp))
  | x :: y :: ys, _, hx => by
    rw [joinWith, List.append_assoc, List.singleton_append, linesOf_cut (hx x (by simp)),
      linesOf_join (by simp) (fun z hz => hx z (by simp [hz]))]

/-- C99: the text of a hint consists of the heading and one line for each of the conflicting jobs, in their order: four blanks,
what is to be done, a blank and the requirement. -/
theorem C99_lines (T : Texts N U) {jobs : List (Job N U)} (hne : jobs ≠ []) (h : ∀ j ∈ jobs, PlainJob T j) :
    linesOf (hintText T jobs) =
      "The following jobs are conflicting:".toList :: jobs.map (fun j => "    ".toList ++ jobLine T j) := by
  simp only [← jobText_eq]
  unfold hintText
  rw [linesOf_cut (by decide +kernel), linesOf_join (by simpa using hne)]
  intro x hx
  obtain ⟨j, hj, rfl⟩ := List.mem_map.1 hx
  intro hm
  rcases List.mem_append.1 hm with hm | hm
  · revert hm; decide
  · exact jobText_oneLine T (h j hj) hm

/-- C99: so it cannot be misread: two lists of jobs have the same text exactly if they ask for the same things in the same
order, with requirements that are printed alike. -/
theorem C99_injective (T : Texts N U) {jobs jobs' : List (Job N U)} (hne : jobs ≠ []) (hne' : jobs' ≠ [])
    (h : ∀ j ∈ jobs, PlainJob T j) (h' : ∀ j ∈ jobs', PlainJob T j) :
    hintText T jobs = hintText T jobs' ↔ jobs.map (seenJob T) = jobs'.map (seenJob T) := by
  have key : ∀ {l l' : List (Job N U)}, (∀ j ∈ l, PlainJob T j) → (∀ j ∈ l', PlainJob T j) →
      (l.map (fun j => "    ".toList ++ jobText T j) = l'.map (fun j => "    ".toList ++ jobText T j) ↔
        l.map (seenJob T) = l'.map (seenJob T)) := by
    intro l
    induction l with
    | nil => intro l' _ _; cases l' <;> simp
    | cons j l ih =>
      intro l' hl hl'
      cases l' with
      | nil => simp
      | cons j' l' =>
        simp only [List.map_cons, List.cons.injEq, List.append_cancel_left_eq]
        rw [jobText_inj T (hl j (by simp)) (hl' j' (by simp)),
          ih (fun x hx => hl x (by simp [hx])) (fun x hx => hl' x (by simp [hx]))]
  constructor
  · intro e
    have := congrArg linesOf e
    rw [C99_lines T hne h, C99_lines T hne' h'] at this
    simp only [← jobText_eq, List.cons.injEq, true_and] at this
    exact (key h h').1 this
  · intro e
    have := (key h h').2 e
    unfold hintText
    rw [this]

end

section
variable {N S U : Type} [LinearOrder N] [DecidableEq S] [LinearOrder U] [Syntax S U]
variable {rs : List (Repository N S U)} {s : DependencySolver N S U}

/-- C99: the text of the hint that solve_with_hint raises lists jobs that cannot all be satisfied, but all of them are needed for
that; if no requirement of the request is printed with a line feed, and only upgrades have none, each has its line. -/
theorem C99_solve_with_hint (T : Texts N U) (hs : SolverFor rs s) {o : Orders} {o' : List (Job N U) → Orders} {q : Request N U}
    {u : Sat.UnsatInfo} {jobs : List (Job N U)} (h : s.solveWithHint o o' q = .error (.hint u jobs))
    (hq : ∀ j ∈ effectiveJobs s q, PlainJob T j) :
    linesOf (hintText T jobs) =
      "The following jobs are conflicting:".toList :: jobs.map (fun j => "    ".toList ++ jobLine T j) ∧
    (∀ j ∈ jobs, j ∈ effectiveJobs s q) ∧ ¬ CanSatisfy rs s q.modifiers jobs ∧
    ∀ l : List (Job N U), l.Subperm jobs → l.length < jobs.length → CanSatisfy rs s q.modifiers l := by
  obtain ⟨h1, h2, h3⟩ := C50_hint_is_minimal hs h
  refine ⟨C99_lines T ?_ (fun j hj => hq j (h1.subset hj)), fun j hj => h1.subset hj, h2, h3⟩
  rintro rfl
  exact h2 (canSatisfy_nil rs s q.modifiers)
end

namespace SolveExample
open Verif.Pkg.Example Verif.Solve.Example

/-- requirements printed as the name, a letter -/
def letters : Texts Nat Nat :=
  { name := fun n => [Char.ofNat (97 + n)]
    version := fun _ => []
    requirement := fun r => [Char.ofNat (97 + r.name)] }

theorem plain_install (n : Nat) (h : Char.ofNat (97 + n) ≠ '\n') : PlainJob letters (install (req n)) :=
  ⟨by simp [install], fun r hr => by cases hr; simpa [letters, req] using h.symm⟩

/-- the hypotheses of C99 can be met: the hint of the example of C50, as it is printed -/
example : ∃ u jobs, (solver inst remote).solveWithHint insertionOrder (fun _ => insertionOrder)
      (request [install (req 3), install (req 1), install (req 5)]) = .error (.hint u jobs) ∧
    hintText letters jobs = "The following jobs are conflicting:\n    install d\n    install f".toList ∧
    (∀ j ∈ effectiveJobs (solver inst remote) (request [install (req 3), install (req 1), install (req 5)]),
      PlainJob letters j) := by
  obtain ⟨u, hu⟩ := hintOf_some example_hint
  refine ⟨u, _, hu, by decide +kernel, ?_⟩
  intro j hj
  have hj : j ∈ [install (req 3), install (req 1), install (req 5)] := hj
  simp only [List.mem_cons, List.not_mem_nil, or_false] at hj
  rcases hj with rfl | rfl | rfl
  · exact plain_install 3 (by decide)
  · exact plain_install 1 (by decide)
  · exact plain_install 5 (by decide)

/-- an upgrade is printed as "upgrade None", unlike the installation of a package called None -/
example : jobText letters ⟨none, .upgrade⟩ = "upgrade None".toList ∧
    jobText letters (install (req 3)) = "install d".toList := by decide +kernel

end SolveExample

end Verif.Props
