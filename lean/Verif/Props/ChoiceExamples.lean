import Verif.Props.Choice
/-
Concrete cases for C84, C85 and for C79 with soft updates.
-/
set_option linter.unusedSectionVars false
namespace Verif.Props
open Verif Verif.Pkg Verif.Solve Verif.Rules

namespace ChoiceExample
open Verif.Pkg.Example Verif.Solve.Example Verif.Solve.Check SolveExample MonotoneExample

/-! ### C84: 3-1 conflicts with 1, 3-2 with 2; 1-1 and 2-2 are installed. To install 3, the older one of them is kept. -/

def remote84 : List P := [pkg 0 3 1 [] [dep 1], pkg 0 3 2 [] [dep 2]]
def inst84 : List P := [pkg 9 1 1, pkg 9 2 2]

theorem solved84 : solved ((solver inst84 remote84).solve insertionOrder (request [install (req 3)])) =
    some (.ok ([.remove (pkg 9 2 2), .install (pkg 0 3 2 [] [dep 2])],
      [.remove (pkg 9 2 2), .install (pkg 0 3 2 [] [dep 2])])) := by decide +kernel

theorem preferred84 {k : PKey Nat Str Nat} (h : InstalledKeys (solver inst84 remote84) k) :
    Preferred (repos inst84 remote84) (solver inst84 remote84) (request [install (req 3)]) k :=
  ⟨h, by
    rw [effectiveJobs_plain _ (by decide +kernel)]
    rintro ⟨j, hj, hk, -⟩
    simp [request] at hj
    subst hj
    simp [install] at hk⟩

example {I : PKey Nat Str Nat → Prop} (hI : Solves (repos inst84 remote84) (solver inst84 remote84) (request [install (req 3)]) I)
    (h1 : I (pkg 9 1 1).key) : ¬ I (pkg 9 2 2).key := by
  obtain ⟨t, ht, hops⟩ := solved_ok solved84
  refine C84_given_up_only_if_necessary (solverFor (by decide +kernel) (by decide +kernel)) ht
    (preferred84 (by rw [installedKeys_eq]; decide +kernel)) (by rw [result_eq, hops]; decide +kernel) hI ?_
  intro k' hk' hr _
  have := hk'.1
  rw [installedKeys_eq] at this
  rw [result_eq, hops] at hr
  have hall : ∀ k ∈ (solver inst84 remote84).installed.iter.map Package.key,
    k ∈ applyList [.remove (pkg 9 2 2), .install (pkg 0 3 2 [] [dep 2])] ((solver inst84 remote84).installed.iter.map Package.key) →
    k = (pkg 9 1 1).key := by decide +kernel
  rw [hall k' this hr]
  exact h1

/-- C84: the installation `I` of the theorem keeps 1-1, as the transaction does -/
example : ∃ t, (solver inst84 remote84).solve insertionOrder (request [install (req 3)]) = .ok t ∧
    ∀ k, Preferred (repos inst84 remote84) (solver inst84 remote84) (request [install (req 3)]) k →
      k ∈ [(pkg 9 1 1).key, (pkg 0 3 2 [] [dep 2]).key] → Result (solver inst84 remote84) t k := by
  obtain ⟨t, ht, hops⟩ := solved_ok solved84
  refine ⟨t, ht, C84_kept_set_is_maximal (solverFor (by decide +kernel) (by decide +kernel)) ht
    (I := Of [(pkg 9 1 1).key, (pkg 0 3 2 [] [dep 2]).key]) ?_ ?_⟩
  · unfold Solves
    decide +kernel
  · rintro k - hr
    rw [result_eq, hops] at hr
    have : ∀ k ∈ applyList [.remove (pkg 9 2 2), .install (pkg 0 3 2 [] [dep 2])]
      ((solver inst84 remote84).installed.iter.map Package.key), k ∈ [(pkg 9 1 1).key, (pkg 0 3 2 [] [dep 2]).key] := by decide +kernel
    exact this k hr

/-- in another order of the installed versions it is the other one: here 2-1 is kept and 1-2 given up -/
example : solved ((solver [pkg 9 1 2, pkg 9 2 1] remote84).solve insertionOrder (request [install (req 3)])) =
    some (.ok ([.remove (pkg 9 1 2), .install (pkg 0 3 1 [] [dep 1])],
      [.remove (pkg 9 1 2), .install (pkg 0 3 1 [] [dep 1])])) := by decide +kernel

/-- C84: if nothing has to be given up, nothing is; the installation `I` of the theorem is 1-1, 2-1, 4-1 and 5-1 -/
example : ∃ t, (solver inst remote).solve insertionOrder (request [install (req 5)]) = .ok t ∧
    ∀ k, InstalledKeys (solver inst remote) k → Result (solver inst remote) t k := by
  have h : solved ((solver inst remote).solve insertionOrder (request [install (req 5)])) =
    some (.ok ([.install (pkg 0 5 1 [] [dep 3])], [.install (pkg 0 5 1 [] [dep 3])])) := by decide +kernel
  obtain ⟨t, ht, -⟩ := solved_ok h
  refine ⟨t, ht, fun k hk => C84_kept_if_possible forExample ht
    (I := Of ((solver inst remote).installed.iter.map Package.key ++ [(pkg 0 5 1 [] [dep 3]).key])) ?_ ?_ k ⟨hk, ?_⟩⟩
  · unfold Solves
    decide +kernel
  · rintro k' ⟨hk', -⟩
    rw [installedKeys_eq] at hk'
    exact List.mem_append_left _ hk'
  · rw [effectiveJobs_plain _ (by decide +kernel)]
    rintro ⟨j, hj, hkind, -⟩
    simp [request] at hj
    subst hj
    simp [install] at hkind

/-! ### C85: 1-3 needs 5, which does not exist; 1-2 conflicts with 2, which is installed; so 1-1 is installed -/

def remote85 : List P := [pkg 0 1 1, pkg 0 1 2 [] [dep 2], pkg 0 1 3 [dep 5]]

theorem solved85 : solved ((solver [pkg 9 2 1] remote85).solve insertionOrder (request [install (req 1)])) =
    some (.ok ([.install (pkg 0 1 1)], [.install (pkg 0 1 1)])) := by decide +kernel

theorem twins85 : TwinsAlike (allPackages (repos [pkg 9 2 1] remote85)) := by
  have h : ∀ p ∈ allPackages (repos [pkg 9 2 1] remote85), ∀ q ∈ allPackages (repos [pkg 9 2 1] remote85),
    SameNameVersion p.key q.key → p = q := by decide +kernel
  intro p hp q hq hv
  rw [h p hp q hq hv]
  exact ⟨rfl, rfl, fun n => Iff.rfl⟩

theorem solver85 : SolverFor (repos [pkg 9 2 1] remote85) (solver [pkg 9 2 1] remote85) :=
  solverFor (by decide +kernel) (by decide +kernel)

example {I : PKey Nat Str Nat → Prop}
    (hI : Solves (repos [pkg 9 2 1] remote85) (solver [pkg 9 2 1] remote85) (request [install (req 1)]) I)
    (h2 : I (pkg 9 2 1).key) : ¬ HasVersion I (pkg 0 1 2 [] [dep 2]).key := by
  obtain ⟨t, ht, hops⟩ := solved_ok solved85
  have he : effectiveJobs (solver [pkg 9 2 1] remote85) (request [install (req 1)]) = [install (req 1)] :=
    effectiveJobs_plain _ (by decide +kernel)
  refine C85_newest_possible solver85 twins85 ht (j := install (req 1)) (by rw [he]; simp) (Or.inl rfl) (r := req 1) rfl
    (by decide +kernel) (by decide +kernel) ?_ hI ?_ ?_
  · rintro ⟨k, hk, hv⟩
    rw [result_eq, hops] at hk
    have : ∀ k ∈ applyList [.install (pkg 0 1 1)] ((solver [pkg 9 2 1] remote85).installed.iter.map Package.key),
      ¬ SameNameVersion k (pkg 0 1 2 [] [dep 2]).key := by decide +kernel
    exact this k hk hv
  · rintro k ⟨hk, -⟩ -
    rw [installedKeys_eq] at hk
    have : ∀ k ∈ (solver [pkg 9 2 1] remote85).installed.iter.map Package.key, k = (pkg 9 2 1).key := by decide +kernel
    rw [this k hk]
    exact ⟨_, h2, rfl, rfl⟩
  · intro j' hj' p' hr hle hv
    rw [he, List.mem_singleton] at hj'
    subst hj'
    obtain ⟨k, hk, hkv⟩ := hv
    rw [result_eq, hops] at hk
    obtain ⟨r, hr1, hr2⟩ := hr
    rw [if_neg (by decide)] at hr2
    cases hr1
    obtain ⟨hp', hm⟩ := hr2
    have : ∀ p' ∈ allPackages (repos [pkg 9 2 1] remote85), MeetsJob (req 1) p' → (pkg 0 1 2 [] [dep 2]).version ≤ p'.version →
      ∀ k ∈ applyList [.install (pkg 0 1 1)] ((solver [pkg 9 2 1] remote85).installed.iter.map Package.key),
      ¬ SameNameVersion k p'.key := by decide +kernel
    exact absurd hkv (this p' hp' hm hle k hk)

/-- C85 for one job: the installation `I` of the theorem is 2-1 and 1-1 -/
example : ∃ t, (solver [pkg 9 2 1] remote85).solve insertionOrder (request [install (req 1)]) = .ok t ∧
    ∃ p' ∈ allPackages (repos [pkg 9 2 1] remote85), MeetsJob (req 1) p' ∧ (pkg 0 1 1).version ≤ p'.version ∧
      HasVersion (Result (solver [pkg 9 2 1] remote85) t) p'.key := by
  obtain ⟨t, ht, -⟩ := solved_ok solved85
  refine ⟨t, ht, C85_newest_for_one_job (j := install (req 1)) solver85 twins85 ht rfl (Or.inl rfl) (r := req 1) rfl
    (I := Of [(pkg 9 2 1).key, (pkg 0 1 1).key]) ?_ ?_ (p := pkg 0 1 1) (by decide +kernel) (by decide +kernel) (by decide +kernel)⟩
  · unfold Solves
    decide +kernel
  · rintro k ⟨hk, -⟩ -
    rw [installedKeys_eq] at hk
    have : ∀ k ∈ (solver [pkg 9 2 1] remote85).installed.iter.map Package.key, k = (pkg 9 2 1).key := by decide +kernel
    rw [this k hk]
    exact ⟨_, List.mem_cons_self, rfl, rfl⟩

/-! ### C79 with soft updates: 1-1 and 2-3 are installed; 1-2 is available, 2-4 needs 5, which does not exist -/

def inst79 : List P := [pkg 0 1 1, pkg 0 2 3]
def remote79 : List P := [pkg 0 1 1, pkg 0 1 2, pkg 0 2 3, pkg 0 2 4 [dep 5]]
def request79 : Request Nat Nat := request [softUpdate (req 1), softUpdate (req 2)]

theorem noTies79 : NoTies (repos inst79 remote79) request79 := by
  intro j hj j' hj' _ _ r r' hr hr' p hp p' hp' hm hm' hv
  have : ∀ p ∈ allPackages (repos inst79 remote79), ∀ p' ∈ allPackages (repos inst79 remote79), p.version = p'.version →
    p.key = p'.key := by decide +kernel
  exact this p hp p' hp' hv

example (o' : Orders) : (∀ v, (solver [pkg 0 1 2, pkg 0 2 3] remote79).solve o' request79 ≠ .error (.sat (.satisfiability v))) ∧
    ∀ t', (solver [pkg 0 1 2, pkg 0 2 3] remote79).solve o' request79 = .ok t' → t'.operations = [] := by
  obtain ⟨t, ht, -, ha⟩ := after (inst := inst79) (remote := remote79) (inst' := [pkg 0 1 2, pkg 0 2 3]) (prune := true)
    (jobs := [softUpdate (req 1), softUpdate (req 2)]) (ops := [.remove (pkg 0 1 1), .install (pkg 0 1 2)])
    (pretty := [.update (pkg 0 1 2) (pkg 0 1 1)])
    (by decide +kernel) (by decide +kernel) (by decide +kernel) (by decide +kernel) (by decide +kernel) (by decide +kernel)
  exact C79_repeating_soft_updates_partial (rs' := repos [pkg 0 1 2, pkg 0 2 3] remote79) (q := request79)
    (solverFor (by decide +kernel) (by decide +kernel)) (solverFor (by decide +kernel) (by decide +kernel)) ht ha
    (by decide +kernel) noTies79 rfl (by decide +kernel) (by decide +kernel) (by decide +kernel) rfl (by decide +kernel)
    (by decide +kernel)

/-- the orders of sets and dicts, with the policy's set iterated in the other direction -/
def reversed : Orders := { insertionOrder with
  policy := fun _ l => l.reverse
  policyPerm := fun _ l => List.reverse_perm l }

/-- 1-2 conflicts with 2-2 -/
def remoteTie : List P := [pkg 0 1 1, pkg 0 2 1, pkg 0 1 2 [] [depc 2 (.equal (v 2))], pkg 0 2 2]

/-- C79 fails for soft updates if two packages that are asked for have the same version: 1-1 and 2-1 are installed, and only one
of 1-2 and 2-2 can be. The first run updates 1; the same request again, in another process, updates 2 and takes 1 back. -/
theorem C79_violated_soft :
    ∃ t, (solver [pkg 0 1 1, pkg 0 2 1] remoteTie).solve insertionOrder (request [softUpdate (req 1), softUpdate (req 2)]) = .ok t ∧
      After (repos [pkg 0 1 1, pkg 0 2 1] remoteTie) (solver [pkg 0 1 1, pkg 0 2 1] remoteTie) t
        (repos [pkg 0 1 2 [] [depc 2 (.equal (v 2))], pkg 0 2 1] remoteTie)
        (solver [pkg 0 1 2 [] [depc 2 (.equal (v 2))], pkg 0 2 1] remoteTie) ∧
      solved ((solver [pkg 0 1 2 [] [depc 2 (.equal (v 2))], pkg 0 2 1] remoteTie).solve reversed
        (request [softUpdate (req 1), softUpdate (req 2)])) =
        some (.ok ([.remove (pkg 0 2 1), .remove (pkg 0 1 2 [] [depc 2 (.equal (v 2))]), .install (pkg 0 1 1),
          .install (pkg 0 2 2)],
          [.update (pkg 0 1 1) (pkg 0 1 2 [] [depc 2 (.equal (v 2))]), .update (pkg 0 2 2) (pkg 0 2 1)])) := by
  obtain ⟨t, ht, -, ha⟩ := after (inst := [pkg 0 1 1, pkg 0 2 1]) (remote := remoteTie)
    (inst' := [pkg 0 1 2 [] [depc 2 (.equal (v 2))], pkg 0 2 1]) (prune := true)
    (jobs := [softUpdate (req 1), softUpdate (req 2)])
    (ops := [.remove (pkg 0 1 1), .install (pkg 0 1 2 [] [depc 2 (.equal (v 2))])])
    (pretty := [.update (pkg 0 1 2 [] [depc 2 (.equal (v 2))]) (pkg 0 1 1)])
    (by decide +kernel) (by decide +kernel) (by decide +kernel) (by decide +kernel) (by decide +kernel) (by decide +kernel)
  exact ⟨t, ht, ha, by decide +kernel⟩

end ChoiceExample
end Verif.Props
