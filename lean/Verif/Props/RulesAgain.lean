import Verif.Rules.AgainLemmas
import Verif.Props.RulesGen
/-
C128: a RulesGenerator that is asked for its rules more than once.
-/
set_option linter.unusedSectionVars false
namespace Verif.Props
open Verif Verif.Pkg Verif.Rules Verif.Sat

variable {N S U : Type} [LinearOrder N] [DecidableEq S] [LinearOrder U] [Syntax S U]

/-- C128: whatever rules the generator has already, `iter_rules` raises what a new generator would raise, or returns the
rules that were there and behind them, in order, those of a new generator that have other literals. -/
theorem C128_again (strict : Bool) (pool : Pool N S U) (jobs : List (Job N U)) (installed : Dict Nat (Package N S U))
    (kept : List (Rule N U)) :
    (∃ e, iterRules strict pool jobs installed = .error e ∧ iterRulesAgain strict pool jobs installed kept = .error e) ∨
    (∃ g, iterRules strict pool jobs installed = .ok g ∧ iterRulesAgain strict pool jobs installed kept =
      .ok ⟨kept ++ g.rules.filter (fun r => decide (r.literals ∉ kept.map Rule.literals)), g.added⟩) := by
  have h := onto_iterRules (kept := kept) strict pool jobs installed
  generalize iterRules strict pool jobs installed = x at h
  generalize iterRulesAgain strict pool jobs installed kept = y at h
  cases h with
  | error e => exact Or.inl ⟨e, rfl, rfl⟩
  | @ok a b h =>
    obtain ⟨br, ba⟩ := b
    obtain ⟨h1, h2⟩ := h
    simp only [Onto, behind] at h1 h2
    subst h1 h2
    exact Or.inr ⟨a, rfl, rfl⟩

/-- the first call is that of C36-C39 -/
theorem C128_first (strict : Bool) (pool : Pool N S U) (jobs : List (Job N U)) (installed : Dict Nat (Package N S U)) :
    iterRulesAgain strict pool jobs installed [] = iterRules strict pool jobs installed := rfl

/-- C128: as long as the pool and the request do not change, each call returns what the first one returned. -/
theorem C128_same_every_time (strict : Bool) (pool : Pool N S U) (jobs : List (Job N U))
    (installed : Dict Nat (Package N S U)) (n : Nat) :
    iterRulesCalls strict installed (List.replicate (n + 1) (pool, jobs)) [] =
      (iterRules strict pool jobs installed).map Gen.rules := by
  rw [List.replicate_succ]
  unfold iterRulesCalls
  rw [C128_first]
  cases hg : iterRules strict pool jobs installed with
  | error e => rfl
  | ok g =>
    change iterRulesCalls strict installed (List.replicate n (pool, jobs)) g.rules = .ok g.rules
    induction n with
    | zero => rfl
    | succ n ih =>
      rw [List.replicate_succ]
      unfold iterRulesCalls
      rcases C128_again strict pool jobs installed g.rules with ⟨e, h, -⟩ | ⟨g', h, h'⟩
      · rw [hg] at h; cases h
      · rw [hg] at h
        cases h
        have hf : g.rules.filter (fun r => decide (r.literals ∉ g.rules.map Rule.literals)) = [] := by
          rw [List.filter_eq_nil_iff]
          intro r hr
          simp only [decide_eq_true_eq, not_not]
          exact List.mem_map.2 ⟨r, hr, rfl⟩
        rw [hf, List.append_nil] at h'
        rw [h']
        exact ih

/-- after calls with one pool, the rules are those of the calls -/
theorem calls_rules {strict : Bool} {pool : Pool N S U} {installed : Dict Nat (Package N S U)} :
    ∀ {requests : List (List (Job N U))} {kept rules : List (Rule N U)},
    iterRulesCalls strict installed (requests.map (fun js => (pool, js))) kept = .ok rules →
    (∀ l ∈ kept.map Rule.literals, l ∈ rules.map Rule.literals) ∧
    (∀ js ∈ requests, ∃ g, iterRules strict pool js installed = .ok g ∧
      ∀ l ∈ g.rules.map Rule.literals, l ∈ rules.map Rule.literals) ∧
    (∀ l ∈ rules.map Rule.literals, l ∈ kept.map Rule.literals ∨
      ∃ js ∈ requests, ∃ g, iterRules strict pool js installed = .ok g ∧ l ∈ g.rules.map Rule.literals) := by
  intro requests
  induction requests with
  | nil =>
    intro kept rules h
    cases h
    exact ⟨fun _ h => h, by simp, fun l h => Or.inl h⟩
  | cons js requests ih =>
    intro kept rules h
    rw [List.map_cons] at h
    unfold iterRulesCalls at h
    rcases C128_again strict pool js installed kept with ⟨e, -, h'⟩ | ⟨g, hg, h'⟩
    · rw [h'] at h; cases h
    · rw [h'] at h
      obtain ⟨h1, h2, h3⟩ := ih h
      have hk : ∀ l, l ∈ (kept ++ g.rules.filter (fun r => decide (r.literals ∉ kept.map Rule.literals))).map Rule.literals ↔
          l ∈ kept.map Rule.literals ∨ l ∈ g.rules.map Rule.literals := by
        intro l
        rw [List.map_append, List.mem_append]
        constructor
        · rintro (k | k)
          · exact Or.inl k
          · obtain ⟨r, hr, e⟩ := List.mem_map.1 k
            exact Or.inr (List.mem_map.2 ⟨r, (List.mem_filter.1 hr).1, e⟩)
        · intro k
          by_cases hl : l ∈ kept.map Rule.literals
          · exact Or.inl hl
          · rcases k with k | k
            · exact Or.inl k
            · obtain ⟨r, hr, e⟩ := List.mem_map.1 k
              exact Or.inr (List.mem_map.2 ⟨r, List.mem_filter.2 ⟨hr, by rw [e]; simpa using hl⟩, e⟩)
      refine ⟨fun l hl => h1 l ((hk l).2 (Or.inl hl)), ?_, ?_⟩
      · intro js' hjs'
        rcases List.mem_cons.1 hjs' with rfl | hjs'
        · exact ⟨g, hg, fun l hl => h1 l ((hk l).2 (Or.inr hl))⟩
        · exact h2 js' hjs'
      · intro l hl
        rcases h3 l hl with k | ⟨js', hjs', g', hg', k⟩
        · rcases (hk l).1 k with k | k
          · exact Or.inl k
          · exact Or.inr ⟨js, by simp, g, hg, k⟩
        · exact Or.inr ⟨js', by simp [hjs'], g', hg', k⟩

section
variable {rs : List (Repository N S U)} {mods : Option (Modifiers N)} {pool : Pool N S U} (hb : Built rs mods pool)
  {jobs : List (Job N U)} {earlier : List (List (Job N U))} {installed : Dict Nat (Package N S U)} {strict : Bool}
  {rules : List (Rule N U)}
include hb

/-- C128, the part that holds: if the pool does not change and jobs are only added to the request between the calls, the
rules that the last call returns are as good as those of a new generator: they are satisfied by every valid installation
for the request as it is now (C36), they have all rules of a new generator (so that C37 applies), and they can be satisfied
exactly if there is a valid installation. -/
theorem C128_growing_request_partial (hinst : InstalledIds pool installed) (hj : ∀ js ∈ earlier, js ⊆ jobs)
    (h : iterRulesCalls strict installed ((earlier ++ [jobs]).map (fun js => (pool, js))) [] = .ok rules) :
    (∀ I, ValidInstall (allPackages rs) mods (InstalledSet installed) jobs I → ∀ m : Nat → Bool,
      (∀ p i, pool.packageId p = .ok i → (m i = true ↔ I p.key)) → Sat m (rules.map Rule.literals)) ∧
    (∃ g, iterRules strict pool jobs installed = .ok g ∧ ∀ l ∈ g.rules.map Rule.literals, l ∈ rules.map Rule.literals) ∧
    (Satisfiable (rules.map Rule.literals) ↔
      ∃ I, ValidInstall (allPackages rs) mods (InstalledSet installed) jobs I) := by
  obtain ⟨-, h2, h3⟩ := calls_rules h
  have sound : ∀ I, ValidInstall (allPackages rs) mods (InstalledSet installed) jobs I → ∀ m : Nat → Bool,
      (∀ p i, pool.packageId p = .ok i → (m i = true ↔ I p.key)) → Sat m (rules.map Rule.literals) := by
    intro I hI m hm l hl
    rcases h3 l hl with k | ⟨js, hjs, g, hg, k⟩
    · simp at k
    · have hsub : js ⊆ jobs := by
        rcases List.mem_append.1 hjs with hjs | hjs
        · exact hj js hjs
        · rw [List.mem_singleton.1 hjs]; exact fun _ h => h
      exact C36_rules_are_sound hb hinst hg I ⟨hI.consistent, fun j hj' => hI.jobs j (hsub hj')⟩ m hm l k
  obtain ⟨g, hg, hsub⟩ := h2 jobs (by simp)
  refine ⟨sound, ⟨g, hg, hsub⟩, ?_, ?_⟩
  · rintro ⟨m, hm⟩
    exact ⟨_, C37_rules_are_complete hb hinst hg m (fun l hl => hm l (hsub l hl))⟩
  · rintro ⟨I, hI⟩
    classical
    refine ⟨fun i => decide (∃ p, pool.packageId p = .ok i ∧ I p.key), ?_⟩
    refine sound I hI _ ?_
    intro p i hi
    rw [decide_eq_true_eq]
    constructor
    · rintro ⟨q, hq, hI⟩
      rw [hb.ok.ids.packageId_inj hi hq]
      exact hI
    · intro hp
      exact ⟨p, hi, hp⟩

end

/-! ### non-vacuity and violation -/
namespace RulesAgainExample
open Verif.Pkg.Example RulesExample

/-- 5-1 depends on 4, which comes with a repository that is added to the pool after the first call -/
def first : Repository Nat Str Nat := Repository.ofList [pkg 0 5 1 [dep 4]]
def second : Repository Nat Str Nat := Repository.ofList [pkg 1 4 1]
def before : Pool Nat Str Nat := (Pool.addRepositories [first] (Pool.empty none)).1
def after : Pool Nat Str Nat := (Pool.addRepositories [first, second] (Pool.empty none)).1

/-- C128 fails when the pool has grown between two calls: the rules of the second call cannot be satisfied, although the
request can; the rule which says that 5-1 cannot be installed has stayed. -/
theorem C128_violated :
    (iterRulesCalls false [] [(before, [install 5]), (after, [install 5])] []).map (List.map Rule.literals) =
      .ok [[-1], [1], [-1, 2]] ∧
    ¬ Satisfiable [[-1], [1], [-1, 2]] ∧
    (iterRules false after [install 5] []).map (fun g => g.rules.map Rule.literals) = .ok [[-1, 2], [1]] ∧
    Satisfiable [[-1, 2], [1]] := by
  refine ⟨by rfl, ?_, by rfl, ?_⟩
  · rintro ⟨m, hm⟩
    have h1 := hm [-1] (by simp)
    have h2 := hm [1] (by simp)
    simp [SatC, litTrue] at h1 h2
    rw [h2] at h1
    cases h1
  · refine ⟨fun _ => true, ?_⟩
    unfold Sat SatC litTrue
    decide +kernel

/-- C128 fails likewise when the modifiers of the pool were changed: 6-1 depends on 4 ≥ 2, which allow_any relaxes -/
def third : Repository Nat Str Nat := Repository.ofList [pkg 0 4 1, pkg 0 6 1 [depc 4 (.geq (v 2))]]
def plain : Pool Nat Str Nat := (Pool.addRepositories [third] (Pool.empty none)).1
def relaxed : Pool Nat Str Nat := { plain with modifiers := some { Modifiers.empty with allowAny := [4] } }
theorem C128_violated_modifiers :
    (iterRulesCalls false [] [(plain, [install 6]), (relaxed, [install 6])] []).map (List.map Rule.literals) =
      .ok [[-2], [2], [-2, 1]] ∧
    (iterRules false relaxed [install 6] []).map (fun g => g.rules.map Rule.literals) = .ok [[-2, 1], [2]] := by
  exact ⟨by rfl, by rfl⟩

/-- a request that grows -/
example : (iterRulesCalls false installed [(pool, [install 3]), (pool, [install 3, install 1])] []).map
      (List.map Rule.literals) =
    .ok [[-5], [5], [-4, -3], [-6, -3], [-6, -4], [-1, 3, 4, 6], [-2, -1], [-2, 4], [-5, -2], [1, 2]] := by rfl
example (rules) (h : iterRulesCalls false installed (([[install 3]] ++ [[install 3, install 1]]).map (fun js => (pool, js))) [] =
    .ok rules) : Satisfiable (rules.map Rule.literals) ↔
      ∃ I, ValidInstall (allPackages [remote, inst]) none (InstalledSet installed) [install 3, install 1] I :=
  (C128_growing_request_partial built installedIds (by simp) h).2.2

end RulesAgainExample
end Verif.Props
