import Verif.Rules.Valid
import Verif.Rules.Terminates
import Verif.Rules.Strict
import Verif.Pkg.Example
/-
Properties C36-C39 and C56: the rules generated from a pool, a request and the installed packages.
-/
set_option linter.unusedSectionVars false
namespace Verif.Props
open Verif Verif.Pkg Verif.Rules Verif.Sat

variable {N S U : Type} [LinearOrder N] [DecidableEq S] [LinearOrder U] [Syntax S U]

/-- `pool` is the pool of the repositories `rs`, with modifiers `m` (which may have been set afterwards) -/
def Built (rs : List (Repository N S U)) (m : Option (Modifiers N)) (pool : Pool N S U) : Prop :=
  ∃ m0 pool0, Pool.addRepositories rs (Pool.empty m0) = (pool0, none) ∧
    pool = { pool0 with
      modifiers := m }

/-- the packages of all the repositories, in order -/
def allPackages (rs : List (Repository N S U)) : List (Package N S U) := rs.flatMap Repository.iter

theorem Built.ok {rs : List (Repository N S U)} {m : Option (Modifiers N)} {pool : Pool N S U} (h : Built rs m pool) :
    pool.OK (allPackages rs) := by
  obtain ⟨m0, pool0, h1, rfl⟩ := h
  have := Pool.ok_addRepositories rs (pool := Pool.empty m0) (l := []) ⟨Pool.IdInv.empty m0, Pool.NameInv.empty m0⟩
    (by rw [h1])
  rw [h1, List.nil_append] at this
  exact this.setModifiers m

theorem Built.modifiers {rs : List (Repository N S U)} {m : Option (Modifiers N)} {pool : Pool N S U}
    (h : Built rs m pool) : pool.modifiers = m := by
  obtain ⟨m0, pool0, h1, rfl⟩ := h
  rfl

/-- `installed` maps the ids of the installed packages to the packages -/
def InstalledIds (pool : Pool N S U) (installed : Dict Nat (Package N S U)) : Prop :=
  ∀ e ∈ installed, pool.packageId e.2 = .ok e.1

/-- the installed packages, as a set -/
def InstalledSet (installed : Dict Nat (Package N S U)) (k : PKey N S U) : Prop := ∃ e ∈ installed, e.2.key = k

section
variable {rs : List (Repository N S U)} {mods : Option (Modifiers N)} {pool : Pool N S U} (hb : Built rs mods pool)
  {jobs : List (Job N U)} {installed : Dict Nat (Package N S U)} {strict : Bool} {g : Gen N U}
include hb

/-- C36: let `I` be a valid installation for the request. Then the assignment in which exactly the packages of `I` are
true satisfies every generated rule. -/
theorem C36_rules_are_sound (hinst : InstalledIds pool installed)
    (h : iterRules strict pool jobs installed = .ok g) (I : PKey N S U → Prop)
    (hI : ValidInstall (allPackages rs) mods (InstalledSet installed) jobs I) (m : Nat → Bool)
    (hm : ∀ p i, pool.packageId p = .ok i → (m i = true ↔ I p.key)) : Sat m (g.rules.map Rule.literals) := by
  have e := hb.modifiers
  subst e
  exact Run.rules_sound (R := ⟨pool, allPackages rs, jobs, installed⟩) hb.ok hinst hI hm h

/-- C37: an assignment that satisfies every generated rule gives a valid installation for the request, which consists of
the packages that are true and whose rules were generated. -/
theorem C37_rules_are_complete (hinst : InstalledIds pool installed)
    (h : iterRules strict pool jobs installed = .ok g) (m : Nat → Bool)
    (hs : Sat m (g.rules.map Rule.literals)) :
    ValidInstall (allPackages rs) mods (InstalledSet installed) jobs
      (fun k => ∃ p ∈ allPackages rs, p.key = k ∧ ∃ i ∈ g.added, pool.packageId p = .ok i ∧ m i = true) := by
  have e := hb.modifiers
  subst e
  exact Run.rules_complete (R := ⟨pool, allPackages rs, jobs, installed⟩) hb.ok hinst h hs

/-- C36 and C37 together: the rules can be satisfied exactly if there is a valid installation. -/
theorem C37_satisfiable_iff (hinst : InstalledIds pool installed) (h : iterRules strict pool jobs installed = .ok g) :
    Satisfiable (g.rules.map Rule.literals) ↔
      ∃ I, ValidInstall (allPackages rs) mods (InstalledSet installed) jobs I := by
  constructor
  · rintro ⟨m, hm⟩
    exact ⟨_, C37_rules_are_complete hb hinst h m hm⟩
  · rintro ⟨I, hI⟩
    classical
    refine ⟨fun i => decide (∃ p, pool.packageId p = .ok i ∧ I p.key), ?_⟩
    refine C36_rules_are_sound hb hinst h I hI _ ?_
    intro p i hi
    rw [decide_eq_true_eq]
    constructor
    · rintro ⟨q, hq, hI⟩
      rw [hb.ok.ids.packageId_inj hi hq]
      exact hI
    · intro hp
      exact ⟨p, hi, hp⟩

/-! ### C38 -/

/-- C38: rule generation terminates on every pool (in particular it does not run out of the number of turns that the
model grants), and raises only because of malformed constraints of a package or an id that is asked for a package that is
not in the pool (InvalidConstraint, ValueError, AssertionError, or what formatting the message raises), modifiers that do not apply to a conflict
(NotImplementedError), a job that no package provides (NoPackageFound), or, in strict mode, missing dependencies or
conflicts. -/
theorem C38_terminates (hj : ∀ j ∈ jobs, j.kind ≠ .upgrade ∧ j.requirement ≠ none) :
    match iterRules strict pool jobs installed with
    | .ok _ => True
    | .error e => e = .invalidConstraint ∨ e = .valueError ∨ e = .assertion ∨ e = .formatting ∨ e = .notImplemented ∨
        (strict = true ∧ (e = .missingInstallRequires ∨ e = .missingConflicts ∨ e = .typeError)) ∨
        (e = .noPackageFound ∧ ∃ j ∈ jobs, (j.kind = .install ∨ j.kind = .softUpdate) ∧
          ∀ r, j.requirement = some r → ∀ p ∈ allPackages rs, ¬ MeetsJob r p) := by
  cases h : iterRules strict pool jobs installed with
  | ok g => trivial
  | error e =>
    simp only
    rcases iterRules_err hb.ok hj h with hg | ⟨he, j, hj, r, hr, hk, hp⟩
    · rcases hg with hg | hg
      · unfold InputErr at hg; tauto
      · unfold StrictErr at hg; tauto
    · refine Or.inr (Or.inr (Or.inr (Or.inr (Or.inr (Or.inr ⟨he, j, hj, hk, ?_⟩)))))
      intro r' hr' p hp' hm
      rw [hr] at hr'
      cases hr'
      have := (Run.mem_jobProviders (R := ⟨pool, allPackages rs, jobs, installed⟩) hb.ok hp p).2 ⟨hp', hm⟩
      simp at this

/-- C38: no two rules have the same literals. -/
theorem C38_no_repetition (h : iterRules strict pool jobs installed = .ok g) :
    (g.rules.map Rule.literals).Nodup :=
  (Run.iterRules_good (R := ⟨pool, allPackages rs, jobs, installed⟩) hb.ok h).nodup

theorem sortBy_ne_nil {l : List Int} (h : l ≠ []) : sortBy id l ≠ [] := by
  intro e
  apply h
  have := length_sortBy (id : Int → Int) l
  rw [e] at this
  exact List.length_eq_zero_iff.1 this.symm

/-- C38: every rule has literals, in increasing order, and each of them denotes a package of the pool. -/
theorem C38_literals (h : iterRules strict pool jobs installed = .ok g) (rule : Rule N U) (hr : rule ∈ g.rules) :
    rule.literals ≠ [] ∧ rule.literals.Pairwise (· ≤ ·) ∧
      ∀ l ∈ rule.literals, l ≠ 0 ∧ ∃ p ∈ allPackages rs, pool.packageId p = .ok l.natAbs := by
  have hj := (Run.iterRules_good (R := ⟨pool, allPackages rs, jobs, installed⟩) hb.ok h).just rule hr
  have neg : ∀ (p : Package N S U) (i : Nat), pool.packageId p = .ok i →
      -(i : Int) ≠ 0 ∧ ∃ p ∈ allPackages rs, pool.packageId p = .ok (-(i : Int)).natAbs := by
    intro p i hi
    obtain ⟨h1, -, q, -, -, h2, h3⟩ := hb.ok.ids.packageId_spec hi
    refine ⟨by omega, q, h2, ?_⟩
    rw [Int.natAbs_neg, Int.natAbs_natCast]; exact h3
  have pos : ∀ (p : Package N S U) (i : Nat), pool.packageId p = .ok i →
      (i : Int) ≠ 0 ∧ ∃ p ∈ allPackages rs, pool.packageId p = .ok (i : Int).natAbs := by
    intro p i hi
    obtain ⟨h1, -, q, -, -, h2, h3⟩ := hb.ok.ids.packageId_spec hi
    exact ⟨by omega, q, h2, h3⟩
  have sorted : ∀ lits : List Int, (sortBy id lits).Pairwise (· ≤ ·) := fun lits => sortBy_sorted id lits
  cases hj with
  | requires ho ht hreq hc hne hi hids =>
    refine ⟨sortBy_ne_nil hb (by simp), sorted _, ?_⟩
    intro l hl
    simp only [mkRule, mem_sortBy, List.mem_cons] at hl
    rcases hl with rfl | hl
    · exact neg _ _ hi
    · rw [candidateIds_spec hids] at hl
      obtain ⟨d, -, -, j, hj, rfl⟩ := hl
      exact pos _ _ hj
  | broken ho ht hreq hc hi =>
    refine ⟨sortBy_ne_nil hb (by simp), sorted _, ?_⟩
    intro l hl
    simp only [mkRule, mem_sortBy, List.mem_cons, List.not_mem_nil, or_false] at hl
    subst hl
    exact neg _ _ hi
  | sameName ho hn hk hi hj =>
    refine ⟨sortBy_ne_nil hb (by simp), sorted _, ?_⟩
    intro l hl
    simp only [mkRule, mem_sortBy, List.mem_cons, List.not_mem_nil, or_false] at hl
    rcases hl with rfl | rfl
    · exact neg _ _ hi
    · exact neg _ _ hj
  | conflict ho ht hreq hc hq hk hi hj =>
    refine ⟨sortBy_ne_nil hb (by simp), sorted _, ?_⟩
    intro l hl
    simp only [mkRule, mem_sortBy, List.mem_cons, List.not_mem_nil, or_false] at hl
    rcases hl with rfl | rfl
    · exact neg _ _ hi
    · exact neg _ _ hj
  | @jobInstall j r ps ids hj hk hr hps hne hids =>
    refine ⟨sortBy_ne_nil hb ?_, sorted _, ?_⟩
    · intro e
      apply hne
      have := idsOfAll_length hids
      rw [e] at this
      exact List.length_eq_zero_iff.1 this.symm
    · intro l hl
      simp only [mkRule, mem_sortBy] at hl
      rw [idsOfAll_spec hids] at hl
      obtain ⟨d, -, j, hj, rfl⟩ := hl
      exact pos _ _ hj
  | jobRemove hj hk hr hps hp hi =>
    refine ⟨sortBy_ne_nil hb (by simp), sorted _, ?_⟩
    intro l hl
    simp only [mkRule, mem_sortBy, List.mem_cons, List.not_mem_nil, or_false] at hl
    subst hl
    exact neg _ _ hi
  | jobUpdate hj hk hr hps hp hi =>
    refine ⟨sortBy_ne_nil hb (by simp), sorted _, ?_⟩
    intro l hl
    simp only [mkRule, mem_sortBy, List.mem_cons, List.not_mem_nil, or_false] at hl
    subst hl
    exact pos _ _ hi

/-! ### C39 -/

/-- the last requirement of a rule of the package `p`: one of its dependencies, one of its conflicts, or the conflict with
packages of its own name -/
def OwnRequirement (p : Package N S U) (r : Requirement N U) : Prop :=
  (∃ t ∈ p.installRequires, fromConstraints .install t = .ok r) ∨
  (∃ t ∈ p.conflicts, fromConstraints .conflict t = .ok r) ∨ r = Requirement.ofName .conflict p.name

/-- C39: the rule of a job carries exactly the requirement of the job. A rule of a package `p` carries the chain of
requirements that leads from a job to `p`, followed by the requirement of `p` that the rule expresses; or nothing, and
then `p` is connected to an installed package. -/
theorem C39_trails (h : iterRules strict pool jobs installed = .ok g) (rule : Rule N U) (hr : rule ∈ g.rules) :
    if rule.reason.isJob then ∃ j ∈ jobs, ∃ r, j.requirement = some r ∧ rule.requirements = [r]
    else ∃ p i, pool.packageId p = .ok i ∧ -(i : Int) ∈ rule.literals ∧
      ((rule.requirements = [] ∧ FromInstalled (allPackages rs) mods (installed.map Prod.snd) p) ∨
        ∃ l r, rule.requirements = l ++ [r] ∧ Trail (allPackages rs) mods jobs l p ∧ OwnRequirement p r) := by
  have e := hb.modifiers
  subst e
  have hj := (Run.iterRules_good (R := ⟨pool, allPackages rs, jobs, installed⟩) hb.ok h).just rule hr
  have orig : ∀ (p : Package N S U) (reqs : Reqs N U) (req : Requirement N U),
      (Run.mk pool (allPackages rs) jobs installed).Orig reqs p → OwnRequirement p req →
      (((combine reqs req).getD [] = [] ∧
          FromInstalled (allPackages rs) pool.modifiers (installed.map Prod.snd) p) ∨
        ∃ l r, (combine reqs req).getD [] = l ++ [r] ∧ Trail (allPackages rs) pool.modifiers jobs l p ∧
          OwnRequirement p r) := by
    intro p reqs req ho hown
    cases reqs with
    | none => exact Or.inl ⟨rfl, ho⟩
    | some l => exact Or.inr ⟨l, req, rfl, ho, hown⟩
  cases hj with
  | @requires p reqs t req cands i ids ho ht hreq hc hne hi hids =>
    simp only [mkRule, Reason.isJob, Bool.false_eq_true, if_false, mem_sortBy]
    exact ⟨p, i, hi, by simp, orig p reqs req ho (Or.inl ⟨t, ht, hreq⟩)⟩
  | @broken p reqs t req i ho ht hreq hc hi =>
    simp only [mkRule, Reason.isJob, Bool.false_eq_true, if_false, mem_sortBy]
    exact ⟨p, i, hi, by simp, orig p reqs req ho (Or.inl ⟨t, ht, hreq⟩)⟩
  | @sameName p reqs q i j ho hn hk hi hj =>
    simp only [mkRule, Reason.isJob, Bool.false_eq_true, if_false, mem_sortBy]
    exact ⟨p, i, hi, by simp, orig p reqs _ ho (Or.inr (Or.inr rfl))⟩
  | @conflict p reqs t req cands q i j ho ht hreq hc hq hk hi hj =>
    simp only [mkRule, Reason.isJob, Bool.false_eq_true, if_false, mem_sortBy]
    exact ⟨p, i, hi, by simp, orig p reqs req ho (Or.inr (Or.inl ⟨t, ht, hreq⟩))⟩
  | @jobInstall j r ps ids hj hk hr' hps hne hids =>
    simp only [mkRule, Reason.isJob, if_true]
    exact ⟨j, hj, r, hr', rfl⟩
  | @jobRemove j r ps p i hj hk hr' hps hp hi =>
    simp only [mkRule, Reason.isJob, if_true]
    exact ⟨j, hj, r, hr', rfl⟩
  | @jobUpdate j r ps p i hj hk hr' hps hp hi =>
    simp only [mkRule, Reason.isJob, if_true]
    exact ⟨j, hj, r, hr', rfl⟩

omit hb in
theorem trail_head {avail : List (Package N S U)} {m : Option (Modifiers N)} {jobs : List (Job N U)}
    {l : List (Requirement N U)} {p : Package N S U} (h : Trail avail m jobs l p) :
    ∃ j ∈ jobs, ∃ r rest, j.requirement = some r ∧ l = r :: rest := by
  induction h with
  | job h1 h2 h3 h4 h5 => exact ⟨_, h1, _, [], h2, rfl⟩
  | dep h1 h2 h3 h4 h5 ih =>
    obtain ⟨j, k1, r, rest, k2, rfl⟩ := ih
    exact ⟨j, k1, r, _, k2, rfl⟩

/-- C39: the requirements of a rule, if any, begin with the requirement of a job. -/
theorem C39_starts_at_job (h : iterRules strict pool jobs installed = .ok g) (rule : Rule N U) (hr : rule ∈ g.rules)
    (hne : rule.requirements ≠ []) : ∃ j ∈ jobs, ∃ r rest, j.requirement = some r ∧ rule.requirements = r :: rest := by
  have := C39_trails hb h rule hr
  split at this
  · obtain ⟨j, h1, r, h2, h3⟩ := this
    exact ⟨j, h1, r, [], h2, h3⟩
  · obtain ⟨p, i, -, -, h1 | ⟨l, r, h1, h2, -⟩⟩ := this
    · exact absurd h1.1 hne
    · obtain ⟨j, k1, r', rest, k2, rfl⟩ := trail_head h2
      exact ⟨j, k1, r', rest ++ [r], k2, h1⟩

/-! ### C56 -/

/-- C56: in strict mode the rules are those of the default mode, or the generator raises: MissingInstallRequires or
MissingConflicts for a dependency or conflict of a package that a job asks for which no package provides; or (and this is
not documented) TypeError, for such a dependency or conflict of a package that is only there because of the installed
packages. -/
theorem C56_strict_mode_partial : iterRules true pool jobs installed = iterRules false pool jobs installed ∨
    ∃ e, iterRules true pool jobs installed = .error e ∧
      Why (allPackages rs) mods jobs (installed.map Prod.snd) e := by
  have e := hb.modifiers
  subst e
  exact Run.iterRules_same (R := ⟨pool, allPackages rs, jobs, installed⟩) hb.ok

/-- C56 with nothing installed: only the documented exceptions. -/
theorem C56_nothing_installed_partial (hi : installed = []) :
    iterRules true pool jobs installed = iterRules false pool jobs installed ∨
    (iterRules true pool jobs installed = .error .missingInstallRequires ∧
      ∃ j ∈ jobs, ∃ r p, j.requirement = some r ∧ p ∈ allPackages rs ∧ MeetsJob r p ∧
        ∃ t ∈ p.installRequires, NobodyMeets (U := U) (allPackages rs) mods .install t) ∨
    (iterRules true pool jobs installed = .error .missingConflicts ∧
      ∃ j ∈ jobs, ∃ r p, j.requirement = some r ∧ p ∈ allPackages rs ∧ MeetsJob r p ∧
        ∃ t ∈ p.conflicts, NobodyMeets (U := U) (allPackages rs) mods .conflict t) := by
  have none_from : ∀ p, ¬ FromInstalled (allPackages rs) mods (installed.map Prod.snd) p := by
    intro p h
    subst hi
    induction h with
    | self h => simp at h
    | name h => simp at h
    | dep _ _ _ _ ih => exact ih
  have single : ∀ (r : Requirement N U) (p : Package N S U), Trail (allPackages rs) mods jobs [r] p →
      ∃ j ∈ jobs, j.requirement = some r ∧ p ∈ allPackages rs ∧ MeetsJob r p := by
    intro r p h
    have aux : ∀ l, Trail (allPackages rs) mods jobs l p → l = [r] →
        ∃ j ∈ jobs, j.requirement = some r ∧ p ∈ allPackages rs ∧ MeetsJob r p := by
      intro l hl
      cases hl with
      | job h1 h2 h3 h4 h5 => intro e; cases e; exact ⟨_, h1, h2, h4, h5⟩
      | dep h1 h2 h3 h4 h5 =>
        intro e
        obtain ⟨j, k1, r', rest, k2, rfl⟩ := trail_head h1
        simp at e
    exact aux _ h rfl
  rcases C56_strict_mode_partial hb (jobs := jobs) (installed := installed) with h | ⟨e, h, hw⟩
  · exact Or.inl h
  · rcases hw with ⟨rfl, p, r, h1, t, h2, h3⟩ | ⟨rfl, p, r, h1, t, h2, h3⟩ | ⟨rfl, p, h1, -⟩
    · obtain ⟨j, k1, k2, k3, k4⟩ := single r p h1
      exact Or.inr (Or.inl ⟨h, j, k1, r, p, k2, k3, k4, t, h2, h3⟩)
    · obtain ⟨j, k1, k2, k3, k4⟩ := single r p h1
      exact Or.inr (Or.inr ⟨h, j, k1, r, p, k2, k3, k4, t, h2, h3⟩)
    · exact absurd h1 (none_from p)

end

/-! ### Concrete cases -/

namespace RulesExample
open Verif.Pkg.Example

/-- remote: 1-1 depends on 2; 1-2 depends on 2 ≥ 2 and conflicts with 3; 2-1; 2-2; 3-1 depends on 4, which does not exist.
Installed: 2-1. -/
def remote : Repository Nat Str Nat := Repository.ofList
  [pkg 0 1 1 [dep 2], pkg 0 1 2 [depc 2 (.geq (v 2))] [dep 3], pkg 0 2 1, pkg 0 2 2, pkg 0 3 1 [dep 4]]
def inst : Repository Nat Str Nat := Repository.ofList [pkg 9 2 1]

def pool : Pool Nat Str Nat := (Pool.addRepositories [remote, inst] (Pool.empty none)).1

theorem built : Built [remote, inst] none pool := ⟨none, pool, rfl, rfl⟩

def install (n : Nat) : Job Nat Nat := ⟨some (Requirement.ofName .install n), .install⟩

def installed : Dict Nat (Package Nat Str Nat) := [(6, pkg 9 2 1)]

theorem installedIds : InstalledIds pool installed := by
  intro e he
  simp only [installed, List.mem_singleton] at he
  subst he
  rfl

/-- the rules: one per package and requirement -/
example : (match iterRules false pool [install 1] installed with
    | .ok g => g.rules.map Rule.literals
    | .error _ => []) =
    [[-1, 3, 4, 6], [-2, -1], [-4, -3], [-6, -3], [-6, -4], [-2, 4], [-5, -2], [1, 2]] := by decide +kernel

example : (match iterRules false pool [install 3] installed with
    | .ok g => g.rules.map Rule.literals
    | .error _ => []) = [[-5], [5], [-4, -3], [-6, -3], [-6, -4]] := by decide +kernel

/-- 1-1 together with the installed 2-1 satisfies the rules; hence (C37) there is a valid installation, which (C36)
satisfies the rules -/
example : ∃ I, ValidInstall (allPackages [remote, inst]) none (InstalledSet installed) [install 1] I ∧
    I (pkg 0 1 1 [dep 2]).key ∧ I (pkg 9 2 1).key ∧ ¬ I (pkg 0 2 2).key := by
  have hg : ∃ g, iterRules false pool [install 1] installed = .ok g ∧ g.added = [1, 3, 4, 6, 2] ∧
      g.rules.map Rule.literals = [[-1, 3, 4, 6], [-2, -1], [-4, -3], [-6, -3], [-6, -4], [-2, 4], [-5, -2], [1, 2]] :=
    ⟨_, rfl, by decide +kernel, by decide +kernel⟩
  obtain ⟨g, h1, h2, h3⟩ := hg
  refine ⟨_, C37_rules_are_complete built installedIds h1 (fun i => i == 1 || i == 6) ?_, ?_, ?_, ?_⟩
  · rw [h3]; unfold Sat SatC litTrue; decide +kernel
  · exact ⟨pkg 0 1 1 [dep 2], by simp [allPackages]; left; decide +kernel, rfl, 1, by rw [h2]; decide, rfl, rfl⟩
  · exact ⟨pkg 9 2 1, by simp [allPackages]; right; decide +kernel, rfl, 6, by rw [h2]; decide, rfl, rfl⟩
  · rintro ⟨p, -, hk, i, -, hi, hm⟩
    rw [pool.packageId_congr hk] at hi
    have : i = 4 := by
      have : pool.packageId (pkg 0 2 2) = .ok 4 := rfl
      rw [this] at hi; cases hi; rfl
    subst this
    simp at hm

/-- strict mode complains about the missing dependency of 3-1 -/
example : (match iterRules true pool [install 3] installed with
    | .ok _ => none
    | .error e => some e) = some .missingInstallRequires := by decide +kernel

/-- strict mode raises TypeError because of an installed package with a missing dependency: C56 does not hold as stated -/
def inst' : Repository Nat Str Nat := Repository.ofList [pkg 9 3 1 [dep 4]]
def pool' : Pool Nat Str Nat := (Pool.addRepositories [inst'] (Pool.empty none)).1

theorem C56_strict_type_error : Built [inst'] none pool' ∧ InstalledIds pool' [(1, pkg 9 3 1 [dep 4])] ∧
    (match iterRules true pool' [] [(1, pkg 9 3 1 [dep 4])] with
      | .ok _ => none
      | .error e => some e) = some .typeError := by
  refine ⟨⟨none, pool', rfl, rfl⟩, ?_, by decide +kernel⟩
  intro e he
  simp only [List.mem_singleton] at he
  subst he
  rfl

end RulesExample

end Verif.Props
