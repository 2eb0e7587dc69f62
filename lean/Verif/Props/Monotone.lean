import Verif.Props.Total
import Verif.Props.Hints
/-
Properties C77-C79: more packages, fewer jobs, and the same request again.
-/
set_option linter.unusedSectionVars false
namespace Verif.Props
open Verif Verif.Pkg Verif.Solve Verif.Rules

variable {N S U : Type} [LinearOrder N] [DecidableEq S] [LinearOrder U] [Syntax S U]

/-! ### Specification -/

/-- the packages of `rs` are among those of `rs'`, and no package of `rs'` equals one of `rs` but provides more (what a package
provides is not compared by `==`) -/
structure MorePackages (rs rs' : List (Repository N S U)) : Prop where
  sub : ∀ p ∈ allPackages rs, p ∈ allPackages rs'
  same : ∀ p ∈ allPackages rs, ∀ p' ∈ allPackages rs', p.key = p'.key → ∀ n, Provides p' n → Provides p n

/-- `s'` is a solver for the time after the transaction `t` of `s` has been carried out: what is installed is what the
transaction leads to, it is available, and nothing new is available -/
structure After (rs : List (Repository N S U)) (s : DependencySolver N S U) (t : Transaction N S U)
    (rs' : List (Repository N S U)) (s' : DependencySolver N S U) : Prop where
  installed : ∀ k, InstalledKeys s' k ↔ Result s t k
  present : ∀ k, InstalledKeys s' k → ∃ p ∈ allPackages rs', p.key = k
  known : ∀ p' ∈ allPackages rs', ∃ p ∈ allPackages rs, p.key = p'.key
  same : ∀ p ∈ allPackages rs, ∀ p' ∈ allPackages rs', p.key = p'.key → ∀ n, Provides p n ↔ Provides p' n

/-! ### Proofs -/

theorem meets_congr {mods : Option (Modifiers N)} {b : Bool} {r : Requirement N U} {p p' : Package N S U} (hk : p.key = p'.key)
    (hp : ∀ n, Provides p n → Provides p' n) (h : Meets mods b r p) : Meets mods b r p' := by
  obtain ⟨h1, r', h2, h3⟩ := h
  exact ⟨hp _ h1, r', h2, by rw [← (key_fields hk).2.1]; exact h3⟩

theorem below_split {inst : PKey N S U → Prop} {a c : Package N S U} (b : Package N S U) (h : Below inst a c) :
    Below inst a b ∨ Below inst b c := by
  unfold Below at *
  rcases h with h | ⟨h1, h2, h3⟩
  · rcases lt_trichotomy a.version b.version with h' | h' | h'
    · exact Or.inl (Or.inl h')
    · exact Or.inr (Or.inl (h' ▸ h))
    · exact Or.inr (Or.inl (lt_trans h' h))
  · rcases lt_trichotomy a.version b.version with h' | h' | h'
    · exact Or.inl (Or.inl h')
    · by_cases hb : inst b.key
      · exact Or.inl (Or.inr ⟨h', h2, hb⟩)
      · exact Or.inr (Or.inr ⟨h'.symm.trans h1, hb, h3⟩)
    · exact Or.inr (Or.inl (h1 ▸ h'))

theorem below_asymm {inst : PKey N S U → Prop} {a b : Package N S U} (h : Below inst a b) (h' : Below inst b a) : False := by
  unfold Below at h h'
  rcases h with h | h <;> rcases h' with h' | h'
  · exact lt_asymm h h'
  · exact ne_of_gt h h'.1
  · exact ne_of_gt h' h.1
  · exact h.2.1 h'.2.2

/-- if something meets the requirement of a hard update, there is a package that it asks for -/
theorem updateTarget_exists {avail : List (Package N S U)} {inst : PKey N S U → Prop} {r : Requirement N U}
    (h : ∃ p ∈ avail, MeetsJob r p) : ∃ q, UpdateTarget avail inst r q := by
  induction avail with
  | nil => simp at h
  | cons p l ih =>
    by_cases hl : ∃ q ∈ l, MeetsJob r q
    · obtain ⟨q, b, a, e, hq, hb, ha⟩ := ih hl
      by_cases hp : MeetsJob r p ∧ ¬ Below inst p q
      · refine ⟨p, [], l, rfl, hp.1, by simp, ?_⟩
        intro x hx hm hbel
        rcases below_split q hbel with h1 | h1
        · exact hp.2 h1
        · rw [e, List.mem_append, List.mem_cons] at hx
          rcases hx with hx | rfl | hx
          · exact below_asymm (hb x hx hm) h1
          · exact below_asymm h1 h1
          · exact ha x hx hm h1
      · refine ⟨q, p :: b, a, by rw [e]; rfl, hq, ?_, ha⟩
        intro x hx hm
        rcases List.mem_cons.1 hx with rfl | hx
        · by_contra hn
          exact hp ⟨hm, hn⟩
        · exact hb x hx hm
    · obtain ⟨x, hx, hm⟩ := h
      rcases List.mem_cons.1 hx with rfl | hx
      · exact ⟨x, [], l, rfl, hm, by simp, fun y hy hy' => absurd ⟨y, hy, hy'⟩ hl⟩
      · exact absurd ⟨x, hx, hm⟩ hl

/-- in a list with more packages, an installation stays valid -/
theorem validInstall_more {rs rs' : List (Repository N S U)} (hm : MorePackages rs rs') {mods : Option (Modifiers N)}
    {inst inst' : PKey N S U → Prop} {jobs : List (Job N U)} (hj : ∀ j ∈ jobs, j.kind ≠ .hardUpdate) {I : PKey N S U → Prop}
    (h : ValidInstall (allPackages rs) mods inst jobs I) : ValidInstall (allPackages rs') mods inst' jobs I := by
  have back : ∀ q ∈ allPackages rs', I q.key → ∃ p ∈ allPackages rs, p.key = q.key ∧ I p.key ∧ ∀ n, Provides q n → Provides p n := by
    intro q hq hI
    obtain ⟨p, hp, hk⟩ := h.consistent.available _ hI
    exact ⟨p, hp, hk, by rw [hk]; exact hI, hm.same p hp q hq hk⟩
  refine ⟨⟨?_, ?_, h.consistent.names, ?_⟩, ?_⟩
  · intro k hk
    obtain ⟨p, hp, e⟩ := h.consistent.available k hk
    exact ⟨p, hm.sub p hp, e⟩
  · intro k hk t ht
    obtain ⟨q, hq, h1⟩ := h.consistent.deps k hk t ht
    exact ⟨q, hm.sub q hq, h1⟩
  · rintro k hk t ht q hq hI hne ⟨r, h1, h2⟩
    obtain ⟨p, hp, e, h3, h4⟩ := back q hq hI
    exact h.consistent.conflicts k hk t ht p hp h3 (by rw [e]; exact hne) ⟨r, h1, meets_congr e.symm h4 h2⟩
  · intro j hjm
    obtain ⟨r, hr, h1⟩ := h.jobs j hjm
    refine ⟨r, hr, ?_⟩
    have hk := hj j hjm
    cases hkind : j.kind with
    | install =>
      rw [hkind] at h1
      obtain ⟨q, hq, h2⟩ := h1
      exact ⟨q, hm.sub q hq, h2⟩
    | softUpdate =>
      rw [hkind] at h1
      obtain ⟨q, hq, h2⟩ := h1
      exact ⟨q, hm.sub q hq, h2⟩
    | remove =>
      rw [hkind] at h1
      intro q hq hI hmeet
      obtain ⟨p, hp, e, h3, h4⟩ := back q hq hI
      exact h1 p hp h3 (meets_congr e.symm h4 hmeet)
    | hardUpdate => exact absurd hkind hk
    | upgrade => rw [hkind] at h1; exact h1

/-- what a transaction leads to is still valid after it has been carried out -/
theorem validInstall_after {rs rs' : List (Repository N S U)} {mods : Option (Modifiers N)}
    {inst I : PKey N S U → Prop} (present : ∀ k, I k → ∃ p ∈ allPackages rs', p.key = k)
    (known : ∀ p' ∈ allPackages rs', ∃ p ∈ allPackages rs, p.key = p'.key)
    (same : ∀ p ∈ allPackages rs, ∀ p' ∈ allPackages rs', p.key = p'.key → ∀ n, Provides p n ↔ Provides p' n)
    {jobs : List (Job N U)} (h : ValidInstall (allPackages rs) mods inst jobs I) :
    ValidInstall (allPackages rs') mods I jobs I := by
  have forth : ∀ q ∈ allPackages rs, I q.key → ∃ q' ∈ allPackages rs', q.key = q'.key ∧ ∀ n, Provides q n → Provides q' n := by
    intro q hq hI
    obtain ⟨q', h1, h2⟩ := present _ hI
    exact ⟨q', h1, h2.symm, fun n => (same q hq q' h1 h2.symm n).1⟩
  have back : ∀ q' ∈ allPackages rs', ∃ q ∈ allPackages rs, q'.key = q.key ∧ ∀ n, Provides q' n → Provides q n := by
    intro q' hq'
    obtain ⟨q, h1, h2⟩ := known q' hq'
    exact ⟨q, h1, h2.symm, fun n => (same q h1 q' hq' h2 n).2⟩
  refine ⟨⟨present, ?_, h.consistent.names, ?_⟩, ?_⟩
  · intro k hk t ht
    obtain ⟨q, hq, h1, h2, r, h3, h4⟩ := h.consistent.deps k hk t ht
    obtain ⟨q', h5, h6, h7⟩ := forth q hq h1
    exact ⟨q', h5, h6 ▸ h1, h6 ▸ h2, r, h3, meets_congr h6 h7 h4⟩
  · rintro k hk t ht q' hq' hI hne ⟨r, h3, h4⟩
    obtain ⟨q, h5, h6, h7⟩ := back q' hq'
    exact h.consistent.conflicts k hk t ht q h5 (h6 ▸ hI) (h6 ▸ hne) ⟨r, h3, meets_congr h6 h7 h4⟩
  · intro j hj
    obtain ⟨r, hr, h1⟩ := h.jobs j hj
    refine ⟨r, hr, ?_⟩
    cases hkind : j.kind with
    | install =>
      rw [hkind] at h1
      obtain ⟨q, hq, h2, h3⟩ := h1
      obtain ⟨q', h5, h6, h7⟩ := forth q hq h2
      exact ⟨q', h5, h6 ▸ h2, meets_congr h6 h7 h3⟩
    | softUpdate =>
      rw [hkind] at h1
      obtain ⟨q, hq, h2, h3⟩ := h1
      obtain ⟨q', h5, h6, h7⟩ := forth q hq h2
      exact ⟨q', h5, h6 ▸ h2, meets_congr h6 h7 h3⟩
    | remove =>
      rw [hkind] at h1
      intro q' hq' hI hmeet
      obtain ⟨q, h5, h6, h7⟩ := back q' hq'
      exact h1 q h5 (h6 ▸ hI) (meets_congr h6 h7 hmeet)
    | upgrade => rw [hkind] at h1; exact h1
    | hardUpdate =>
      rw [hkind] at h1
      rintro x ⟨b, a, e, hx, hb, ha⟩
      have hxm : x ∈ allPackages rs' := by rw [e]; simp
      obtain ⟨x0, hx0, hxk, hxp⟩ := back x hxm
      have hx0m : MeetsJob r x0 := meets_congr hxk hxp hx
      obtain ⟨q, hq⟩ := updateTarget_exists (inst := inst) ⟨x0, hx0, hx0m⟩
      have hIq := h1 q hq
      obtain ⟨b0, a0, e0, hqm, hb0, ha0⟩ := hq
      have hle : x.version ≤ q.version := by
        rw [(key_fields hxk).2.1]
        rw [e0, List.mem_append, List.mem_cons] at hx0
        rcases hx0 with hx0 | rfl | hx0
        · rcases hb0 x0 hx0 hx0m with h2 | h2
          · exact le_of_lt h2
          · exact le_of_eq h2.1
        · exact le_refl _
        · by_contra hn
          exact ha0 x0 hx0 hx0m (Or.inl (not_le.1 hn))
      obtain ⟨y, hy, hyk, hyp⟩ := forth q (by rw [e0]; simp) hIq
      have hym : MeetsJob r y := meets_congr hyk hyp hqm
      have hIy : I y.key := hyk ▸ hIq
      rw [(key_fields hyk).2.1] at hle
      rw [e, List.mem_append, List.mem_cons] at hy
      rcases hy with hy | rfl | hy
      · rcases hb y hy hym with h2 | h2
        · exact absurd h2 (not_lt.2 hle)
        · exact h2.2.2
      · exact hIy
      · by_contra hn
        refine ha y hy hym ?_
        rcases lt_or_eq_of_le hle with h2 | h2
        · exact Or.inl h2
        · exact Or.inr ⟨h2, hn, hIy⟩

variable {rs rs' : List (Repository N S U)} {s s' : DependencySolver N S U}

/-! ### C77 -/

/-- C77: if a request of install, remove and soft update jobs can be solved, it is not unsatisfiable once more packages are
available, whatever is installed. -/
theorem C77_more_packages (hs : SolverFor rs s) (hs' : SolverFor rs' s') (hm : MorePackages rs rs') {o o' : Orders}
    {q : Request N U} (hj : ∀ j ∈ q.jobs, j.kind ≠ .hardUpdate ∧ j.kind ≠ .upgrade) {t : Transaction N S U}
    (h : s.solve o q = .ok t) (u : Sat.UnsatInfo) : s'.solve o' q ≠ .error (.sat (.satisfiability u)) := by
  intro hu
  have h1 := C40_decides hs o q
  have h2 := C40_decides hs' o' q
  rw [h] at h1
  rw [hu] at h2
  obtain ⟨I, hI⟩ := h1
  refine h2 ⟨I, ?_⟩
  unfold Solves at *
  rw [effectiveJobs_plain _ (fun j hjm => (hj j hjm).2)] at hI ⊢
  exact validInstall_more hm (fun j hjm => (hj j hjm).1) hI

/-! ### C78 -/

/-- C78: if a request can be solved, then it is not unsatisfiable when some of its jobs are left out, repeated or put in another
order. -/
theorem C78_fewer_jobs (hs : SolverFor rs s) {o o' : Orders} {q q' : Request N U} (hm : q'.modifiers = q.modifiers)
    (hsub : ∀ j ∈ effectiveJobs s q', j ∈ effectiveJobs s q) {t : Transaction N S U} (h : s.solve o q = .ok t)
    (u : Sat.UnsatInfo) : s.solve o' q' ≠ .error (.sat (.satisfiability u)) := by
  intro hu
  have h1 := C40_decides hs o q
  have h2 := C40_decides hs o' q'
  rw [h] at h1
  rw [hu] at h2
  obtain ⟨I, hI⟩ := h1
  refine h2 ⟨I, ?_⟩
  unfold Solves at *
  rw [hm]
  exact ⟨hI.consistent, fun j hj => hI.jobs j (hsub j hj)⟩

/-- C78: the same for requests that contain no upgrade, in terms of the jobs that were added to them. -/
theorem C78_fewer_jobs_plain (hs : SolverFor rs s) {o o' : Orders} {q q' : Request N U} (hm : q'.modifiers = q.modifiers)
    (hsub : ∀ j ∈ q'.jobs, j ∈ q.jobs) (hp : ∀ j ∈ q.jobs, j.kind ≠ .upgrade) {t : Transaction N S U} (h : s.solve o q = .ok t)
    (u : Sat.UnsatInfo) : s.solve o' q' ≠ .error (.sat (.satisfiability u)) := by
  refine C78_fewer_jobs hs hm ?_ h u
  rw [effectiveJobs_plain s hp, effectiveJobs_plain s (fun j hj => hp j (hsub j hj))]
  exact hsub

theorem effectiveJobs_cases (s : DependencySolver N S U) (q : Request N U) :
    effectiveJobs s q = q.jobs ∨ ∃ j, q.jobs = [j] ∧ j.kind = .upgrade := by
  unfold effectiveJobs convertUpgrade
  split
  · next j hj =>
    by_cases hk : j.kind = .upgrade
    · exact Or.inr ⟨j, hj, hk⟩
    · rw [if_neg hk]; exact Or.inl rfl
  · exact Or.inl rfl

/-- C78: the full property: jobs of any kind, upgrades included. -/
theorem C78_any_jobs (hs : SolverFor rs s) {o o' : Orders} {q q' : Request N U} (hm : q'.modifiers = q.modifiers)
    (hsub : ∀ j ∈ q'.jobs, j ∈ q.jobs) {t : Transaction N S U} (h : s.solve o q = .ok t)
    (u : Sat.UnsatInfo) : s.solve o' q' ≠ .error (.sat (.satisfiability u)) := by
  intro hu
  have hn' := not_upgrade_of_unsat hs hu
  refine C78_fewer_jobs hs hm ?_ h u hu
  rcases effectiveJobs_cases s q with e | ⟨j, hj, hk⟩
  · have hn : ∀ j ∈ q.jobs, j.kind ≠ .upgrade := by
      rw [solve_stages] at h
      cases hc : createRules s o (s.solvePool q) (convertUpgrade q s.remote s.installed) with
      | error e => rw [hc] at h; simp at h
      | ok st =>
        rw [← e]
        exact fun j hj => ((createRules_spec (hs.solvePool q) hs hc).possible j hj).1
    rw [e, effectiveJobs_plain s (fun j hj => hn j (hsub j hj))]
    exact hsub
  · rcases effectiveJobs_cases s q' with e' | ⟨j', hj', -⟩
    · intro x hx
      have hx' := hx
      rw [e'] at hx'
      have := hsub x hx'
      rw [hj, List.mem_singleton] at this
      exact absurd (this ▸ hk) (hn' x hx)
    · have : j' = j := by
        have := hsub j' (by rw [hj']; simp)
        rwa [hj, List.mem_singleton] at this
      subst this
      have : effectiveJobs s q' = effectiveJobs s q := by
        unfold effectiveJobs convertUpgrade
        rw [hj, hj']
        split <;> simp_all
      rw [this]
      exact fun _ hx => hx

/-! ### C79 -/

/-- C79 (partial): once the transaction has been carried out, the same request is satisfied by what is installed: solving it
again is not unsatisfiable, and its transaction is empty. What is missing: soft updates (see
`C79_repeating_soft_updates_partial`), upgrades (for which the property fails, see `C79_violated`), and the conditions of C41 and C43. -/
theorem C79_repeating_changes_nothing_partial (hs : SolverFor rs s) (hs' : SolverFor rs' s') {o o' : Orders} {q : Request N U}
    {t : Transaction N S U} (h : s.solve o q = .ok t) (ha : After rs s t rs' s')
    (hj : ∀ j ∈ q.jobs, j.kind ≠ .softUpdate ∧ j.kind ≠ .upgrade)
    (hu : s.usePruning = true) (hE : Exclusive (allPackages rs) (some q.modifiers))
    (hT : Tidy (allPackages rs) (InstalledKeys s) (effectiveJobs s q)) (hM : SameMetadata (allPackages rs) (InstalledKeys s))
    (hu' : s'.usePruning = true) (hE' : Exclusive (allPackages rs') (some q.modifiers))
    (hT' : Tidy (allPackages rs') (InstalledKeys s') (effectiveJobs s' q)) :
    (∀ v, s'.solve o' q ≠ .error (.sat (.satisfiability v))) ∧ ∀ t', s'.solve o' q = .ok t' → t'.operations = [] := by
  have hv := C41_valid_installation_partial hs h hu hE hT hM
  have e := effectiveJobs_plain s (fun j hjm => (hj j hjm).2)
  have e' := effectiveJobs_plain s' (fun j hjm => (hj j hjm).2)
  have hv' : Solves rs' s' q (InstalledKeys s') := by
    have hI : InstalledKeys s' = Result s t := funext (fun k => propext (ha.installed k))
    unfold Solves at hv ⊢
    rw [e] at hv
    rw [e', hI]
    exact validInstall_after (fun k hk => ha.present k ((ha.installed k).2 hk)) ha.known ha.same hv
  refine ⟨C43_satisfied_request_is_satisfiable hs' o' q hv', fun t' ht' => ?_⟩
  exact C43_satisfied_request_changes_nothing_partial hs' ht' hu' hv' (by rw [e']; exact fun j hjm => (hj j hjm).1) hE' hT'

/-- C79: the same if every package provides its own name only, with jobs that install, hard-update, or remove a package in all
its versions. -/
theorem C79_repeating_changes_nothing_plain_partial (hs : SolverFor rs s) (hs' : SolverFor rs' s') {o o' : Orders}
    {q : Request N U} {t : Transaction N S U} (h : s.solve o q = .ok t) (ha : After rs s t rs' s')
    (hj : ∀ j ∈ q.jobs, j.kind ≠ .softUpdate ∧ j.kind ≠ .upgrade) (hu : s.usePruning = true) (hu' : s'.usePruning = true)
    (hP : PlainNames (allPackages rs)) (hM : SameMetadata (allPackages rs) (InstalledKeys s))
    (hr : ∀ j ∈ q.jobs, j.kind = .remove → ∀ r, j.requirement = some r →
      ∀ p ∈ allPackages rs, p.name = r.name → MeetsJob r p) :
    (∀ v, s'.solve o' q ≠ .error (.sat (.satisfiability v))) ∧ ∀ t', s'.solve o' q = .ok t' → t'.operations = [] := by
  have e := effectiveJobs_plain s (fun j hjm => (hj j hjm).2)
  have e' := effectiveJobs_plain s' (fun j hjm => (hj j hjm).2)
  have hP' : PlainNames (allPackages rs') := by
    intro p' hp' n hn
    obtain ⟨p, hp, hk⟩ := ha.known p' hp'
    rw [← (key_fields hk).1]
    exact hP p hp n ((ha.same p hp p' hp' hk n).2 hn)
  refine C79_repeating_changes_nothing_partial hs hs' h ha hj hu (hP.exclusive _) (hP.tidy ?_) hM hu' (hP'.exclusive _)
    (hP'.tidy ?_)
  · rw [e]
    exact fun j hjm hk r hreq => Or.inr (hr j hjm hk r hreq)
  · rw [e']
    intro j hjm hk r hreq
    refine Or.inr (fun p' hp' hn => ?_)
    obtain ⟨p, hp, hke⟩ := ha.known p' hp'
    refine meets_congr hke (fun n => (ha.same p hp p' hp' hke n).1) (hr j hjm hk r hreq p hp ?_)
    rw [(key_fields hke).1]; exact hn

/-! ### concrete cases -/
namespace MonotoneExample
open Verif.Pkg.Example Verif.Solve.Example Verif.Solve.Check SolveExample

theorem morePackages {rs rs' : List (Repository Nat Str Nat)} (h : ∀ p ∈ allPackages rs, p ∈ allPackages rs')
    (h' : ∀ p ∈ allPackages rs, ∀ p' ∈ allPackages rs', p.key = p'.key → p.provNames = p'.provNames) : MorePackages rs rs' :=
  ⟨h, fun p hp p' hp' hk n => by rw [provides_iff, provides_iff, h' p hp p' hp' hk]; exact id⟩

/-- C77: one more version, which conflicts with another package, is available -/
theorem more : MorePackages (repos inst remote) (repos inst (remote ++ [pkg 0 3 2 [] [dep 1]])) := by
  refine morePackages ?_ ?_ <;> decide +kernel

example (o' : Orders) (u : Sat.UnsatInfo) : (solver inst (remote ++ [pkg 0 3 2 [] [dep 1]])).solve o'
    (request [install (req 3), remove (req 4)]) ≠ .error (.sat (.satisfiability u)) := by
  obtain ⟨t, ht, -⟩ := solved_ok example_install
  exact C77_more_packages forExample (solverFor (by decide +kernel) (by decide +kernel)) more (by decide +kernel) ht u

/-- C77 does not extend to hard updates, which ask for the newest version: 1-2 needs 5, which does not exist -/
theorem C77_not_for_hard_updates :
    MorePackages (repos [] [pkg 0 1 1]) (repos [] [pkg 0 1 1, pkg 0 1 2 [dep 5]]) ∧
    solved ((solver [] [pkg 0 1 1]).solve insertionOrder (request [hardUpdate (req 1)])) =
      some (.ok ([.install (pkg 0 1 1)], [.install (pkg 0 1 1)])) ∧
    solved ((solver [] [pkg 0 1 1, pkg 0 1 2 [dep 5]]).solve insertionOrder (request [hardUpdate (req 1)])) = none := by
  refine ⟨morePackages ?_ ?_, ?_, ?_⟩ <;> decide +kernel

/-- C78 -/
example (o' : Orders) (u : Sat.UnsatInfo) : (solver inst remote).solve o' (request [remove (req 4)]) ≠
    .error (.sat (.satisfiability u)) := by
  obtain ⟨t, ht, -⟩ := solved_ok example_install
  exact C78_fewer_jobs_plain (q := request [install (req 3), remove (req 4)]) (q' := request [remove (req 4)]) forExample rfl
    (by decide +kernel) (by decide +kernel) ht u
example (o' : Orders) (u : Sat.UnsatInfo) : (solver inst remote).solve o' (request [remove (req 4), remove (req 4)]) ≠
    .error (.sat (.satisfiability u)) := by
  obtain ⟨t, ht, -⟩ := solved_ok example_install
  exact C78_any_jobs (q := request [install (req 3), remove (req 4)]) (q' := request [remove (req 4), remove (req 4)]) forExample rfl
    (by decide +kernel) ht u

/-- C79: the solver after the transaction of `example_install` -/
def inst' : List P := [pkg 0 1 2, pkg 0 2 2 [depc 1 (.geq (v 2))], pkg 0 3 1 [depc 2 (.geq (v 2))]]

theorem after {inst remote inst' : List P} {prune : Bool} {jobs : List (Job Nat Nat)} {ops pretty : List (Op Nat Str Nat)}
    (h : solved ((solver inst remote prune).solve insertionOrder (request jobs)) = some (.ok (ops, pretty)))
    (h1 : ∀ k ∈ applyList ops ((solver inst remote prune).installed.iter.map Package.key),
      k ∈ (solver inst' remote prune).installed.iter.map Package.key)
    (h2 : ∀ k ∈ (solver inst' remote prune).installed.iter.map Package.key,
      k ∈ applyList ops ((solver inst remote prune).installed.iter.map Package.key))
    (h3 : ∀ k ∈ (solver inst' remote prune).installed.iter.map Package.key, ∃ p ∈ allPackages (repos inst' remote), p.key = k)
    (h4 : ∀ p' ∈ allPackages (repos inst' remote), ∃ p ∈ allPackages (repos inst remote), p.key = p'.key)
    (h5 : ∀ p ∈ allPackages (repos inst remote), ∀ p' ∈ allPackages (repos inst' remote), p.key = p'.key →
      p.provNames = p'.provNames) :
    ∃ t, (solver inst remote prune).solve insertionOrder (request jobs) = .ok t ∧ t.operations = ops ∧
      After (repos inst remote) (solver inst remote prune) t (repos inst' remote) (solver inst' remote prune) := by
  obtain ⟨t, ht, hops⟩ := solved_ok h
  refine ⟨t, ht, hops, ⟨?_, ?_, h4, ?_⟩⟩
  · intro k
    rw [result_eq, installedKeys_eq, hops]
    exact ⟨h2 k, h1 k⟩
  · intro k hk
    rw [installedKeys_eq] at hk
    exact h3 k hk
  · intro p hp p' hp' hk n
    rw [provides_iff, provides_iff, h5 p hp p' hp' hk]

example (o' : Orders) : (∀ v, (solver inst' remote).solve o' (request [install (req 3), remove (req 4)]) ≠
      .error (.sat (.satisfiability v))) ∧
    ∀ t', (solver inst' remote).solve o' (request [install (req 3), remove (req 4)]) = .ok t' → t'.operations = [] := by
  obtain ⟨t, ht, -, ha⟩ := after (inst' := inst') example_install (by decide +kernel) (by decide +kernel) (by decide +kernel)
    (by decide +kernel) (by decide +kernel)
  exact C79_repeating_changes_nothing_partial forExample (solverFor (by decide +kernel) (by decide +kernel)) ht ha
    (by decide +kernel) rfl example_tidy.1 example_tidy.2.1 example_tidy.2.2 rfl (by decide +kernel) (by decide +kernel)

/-- C79 fails for an upgrade: 1-1 is installed; the newest 1 is 1-2, which needs 2-1, but there is a newer 2-2. The first upgrade
installs 1-2 and 2-1; the second one, which asks for 1-2 and 2-2, is unsatisfiable. -/
theorem C79_violated :
    ∃ t, (solver [pkg 9 1 1] [pkg 0 1 2 [depc 2 (.equal (v 1))], pkg 0 2 1, pkg 0 2 2]).solve insertionOrder
        (request [⟨none, .upgrade⟩]) = .ok t ∧
      After (repos [pkg 9 1 1] [pkg 0 1 2 [depc 2 (.equal (v 1))], pkg 0 2 1, pkg 0 2 2])
        (solver [pkg 9 1 1] [pkg 0 1 2 [depc 2 (.equal (v 1))], pkg 0 2 1, pkg 0 2 2]) t
        (repos [pkg 0 1 2 [depc 2 (.equal (v 1))], pkg 0 2 1] [pkg 0 1 2 [depc 2 (.equal (v 1))], pkg 0 2 1, pkg 0 2 2])
        (solver [pkg 0 1 2 [depc 2 (.equal (v 1))], pkg 0 2 1] [pkg 0 1 2 [depc 2 (.equal (v 1))], pkg 0 2 1, pkg 0 2 2]) ∧
      solved ((solver [pkg 0 1 2 [depc 2 (.equal (v 1))], pkg 0 2 1]
        [pkg 0 1 2 [depc 2 (.equal (v 1))], pkg 0 2 1, pkg 0 2 2]).solve insertionOrder (request [⟨none, .upgrade⟩])) = none := by
  obtain ⟨t, ht, -, ha⟩ := after (inst := [pkg 9 1 1]) (remote := [pkg 0 1 2 [depc 2 (.equal (v 1))], pkg 0 2 1, pkg 0 2 2])
    (inst' := [pkg 0 1 2 [depc 2 (.equal (v 1))], pkg 0 2 1]) (prune := true) (jobs := [⟨none, .upgrade⟩])
    (ops := [.remove (pkg 9 1 1), .install (pkg 0 2 1), .install (pkg 0 1 2 [depc 2 (.equal (v 1))])])
    (pretty := [.install (pkg 0 2 1), .update (pkg 0 1 2 [depc 2 (.equal (v 1))]) (pkg 9 1 1)])
    (by decide +kernel) (by decide +kernel) (by decide +kernel) (by decide +kernel) (by decide +kernel) (by decide +kernel)
  exact ⟨t, ht, ha, by decide +kernel⟩

end MonotoneExample
end Verif.Props
