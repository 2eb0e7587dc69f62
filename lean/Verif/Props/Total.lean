import Verif.Solve.Total
import Verif.Props.Solve
/-
Property C61: on well-formed input, `solve` fails only in the documented ways, and finds a solution if there is one.
-/
set_option linter.unusedSectionVars false
namespace Verif.Props
open Verif Verif.Pkg Verif.Solve Verif.Rules Verif.Graph
open Relation

variable {N S U : Type} [LinearOrder N] [DecidableEq S] [LinearOrder U] [Syntax S U]
variable {rs : List (Repository N S U)} {s : DependencySolver N S U}

/-- The metadata of the available packages is well formed, the installed packages are in the pool, the solver is not in
strict mode, and the request is not an invalid mixture (C35). -/
structure WellFormed (rs : List (Repository N S U)) (s : DependencySolver N S U) (q : Request N U) : Prop where
  readable : ∀ p ∈ allPackages rs, Readable (some q.modifiers) p
  installed : ∀ k, InstalledKeys s k → ∃ p ∈ allPackages rs, p.key = k
  lenient : s.strict = false
  jobs : ∀ j ∈ effectiveJobs s q, j.kind ≠ .upgrade ∧ ∃ r, j.requirement = some r

theorem WellFormed.readable' {q : Request N U} (hw : WellFormed rs s q) :
    ∀ p ∈ allPackages rs, Readable (activeModifiers q.modifiers) p := by
  intro p hp
  have h := hw.readable p hp
  refine ⟨h.deps, fun t ht => ?_⟩
  obtain ⟨r, hr, hm⟩ := h.conflicts t ht
  refine ⟨r, hr, fun m h => hm m ?_⟩
  unfold activeModifiers at h
  split at h
  · cases h
  · exact h

/-- C61: if some job asks for something that no package provides, NoPackageFound is raised. -/
theorem C61_no_package_found (hs : SolverFor rs s) (o : Orders) {q : Request N U} (hw : WellFormed rs s q)
    (hn : ∃ j ∈ effectiveJobs s q, ¬ JobPossible (allPackages rs) j) :
    s.solve o q = .error (.pkg .noPackageFound) := by
  rw [solve_stages]
  have hb := hs.solvePool (convertUpgrade q s.remote s.installed)
  have : createRules s o (s.solvePool q) (convertUpgrade q s.remote s.installed) = .error .noPackageFound := by
    unfold createRules
    have := jobIds_noPackage (hs.solvePool q).ok s.installed (js := effectiveJobs s q) hw.jobs hn [] []
    unfold effectiveJobs at this
    simp only [this, bind, Except.bind]
  simp only [this]

/-- C61: otherwise SatisfiabilityError is raised exactly if no valid installation exists. -/
theorem C61_unsatisfiable_iff (hs : SolverFor rs s) (o : Orders) {q : Request N U} (hw : WellFormed rs s q)
    (hj : ∀ j ∈ effectiveJobs s q, JobPossible (allPackages rs) j) :
    (∃ u, s.solve o q = .error (.sat (.satisfiability u))) ↔ ¬ ∃ I, Solves rs s q I := by
  obtain ⟨st, hst⟩ := createRules_total (hs.solvePool q) hw.lenient hw.readable' hw.installed o hj
  exact C40_unsatisfiable_iff hs o q hst

theorem solvable_of_ok (hs : SolverFor rs s) {o : Orders} {q : Request N U} {t : Transaction N S U}
    (ht : s.solve o q = .ok t) : ∃ I, Solves rs s q I := by
  have := C40_decides hs o q
  rw [ht] at this
  exact this

/-- an exception of the transaction is a ValueError -/
theorem mkTransaction_err {m : Option (Modifiers N)} {pool : Pool N S U} (hB : Built rs m pool)
    {D : List Int} (hD : Decisions pool D) {installed : List Nat} (hI : ∀ i ∈ installed, ∃ k, IdOf pool k i)
    (hdeps : ∀ k, Decided pool D k → ∀ t ∈ k.installRequires, ∃ r : Requirement N U, fromConstraints .install t = .ok r)
    {e : PErr} (h : mkTransaction pool D installed = .error e) : e = .valueError := by
  by_cases hc : ∃ k, TransGen (DecidedDep pool (allPackages rs) m D) k k
  · rw [C47_cycle_raises hB hD hI hdeps hc] at h
    cases h; rfl
  · obtain ⟨loc, ops, -, -, h1⟩ := C47_acyclic_accepted hB hD hI hdeps hc
    rw [h1] at h
    cases hp : prettyOperations pool ops with
    | ok l => rw [hp] at h; simp [Except.map] at h
    | error e' =>
      rw [hp] at h
      simp only [Except.map, Except.error.injEq] at h
      subst h
      unfold prettyOperations at hp
      have habs : ∀ (ks : List (PKey N S U)) d, ∃ d', absorbAll pool ks d = .ok d' := by
        intro ks
        induction ks with
        | nil => intro d; exact ⟨d, rfl⟩
        | cons k ks ih =>
          intro d
          unfold absorbAll
          split
          · obtain ⟨ps, hps⟩ := whatProvides_install (pool := pool)
              (r := Requirement.ofName .install k.name) rfl true
            unfold findOtherProviders
            simp only [hps]
            exact ih _
          · exact ih _
      obtain ⟨d', hd'⟩ := habs (dkeys (dictOf (ops.map (fun o => (o.package.key, [o]))))).reverse
        (dictOf (ops.map (fun o => (o.package.key, [o]))))
      simp only [hd'] at hp
      obtain ⟨l, -, hl⟩ := mapE_error hp
      unfold mergeOperations at hl
      split at hl
      · simp at hl
      · split at hl
        · next e hm =>
          cases hl
          obtain ⟨op, -, hop⟩ := mapE_error hm
          unfold rankItem Op.rank at hop
          cases op with
          | install p => simp at hop
          | remove p => simp at hop
          | update p q => simp at hop; exact hop.symm
        · split at hl
          · simp at hl
          · cases hl; rfl

theorem solve_completes (hs : SolverFor rs s) (o : Orders) {q : Request N U} (hw : WellFormed rs s q)
    (hj : ∀ j ∈ effectiveJobs s q, JobPossible (allPackages rs) j) (hu : s.usePruning = true)
    (hE : Exclusive (allPackages rs) (some q.modifiers))
    (hT : Tidy (allPackages rs) (InstalledKeys s) (effectiveJobs s q))
    (hP : ∀ p ∈ allPackages rs, ∀ q ∈ allPackages rs, p.key = q.key → ∀ n, Provides p n → Provides q n)
    (hx : ∃ I, Solves rs s q I) :
    ∃ pool st a installed D, Completed rs s (activeModifiers q.modifiers) (effectiveJobs s q) pool st a installed D ∧
      s.solve o q = liftP (mkTransaction pool D installed) := by
  obtain ⟨st, hst⟩ := createRules_total (hs.solvePool q) hw.lenient hw.readable' hw.installed o hj
  have hb := hs.solvePool q
  have hsp := createRules_spec hb hs hst
  have hd := hsp.decides hb o
  rw [clauses_iff hs hst] at hd
  obtain ⟨a, ha⟩ := hd.1.2 hx
  obtain ⟨ids, hids⟩ := mapE_ok_of (f := (s.solvePool q).packageId) (xs := s.installed.iter) hsp.known
  have hinst : ∀ i, i ∈ o.installed (fromkeys ids) ↔ ∃ p ∈ s.installed.iter, (s.solvePool q).packageId p = .ok i := by
    intro i
    rw [(o.installedPerm _).mem_iff, mem_fromkeys, mem_mapE hids]
  have hroot : ∀ i, i ∈ supdate st.requirementIds (o.installed (fromkeys ids)) ↔
      i ∈ st.requirementIds ∨ i ∈ o.installed (fromkeys ids) := fun i => by rw [mem_supdate]
  have h0 : Completed rs { s with usePruning := false } (activeModifiers q.modifiers) (effectiveJobs s q) (s.solvePool q)
      st a (o.installed (fromkeys ids)) (solutionToIds a) :=
    ⟨hb, ⟨hsp.ids, hsp.inst, hsp.known, hsp.gen, hsp.possible, hsp.reqs, hsp.preferNodup, hsp.prefer, hsp.preferSorted⟩,
      hsp.found hb ha, hinst, by simp⟩
  obtain ⟨D, hD⟩ := h0.prune_total ((exclusive_active _ _).2 hE) hT hP o hroot
  obtain ⟨name, included, hp⟩ := connectedPackages_spec hD
  refine ⟨s.solvePool q, st, a, o.installed (fromkeys ids), D, ⟨hb, hsp, hsp.found hb ha, hinst, ?_⟩, ?_⟩
  · rw [if_pos hu]
    exact ⟨_, name, included, hroot, hp⟩
  · rw [solve_stages]
    simp only [hst, ha]
    unfold finish
    simp only [hids, hu, if_true, hD, bind, Except.bind]

theorem decided_readable {q : Request N U} (hw : WellFormed rs s q) {pool : Pool N S U} {st : Setup N S U} {a : ASet}
    {installed : List Nat} {D : List Int}
    (h : Completed rs s (activeModifiers q.modifiers) (effectiveJobs s q) pool st a installed D) :
    ∀ k, Decided pool D k → ∀ t ∈ k.installRequires, ∃ r : Requirement N U, fromConstraints .install t = .ok r := by
  intro k hk t ht
  have : ∃ i, IdOf pool k i := by
    rcases hk with ⟨i, h1, -⟩ | ⟨i, h1, -⟩ <;> exact ⟨i, h1⟩
  obtain ⟨i, hi⟩ := this
  obtain ⟨p, hp, hpk⟩ := IdOf.isAvail h.built.ok hi
  subst hpk
  exact (hw.readable p hp).deps t ht

/-- C61: if pruning is on and packages that provide a common name exclude each other (the conditions of C41), then for a
request that has a valid installation `solve` returns a transaction or raises ValueError, which is about a dependency
cycle or about operations that cannot be merged (C46, C47). -/
theorem C61_only_value_error (hs : SolverFor rs s) (o : Orders) {q : Request N U} (hw : WellFormed rs s q)
    (hj : ∀ j ∈ effectiveJobs s q, JobPossible (allPackages rs) j) (hu : s.usePruning = true)
    (hE : Exclusive (allPackages rs) (some q.modifiers))
    (hT : Tidy (allPackages rs) (InstalledKeys s) (effectiveJobs s q))
    (hP : ∀ p ∈ allPackages rs, ∀ q ∈ allPackages rs, p.key = q.key → ∀ n, Provides p n → Provides q n)
    (hx : ∃ I, Solves rs s q I) : (∃ t, s.solve o q = .ok t) ∨ s.solve o q = .error (.pkg .valueError) := by
  obtain ⟨pool, st, a, installed, D, h, he⟩ := solve_completes hs o hw hj hu hE hT hP hx
  rw [he]
  cases hm : mkTransaction pool D installed with
  | ok t => exact Or.inl ⟨t, rfl⟩
  | error e =>
    right
    rw [mkTransaction_err h.built h.decisions h.hI (decided_readable hw h) hm]
    rfl

/-- `k'` is another package that a dependency of `k` is met by -/
def OtherDep (avail : List (Package N S U)) (mods : Option (Modifiers N)) (k k' : PKey N S U) : Prop :=
  k ≠ k' ∧ DependsOn avail mods k k'

/-- C61: if packages provide nothing but their own names, the dependencies of the available packages have no cycle, the
installed packages have different names, and the name of each requirement to be removed is installed or removed as a
whole, then `solve` (with pruning) returns a transaction exactly if a valid installation exists. -/
theorem C61_solution_found_iff (hs : SolverFor rs s) (o : Orders) {q : Request N U} (hw : WellFormed rs s q)
    (hu : s.usePruning = true) (hown : PlainNames (allPackages rs))
    (hc : ¬ ∃ k, TransGen (OtherDep (allPackages rs) (some q.modifiers)) k k)
    (hinst : ∀ k k', InstalledKeys s k → InstalledKeys s k' → k.name = k'.name → k = k')
    (hr : ∀ j ∈ effectiveJobs s q, j.kind = .remove → ∀ r, j.requirement = some r →
      (∃ k, InstalledKeys s k ∧ k.name = r.name) ∨ ∀ p ∈ allPackages rs, p.name = r.name → MeetsJob r p)
    (hj : ∀ j ∈ effectiveJobs s q, JobPossible (allPackages rs) j) :
    (∃ t, s.solve o q = .ok t) ↔ ∃ I, Solves rs s q I := by
  constructor
  · rintro ⟨t, ht⟩
    exact solvable_of_ok hs ht
  · intro hx
    have hE := hown.exclusive (activeModifiers q.modifiers)
    have hT : Tidy (allPackages rs) (InstalledKeys s) (effectiveJobs s q) := hown.tidy hr
    obtain ⟨pool, st, a, installed, D, h, he⟩ := solve_completes hs o hw hj hu ((exclusive_active _ _).1 hE) hT (by
      intro p hp q hq hk n hn
      have := hown p hp n hn
      subst this
      exact Or.inl (key_fields hk).1) hx
    have hV := h.wanted_valid hu hE hT
    obtain ⟨t, ht, -⟩ := C46_pretty_operations_own_names h.built h.decisions h.hI (decided_readable hw h) (by
      rintro ⟨k, hk⟩
      refine hc ⟨k, ?_⟩
      refine TransGen.mono (fun a b h => ?_) k k hk
      obtain ⟨-, -, h1, h2⟩ := h
      exact ⟨h1, (dependsOn_active _ _ _ _).1 h2⟩) hown (by
        intro k k' h1 h2
        rw [h.installed_iff] at h1 h2
        exact hinst k k' h1 h2) (by
        intro k k' h1 h2 hn
        exact h.chosen_valid.consistent.names k k' (hV.1 k (Or.inr h1)) (hV.1 k' (Or.inr h2)) hn)
    exact ⟨t, by rw [he, ht]; rfl⟩

/-! ### Concrete cases -/

namespace SolveExample
open Verif.Pkg.Example Verif.Solve.Example Verif.Solve.Check

instance (cls : ReqClass) (t : CTuple Nat Str) : Decidable (∃ r : Requirement Nat Nat, fromConstraints cls t = .ok r) :=
  match h : fromConstraints (U := Nat) cls t with
  | .error e => isFalse (by rintro ⟨r, hr⟩; cases hr)
  | .ok r => isTrue ⟨r, rfl⟩

theorem readable_of {p : P} (h1 : ∀ t ∈ p.installRequires, ∃ r : Requirement Nat Nat, fromConstraints .install t = .ok r)
    (h2 : ∀ t ∈ p.conflicts, ∃ r : Requirement Nat Nat, fromConstraints .conflict t = .ok r) : Readable (some Modifiers.empty) p :=
  ⟨h1, fun t ht => by
    obtain ⟨r, hr⟩ := h2 t ht
    exact ⟨r, hr, fun m hm => by cases hm; exact ⟨r, modifyRequirement_noTargets rfl r⟩⟩⟩

/-- the jobs of the example of C40 - C42 and of its unsatisfiable variant -/
theorem wellFormed {jobs : List (Job Nat Nat)} (hj : ∀ j ∈ jobs, j.kind ≠ .upgrade ∧ j.requirement.isSome = true) :
    WellFormed (repos inst remote) (solver inst remote) (request jobs) := by
  have h1 : ∀ p ∈ allPackages (repos inst remote),
      (∀ t ∈ p.installRequires, ∃ r : Requirement Nat Nat, fromConstraints .install t = .ok r) ∧
      (∀ t ∈ p.conflicts, ∃ r : Requirement Nat Nat, fromConstraints .conflict t = .ok r) := by decide +kernel
  have h2 : ∀ p ∈ (solver inst remote).installed.iter, ∃ q ∈ allPackages (repos inst remote), q.key = p.key := by
    decide +kernel
  refine ⟨fun p hp => readable_of (h1 p hp).1 (h1 p hp).2, ?_, rfl, ?_⟩
  · rintro k ⟨p, hp, rfl⟩
    exact h2 p hp
  · rw [effectiveJobs_plain _ (fun j h => (hj j h).1)]
    intro j h
    exact ⟨(hj j h).1, Option.isSome_iff_exists.1 (hj j h).2⟩

/-- a dependency of a package of the example has a smaller name -/
theorem acyclic : ¬ ∃ k, TransGen (OtherDep (allPackages (repos inst remote)) (some Modifiers.empty)) k k := by
  have h1 : ∀ p ∈ allPackages (repos inst remote), ∀ t ∈ p.installRequires, ∀ d ∈ allPackages (repos inst remote),
      MeetsDep (some Modifiers.empty) t d → d.name < p.name := by decide +kernel
  have h2 : ∀ k k', OtherDep (allPackages (repos inst remote)) (some Modifiers.empty) k k' →
      (∃ p ∈ allPackages (repos inst remote), p.key = k) → k'.name < k.name := by
    rintro k k' ⟨-, t, ht, d, hd, rfl, hm⟩ ⟨p, hp, rfl⟩
    exact h1 p hp t ht d hd hm
  have h3 : ∀ k k', OtherDep (allPackages (repos inst remote)) (some Modifiers.empty) k k' →
      ∃ p ∈ allPackages (repos inst remote), p.key = k' := by
    rintro k k' ⟨-, t, ht, d, hd, hk, -⟩
    exact ⟨d, hd, hk⟩
  have h4 : ∀ k k', TransGen (OtherDep (allPackages (repos inst remote)) (some Modifiers.empty)) k k' →
      (∃ p ∈ allPackages (repos inst remote), p.key = k') ∧
      ((∃ p ∈ allPackages (repos inst remote), p.key = k) → k'.name < k.name) := by
    intro k k' h
    induction h with
    | single h => exact ⟨h3 _ _ h, h2 _ _ h⟩
    | tail _ h ih => exact ⟨h3 _ _ h, fun hk => lt_trans (h2 _ _ h ih.1) (ih.2 hk)⟩
  rintro ⟨k, hk⟩
  exact absurd ((h4 k k hk).2 (h4 k k hk).1) (lt_irrefl _)

/-- C61: all hypotheses hold for the request to install 3 and remove 4; so, whatever the iteration orders, a transaction is
found, because the one of `example_install` is valid -/
example (o : Orders) : ∃ t, (solver inst remote).solve o (request [install (req 3), remove (req 4)]) = .ok t := by
  refine (C61_solution_found_iff forExample o (wellFormed (by decide)) rfl (by
      have : ∀ p ∈ allPackages (repos inst remote), p.provides.map Prod.fst = [p.name] := by decide +kernel
      intro p hp n hn
      have h1 := (mem_provides_names p n).2 hn
      rw [this p hp, List.mem_singleton] at h1
      exact h1) acyclic ?_ ?_ ?_).2 ?_
  · have : ∀ p ∈ (solver inst remote).installed.iter, ∀ q ∈ (solver inst remote).installed.iter, p.name = q.name →
        p.key = q.key := by decide +kernel
    rintro k k' ⟨p, hp, rfl⟩ ⟨q, hq, rfl⟩ e
    exact this p hp q hq e
  · rw [effectiveJobs_plain _ (by decide)]
    intro j hj hk r hr
    left
    refine ⟨(pkg 9 4 1).key, ⟨pkg 9 4 1, by decide +kernel, rfl⟩, ?_⟩
    simp only [request, List.mem_cons, List.not_mem_nil, or_false] at hj
    rcases hj with rfl | rfl
    · cases hk
    · cases hr; rfl
  · rw [effectiveJobs_plain _ (by decide)]
    have h3 : ∃ p ∈ allPackages (repos inst remote), MeetsJob (req 3) p := by decide +kernel
    have h4 : ∃ p ∈ allPackages (repos inst remote), MeetsJob (req 4) p := by decide +kernel
    intro j hj
    simp only [request, List.mem_cons, List.not_mem_nil, or_false] at hj
    rcases hj with rfl | rfl
    · exact ⟨by decide, req 3, rfl, h3⟩
    · exact ⟨by decide, req 4, rfl, h4⟩
  · obtain ⟨t, ht, -⟩ := solved_ok example_install
    exact solvable_of_ok forExample ht

/-- C61: nothing provides 7 -/
example (o : Orders) : (solver inst remote).solve o (request [install (req 3), install (req 7)]) =
    .error (.pkg .noPackageFound) := by
  refine C61_no_package_found forExample o (wellFormed (by decide)) ?_
  rw [effectiveJobs_plain _ (by decide)]
  refine ⟨install (req 7), by simp [request], ?_⟩
  have : ∀ p ∈ allPackages (repos inst remote), ¬ MeetsJob (req 7) p := by decide +kernel
  rintro ⟨-, r, hr, p, hp, hm⟩
  cases hr
  exact this p hp hm

/-- C61: 3 and 5 cannot be installed together, whatever the iteration orders -/
example (o : Orders) : ∃ u, (solver inst remote).solve o (request [install (req 3), install (req 5)]) =
    .error (.sat (.satisfiability u)) := by
  refine (C61_unsatisfiable_iff forExample o (wellFormed (by decide)) ?_).2
    (no_solution forExample insertionOrder _ example_unsatisfiable)
  rw [effectiveJobs_plain _ (by decide)]
  have h3 : ∃ p ∈ allPackages (repos inst remote), MeetsJob (req 3) p := by decide +kernel
  have h5 : ∃ p ∈ allPackages (repos inst remote), MeetsJob (req 5) p := by decide +kernel
  intro j hj
  simp only [request, List.mem_cons, List.not_mem_nil, or_false] at hj
  rcases hj with rfl | rfl
  · exact ⟨by decide, req 3, rfl, h3⟩
  · exact ⟨by decide, req 5, rfl, h5⟩

/-- C61: without the condition on cycles, a request that has a valid installation may end in ValueError -/
theorem C61_cycle_value_error :
    solved ((solver [] [pkg 0 1 1 [dep 2], pkg 0 2 1 [dep 1]]).solve insertionOrder (request [install (req 1)])) =
      some (.error .valueError) := by decide +kernel

end SolveExample

end Verif.Props
