import Verif.Solve.ResultLemmas
import Verif.Solve.TwinLemmas
import Verif.Solve.Example
import Verif.Solve.Check
/-
Properties of `DependencySolver.solve`: C40, C41, C42, C43, C48, C49.
The specification is in Verif/Rules/Spec.lean (valid installations), Verif/Solve/Spec.lean (what a transaction does) and
Verif/Solve/SolveSpec.lean (solvers, requests, related packages).
-/
set_option linter.unusedSectionVars false
namespace Verif.Props
open Verif Verif.Pkg Verif.Solve Verif.Rules

variable {N S U : Type} [LinearOrder N] [DecidableEq S] [LinearOrder U] [Syntax S U]
variable {rs : List (Repository N S U)} {s : DependencySolver N S U}

/-! ### C40 -/

/-- the jobs of a request without upgrade job are those that are solved -/
theorem effectiveJobs_plain (s : DependencySolver N S U) {q : Request N U} (h : ∀ j ∈ q.jobs, j.kind ≠ .upgrade) :
    effectiveJobs s q = q.jobs := by
  unfold effectiveJobs convertUpgrade
  split
  · next j hj =>
    rw [if_neg (h j (by rw [hj]; simp))]
  · rfl

/-- what is left of the rules decides whether there is a valid installation -/
theorem clauses_iff (hs : SolverFor rs s) {o : Orders} {q : Request N U} {st : Setup N S U}
    (h : createRules s o (s.solvePool q) (convertUpgrade q s.remote s.installed) = .ok st) :
    Sat.Satisfiable st.clauses ↔ ∃ I, Solves rs s q I := by
  have hb := hs.solvePool q
  have hsp := createRules_spec hb hs h
  have := C37_satisfiable_iff hb hsp.ids hsp.gen
  have hset : InstalledSet st.installedDict = InstalledKeys s := by funext k; exact propext (hsp.inst k)
  rw [hset] at this
  simp only [solves_active]
  exact this

theorem solvePool_convert (s : DependencySolver N S U) (q : Request N U) :
    s.solvePool (convertUpgrade q s.remote s.installed) = s.solvePool q := by
  unfold DependencySolver.solvePool
  rw [convertUpgrade_modifiers]

/-- the three stages of `solve` -/
theorem solve_stages (s : DependencySolver N S U) (o : Orders) (q : Request N U) :
    s.solve o q = match createRules s o (s.solvePool q) (convertUpgrade q s.remote s.installed) with
      | .error e => .error (.pkg e)
      | .ok st => match search o (s.solvePool q) st with
        | .error e => .error (.sat e)
        | .ok a => liftP (finish s o (s.solvePool q) st.requirementIds a) := by
  unfold DependencySolver.solve
  simp only [solvePool_convert]
  cases createRules s o (s.solvePool q) (convertUpgrade q s.remote s.installed) with
  | error e => rfl
  | ok st =>
    show (liftS (search o (s.solvePool q) st) >>= fun a => liftP (finish s o (s.solvePool q) st.requirementIds a)) =
      match search o (s.solvePool q) st with
        | .error e => .error (.sat e)
        | .ok a => liftP (finish s o (s.solvePool q) st.requirementIds a)
    cases search o (s.solvePool q) st <;> rfl

/-- C40: `solve` raises SatisfiabilityError only if no valid installation exists for the request, and if it returns a
transaction then one exists; the search itself raises nothing else. -/
theorem C40_decides (hs : SolverFor rs s) (o : Orders) (q : Request N U) :
    match s.solve o q with
    | .ok _ => ∃ I, Solves rs s q I
    | .error (.sat (.satisfiability _)) => ¬ ∃ I, Solves rs s q I
    | .error (.sat _) => False
    | .error (.hint _ _) => False
    | .error .unexpectedlySatisfiable => False
    | .error (.pkg _) => True := by
  rw [solve_stages]
  cases hc : createRules s o (s.solvePool q) (convertUpgrade q s.remote s.installed) with
  | error e => trivial
  | ok st =>
    have hsp := createRules_spec (hs.solvePool q) hs hc
    have hd := hsp.decides (hs.solvePool q) o
    rw [clauses_iff hs hc] at hd
    cases hse : search o (s.solvePool q) st with
    | error e =>
      obtain ⟨u, rfl⟩ := hsp.only_unsat (hs.solvePool q) o hse
      simp only [hse]
      exact hd.2.1 ⟨u, hse⟩
    | ok a =>
      simp only [hse]
      have := hd.1.1 ⟨a, hse⟩
      cases finish s o (s.solvePool q) st.requirementIds a with
      | error e => trivial
      | ok t => exact this

/-- C40: once the rules have been made (`createRules` returns), `solve` raises SatisfiabilityError exactly if no valid
installation exists. -/
theorem C40_unsatisfiable_iff (hs : SolverFor rs s) (o : Orders) (q : Request N U) {st : Setup N S U}
    (h : createRules s o (s.solvePool q) (convertUpgrade q s.remote s.installed) = .ok st) :
    (∃ u, s.solve o q = .error (.sat (.satisfiability u))) ↔ ¬ ∃ I, Solves rs s q I := by
  have hsp := createRules_spec (hs.solvePool q) hs h
  have hd := hsp.decides (hs.solvePool q) o
  rw [clauses_iff hs h] at hd
  rw [← hd.2, solve_stages]
  simp only [h]
  cases hse : search o (s.solvePool q) st with
  | error e => simp
  | ok a =>
    simp only [reduceCtorEq, exists_false, iff_false]
    rintro ⟨u, hu⟩
    cases hf : finish s o (s.solvePool q) st.requirementIds a <;> rw [hf] at hu <;> simp [liftP] at hu

/-- C40: the iteration orders of Python's sets have no influence on which of the two it is. -/
theorem C40_order_independent (hs : SolverFor rs s) (o o' : Orders) (q : Request N U) {t : Transaction N S U}
    (h : s.solve o q = .ok t) (u : Sat.UnsatInfo) : s.solve o' q ≠ .error (.sat (.satisfiability u)) := by
  have h1 := C40_decides hs o q
  have h2 := C40_decides hs o' q
  intro hu
  rw [h] at h1
  rw [hu] at h2
  exact h2 h1

/-! ### C41 -/

theorem completed_valid {m : Option (Modifiers N)} {jobs : List (Job N U)} {pool : Pool N S U} {st : Setup N S U} {a : ASet}
    {installed : List Nat} {D : List Int} (hc : Completed rs s m jobs pool st a installed D) {t : Transaction N S U}
    (ht : mkTransaction pool D installed = .ok t) (hu : s.usePruning = true) (hE : Exclusive (allPackages rs) m)
    (hT : Tidy (allPackages rs) (InstalledKeys s) jobs) (hM : SameMetadata (allPackages rs) (InstalledKeys s)) :
    ValidInstall (allPackages rs) m (InstalledKeys s) jobs (Result s t) := by
  have hw := (hc.wanted_valid hu hE hT).2
  have key := fun k => C45_decisions_realised hc.built hc.decisions hc.hI ht k
  have hno := fun k k' => C45_no_reinstallation hc.built hc.decisions hc.hI ht k k'
  simp only [hc.installed_eq] at key hno
  refine twin_valid hM hw ?_ ?_ ?_ ?_
  · intro k hk
    obtain ⟨i, ⟨p, rfl, hp⟩, -⟩ := (hc.installed_iff k).2 hk
    obtain ⟨-, -, p', -, hk', hp', -⟩ := hc.built.ok.ids.packageId_spec hp
    exact ⟨p', hp', hk'⟩
  · intro k hR hW
    obtain ⟨h1, -, k', h2, h3, h4⟩ := (key k).1 hR hW
    exact ⟨h1, k', Or.inr h2, h3, h4⟩
  · intro k hW hR
    obtain ⟨-, h1, k', h2, h3, h4⟩ := (key k).2 hW hR
    exact ⟨h1, k', h2, h3, h4⟩
  · intro k k' hR hk hk'
    rcases hR with ⟨h1, -⟩ | h1
    · exact absurd h1 hk
    · exact hno k k' h1 hk'

/-- C41 (partial): applying the transaction to the installed packages gives a valid installation, provided that pruning is
on, that packages which provide a common name exclude each other (`Exclusive`), that no such name leads to packages that
the request says nothing about (`Tidy`), and that packages of the same name and version have the same metadata. What is
missing: the property fails without these conditions, see `C41_violated_*`. -/
theorem C41_valid_installation_partial (hs : SolverFor rs s) {o : Orders} {q : Request N U} {t : Transaction N S U}
    (h : s.solve o q = .ok t) (hu : s.usePruning = true) (hE : Exclusive (allPackages rs) (some q.modifiers))
    (hT : Tidy (allPackages rs) (InstalledKeys s) (effectiveJobs s q))
    (hM : SameMetadata (allPackages rs) (InstalledKeys s)) : Solves rs s q (Result s t) := by
  rw [← exclusive_active] at hE
  rw [solves_active]
  obtain ⟨pool, st, a, installed, D, hc, -, ht⟩ := solve_ok hs h
  exact completed_valid hc ht hu hE hT hM

/-- every package provides nothing but its own name -/
def PlainNames (avail : List (Package N S U)) : Prop := ∀ p ∈ avail, ∀ n, Provides p n → n = p.name

theorem PlainNames.exclusive {avail : List (Package N S U)} (h : PlainNames avail) (mods : Option (Modifiers N)) :
    Exclusive avail mods := by
  rintro p hp q hq ⟨n, h1, h2⟩
  exact Or.inl ((h p hp n h1).symm.trans (h q hq n h2))

theorem PlainNames.tidy {avail : List (Package N S U)} (h : PlainNames avail) {installed : PKey N S U → Prop}
    {jobs : List (Job N U)} (hr : ∀ j ∈ jobs, j.kind = .remove → ∀ r, j.requirement = some r →
      (∃ k, installed k ∧ k.name = r.name) ∨ ∀ p ∈ avail, p.name = r.name → MeetsJob r p) : Tidy avail installed jobs := by
  constructor
  · rintro p hp r hra ⟨n, h1, h2⟩ hi
    refine ⟨r.key, hi, Or.inl ?_⟩
    show r.name = p.name
    rw [← h p hp n h1, ← h r hra n h2]
  · rintro p hp r hra ⟨n, h1, h2⟩ j hj ⟨r0, ⟨req, hreq, hreq2⟩, hk⟩
    have hpr : p.name = r.name := (h p hp n h1).symm.trans (h r hra n h2)
    have hnk : r0.name = r.name := congrArg PKey.name hk
    have ask : ∀ c, (if j.kind = .hardUpdate then UpdateTarget avail installed req c else c ∈ avail ∧ MeetsJob req c) →
        c ∈ avail ∧ c.name = req.name := by
      intro c hc
      split at hc
      · obtain ⟨b, d, heq, hm, -⟩ := hc
        have hca : c ∈ avail := by rw [heq]; simp
        exact ⟨hca, (h c hca _ hm.1).symm⟩
      · exact ⟨hc.1, (h c hc.1 _ hc.2.1).symm⟩
    have hreqn := (ask r0 hreq2).2
    by_cases hrem : j.kind = .remove
    · rcases hr j hj hrem req hreq with ⟨k, hk1, hk2⟩ | hall
      · left
        refine ⟨k, hk1, Or.inl ?_⟩
        rw [hk2, ← hreqn, hnk, hpr]
      · right; left
        refine ⟨hrem, req, hreq, ?_⟩
        rw [if_neg (by rw [hrem]; simp)]
        exact ⟨hp, hall p hp (by rw [hpr, ← hnk, hreqn])⟩
    · right; right
      refine ⟨hrem, ?_⟩
      rintro c hc ⟨req', hreq', hc'⟩
      rw [hreq] at hreq'
      cases hreq'
      refine ⟨p.name, Or.inl rfl, Or.inl ?_⟩
      rw [(ask c hc').2, ← hreqn, hnk, hpr]

/-- C41 (partial): in particular this is so if no package provides anything but its own name, and the name of each
requirement to be removed is installed or removed as a whole. What is missing: see above. -/
theorem C41_valid_installation_plain_partial (hs : SolverFor rs s) {o : Orders} {q : Request N U} {t : Transaction N S U}
    (h : s.solve o q = .ok t) (hu : s.usePruning = true) (hP : PlainNames (allPackages rs))
    (hr : ∀ j ∈ effectiveJobs s q, j.kind = .remove → ∀ r, j.requirement = some r →
      (∃ k, InstalledKeys s k ∧ k.name = r.name) ∨ ∀ p ∈ allPackages rs, p.name = r.name → MeetsJob r p)
    (hM : SameMetadata (allPackages rs) (InstalledKeys s)) : Solves rs s q (Result s t) :=
  C41_valid_installation_partial hs h hu (hP.exclusive _) (hP.tidy hr) hM

theorem completed_jobs {m : Option (Modifiers N)} {jobs : List (Job N U)} {pool : Pool N S U} {st : Setup N S U} {a : ASet}
    {installed : List Nat} {D : List Int} (hc : Completed rs s m jobs pool st a installed D) {t : Transaction N S U}
    (ht : mkTransaction pool D installed = .ok t) (hM : SameMetadata (allPackages rs) (InstalledKeys s)) {j : Job N U}
    (hj : j ∈ jobs) : JobSatisfied (allPackages rs) (InstalledKeys s) (Result s t) j := by
  have key := fun k => C45_decisions_realised hc.built hc.decisions hc.hI ht k
  simp only [hc.installed_eq] at key
  have havail : ∀ k i, IdOf pool k i → ∃ p ∈ allPackages rs, p.key = k := by
    intro k i hk
    obtain ⟨p, h1, h2, -⟩ := IdOf.get hc.built.ok hk
    exact ⟨p, h1, h2⟩
  have hinst : ∀ k, InstalledKeys s k → ∃ p ∈ allPackages rs, p.key = k := by
    intro k hk
    obtain ⟨i, hi, -⟩ := (hc.installed_iff k).2 hk
    exact havail k i hi
  refine twin_jobs (jobs := jobs) (W := Wanted pool D installed) hM ?_ ?_ hinst ?_ ?_ j hj
  · rintro k (⟨hk, -⟩ | ⟨i, hk, -⟩)
    · exact hinst k ((hc.installed_iff k).1 hk)
    · exact havail k i hk
  · intro j hj
    obtain ⟨r, hr, hsat⟩ := hc.chosen_valid.jobs j hj
    have inst : j.kind ≠ .remove → j.kind ≠ .hardUpdate → ∃ q ∈ allPackages rs, Wanted pool D installed q.key ∧ MeetsJob r q := by
      intro h1 h2
      obtain ⟨c, hca, hreq, hch⟩ := hc.requested_chosen hj h1
      have hd := hc.requested_decided hj hreq hch h1
      obtain ⟨r', hr', hc'⟩ := hreq
      rw [hr] at hr'
      cases hr'
      rw [if_neg h2] at hc'
      exact ⟨c, hca, Or.inr hd, hc'.2⟩
    refine ⟨r, hr, ?_⟩
    cases hkind : j.kind with
    | install => exact inst (by rw [hkind]; simp) (by rw [hkind]; simp)
    | softUpdate => exact inst (by rw [hkind]; simp) (by rw [hkind]; simp)
    | upgrade => rw [hkind] at hsat; exact hsat.elim
    | hardUpdate =>
      rw [hkind] at hsat
      intro q hq
      exact Or.inr (hc.requested_decided hj ⟨r, hr, by rw [if_pos hkind]; exact hq⟩ (hsat q hq) (by rw [hkind]; simp))
    | remove =>
      intro q hq hw hm
      obtain ⟨i, hi⟩ := hc.built.ok.ids.packageId_ok ⟨q, hq, rfl⟩
      have hreq : Requested (allPackages rs) (InstalledKeys s) j q := ⟨r, hr, by rw [if_neg (by rw [hkind]; simp)]; exact ⟨hq, hm⟩⟩
      have hf := hc.requested hj hreq hi
      rw [if_pos hkind] at hf
      have hout : -(i : Int) ∈ D := by
        refine hc.roots ((hc.found.neg i).2 hf.2) (Or.inl ?_)
        rw [Int.natAbs_neg, Int.natAbs_natCast]
        exact (hc.setup.reqs i).2 ⟨j, hj, q, hreq, hi⟩
      rcases hw with ⟨-, hw⟩ | ⟨i', ⟨q', hk', hi'⟩, hw⟩
      · exact hw ⟨i, ⟨q, rfl, hi⟩, hout⟩
      · rw [pool.packageId_congr hk', hi] at hi'
        cases hi'
        exact hc.decisions.consistent _ hw hout
  · intro k hR hW
    obtain ⟨h1, -, k', h2, h3, h4⟩ := (key k).1 hR hW
    exact ⟨h1, k', Or.inr h2, h3, h4⟩
  · intro k hW hR
    obtain ⟨-, h1, k', h2, h3, h4⟩ := (key k).2 hW hR
    exact ⟨h1, k', h2, h3, h4⟩

/-- C41: whatever the pool, with or without pruning, every job of the request is satisfied after the transaction, if
packages of the same name and version have the same metadata. -/
theorem C41_jobs_satisfied (hs : SolverFor rs s) {o : Orders} {q : Request N U} {t : Transaction N S U}
    (h : s.solve o q = .ok t) (hM : SameMetadata (allPackages rs) (InstalledKeys s)) {j : Job N U}
    (hj : j ∈ effectiveJobs s q) : JobSatisfied (allPackages rs) (InstalledKeys s) (Result s t) j := by
  obtain ⟨pool, st, a, installed, D, hc, -, ht⟩ := solve_ok hs h
  exact completed_jobs hc ht hM hj

/-! ### C42 -/

theorem installedBy_iff {rem ins : List (Package N S U)} (k : PKey N S U) :
    InstalledBy (rem.map Op.remove ++ ins.map Op.install) k ↔ ∃ p ∈ ins, p.key = k := by
  unfold InstalledBy
  constructor
  · rintro ⟨o, ho, hk⟩
    rcases List.mem_append.1 ho with ho | ho <;> obtain ⟨p, hp, rfl⟩ := List.mem_map.1 ho
    · exact hk.elim
    · exact ⟨p, hp, hk⟩
  · rintro ⟨p, hp, rfl⟩
    exact ⟨.install p, List.mem_append_right _ (List.mem_map.2 ⟨p, hp, rfl⟩), rfl⟩

theorem removedBy_iff {rem ins : List (Package N S U)} (k : PKey N S U) :
    RemovedBy (rem.map Op.remove ++ ins.map Op.install) k ↔ ∃ p ∈ rem, p.key = k := by
  unfold RemovedBy
  constructor
  · rintro ⟨o, ho, hk⟩
    rcases List.mem_append.1 ho with ho | ho <;> obtain ⟨p, hp, rfl⟩ := List.mem_map.1 ho
    · exact ⟨p, hp, hk⟩
    · exact hk.elim
  · rintro ⟨p, hp, rfl⟩
    exact ⟨.remove p, List.mem_append_left _ (List.mem_map.2 ⟨p, hp, rfl⟩), rfl⟩

theorem Completed.related {m : Option (Modifiers N)} {jobs : List (Job N U)} {pool : Pool N S U} {st : Setup N S U}
    {a : ASet} {installed : List Nat} {D : List Int} (hc : Completed rs s m jobs pool st a installed D)
    (hu : s.usePruning = true) {k : PKey N S U} (hk : DecidedIn pool D k) :
    ∃ p ∈ allPackages rs, p.key = k ∧ Related (allPackages rs) (InstalledKeys s) jobs p := by
  have hd := hc.decided
  rw [if_pos hu] at hd
  obtain ⟨rootIds, name, included, hroot, hp⟩ := hd
  have share : ∀ (p r : Package N S U) (i : Nat), p ∈ allPackages rs → r ∈ allPackages rs → pool.packageId r = .ok i →
      i ∈ rootIds → ShareName p r → Related (allPackages rs) (InstalledKeys s) jobs p := by
    intro p r i hpa hra hri hi hsh
    rcases (hroot i).1 hi with hi | hi
    · obtain ⟨j, hj, c, hcr, hci⟩ := (hc.setup.reqs i).1 hi
      exact .ofJob hpa hra hj ⟨c, hcr, hc.built.ok.ids.packageId_inj hci hri⟩ hsh
    · obtain ⟨c, hci, hcid⟩ := (hc.inst i).1 hi
      exact .ofInstalled hpa hra ⟨c, hci, hc.built.ok.ids.packageId_inj hcid hri⟩ hsh
  have sel : ∀ n l, name n = some l → ∃ p ∈ allPackages rs, pool.idToPkg l.natAbs = .ok p ∧ Provides p n := by
    intro n l hl
    obtain ⟨h1, h2, p, h3, h4⟩ := hp.nameSound n l hl
    rcases hc.found.lits l h1 with ⟨-, hv⟩ | ⟨h5, -⟩
    · obtain ⟨p0, hp0, hpi⟩ := hc.found.known l (by rw [hv]; simp)
      obtain ⟨p', hp', hget, -⟩ := hc.get ⟨p0.key, p0, rfl, hpi⟩
      rw [h3] at hget
      cases hget
      exact ⟨p, hp', h3, h4⟩
    · omega
  have rootPkg : ∀ i ∈ rootIds, ∃ r ∈ allPackages rs, pool.idToPkg i = .ok r ∧ pool.packageId r = .ok i := by
    intro i hi
    apply hc.get
    rcases (hroot i).1 hi with hi | hi
    · obtain ⟨j, hj, c, hcr, hci⟩ := (hc.setup.reqs i).1 hi
      exact ⟨c.key, c, rfl, hci⟩
    · exact hc.hI i hi
  have hinc : ∀ l ∈ included, ∃ p ∈ allPackages rs, pool.idToPkg l.natAbs = .ok p ∧
      Related (allPackages rs) (InstalledKeys s) jobs p := by
    refine hp.least (fun l => ∃ p ∈ allPackages rs, pool.idToPkg l.natAbs = .ok p ∧
      Related (allPackages rs) (InstalledKeys s) jobs p) ?_ ?_
    · intro i hi r hr n hn l hl
      obtain ⟨p, hpa, hpl, hpn⟩ := sel n l hl
      obtain ⟨r', hra, hr', hri⟩ := rootPkg i hi
      rw [hr] at hr'
      cases hr'
      exact ⟨p, hpa, hpl, share p r i hpa hra hri hi ⟨n, hpn, hn⟩⟩
    · rintro l ⟨p, hpa, hpl, hrel⟩ p' hp' t ht l' hl'
      rw [hpl] at hp'
      cases hp'
      obtain ⟨q, hqa, hql, hqn⟩ := sel t.1 l' hl'
      exact ⟨q, hqa, hql, .dep hrel ht hqa hqn⟩
  obtain ⟨i, hid, hi⟩ := hk
  obtain ⟨p, hpa, hkey, hpl, hpi⟩ := IdOf.get hc.built.ok hid
  rcases (hp.decided (i : Int)).1 hi with hi | ⟨-, hi⟩
  · obtain ⟨p', hp'a, hp'l, hrel⟩ := hinc _ hi
    rw [Int.natAbs_natCast, hpl] at hp'l
    cases hp'l
    exact ⟨p, hpa, hkey, hrel⟩
  · rw [Int.natAbs_natCast] at hi
    exact ⟨p, hpa, hkey, share p p i hpa hpa hpi hi ⟨p.name, Or.inl rfl, Or.inl rfl⟩⟩

/-- C42: with pruning, every package that the transaction installs is related to the request (`Related`): it is
reachable, through declared dependencies, from a package that shares a provided name with an installed or a requested
one. -/
theorem C42_installs_related (hs : SolverFor rs s) {o : Orders} {q : Request N U} {t : Transaction N S U}
    (h : s.solve o q = .ok t) (hu : s.usePruning = true) {k : PKey N S U} (hk : InstalledBy t.operations k) :
    ∃ p ∈ allPackages rs, p.key = k ∧ Related (allPackages rs) (InstalledKeys s) (effectiveJobs s q) p := by
  obtain ⟨pool, st, a, installed, D, hc, -, ht⟩ := solve_ok hs h
  obtain ⟨rem, ins, he, -, h2, -⟩ := C44_operations_well_formed hc.built hc.decisions hc.hI ht
  rw [he, installedBy_iff] at hk
  obtain ⟨p, hp, rfl⟩ := hk
  exact Completed.related hc hu (h2 p hp).2

/-- C42: with or without pruning, the transaction removes only installed packages, and installs only packages that are
not installed. -/
theorem C42_removes_installed (hs : SolverFor rs s) {o : Orders} {q : Request N U} {t : Transaction N S U}
    (h : s.solve o q = .ok t) (k : PKey N S U) :
    (RemovedBy t.operations k → InstalledKeys s k) ∧ (InstalledBy t.operations k → ¬ InstalledKeys s k) := by
  obtain ⟨pool, st, a, installed, D, hc, -, ht⟩ := solve_ok hs h
  obtain ⟨rem, ins, he, h1, h2, -⟩ := C44_operations_well_formed hc.built hc.decisions hc.hI ht
  rw [he, removedBy_iff, installedBy_iff]
  constructor
  · rintro ⟨p, hp, rfl⟩
    exact (hc.installed_iff _).1 (h1 p hp).1
  · rintro ⟨p, hp, rfl⟩ hk
    exact (h2 p hp).1 ((hc.installed_iff _).2 hk)

/-! ### C43 -/

/-- C43 (partial): if the installed packages already form a valid installation for the request, the transaction is
empty, provided that pruning is on, that packages which provide a common name exclude each other, and that the request
contains no soft update (which asks not to prefer the installed version). What is missing: the property fails when two
packages that do not exclude each other provide a requested name, see `C43_violated`. -/
theorem C43_satisfied_request_changes_nothing_partial (hs : SolverFor rs s) {o : Orders} {q : Request N U}
    {t : Transaction N S U} (h : s.solve o q = .ok t) (hu : s.usePruning = true)
    (hv : Solves rs s q (InstalledKeys s)) (hsoft : ∀ j ∈ effectiveJobs s q, j.kind ≠ .softUpdate)
    (hE : Exclusive (allPackages rs) (some q.modifiers))
    (hT : Tidy (allPackages rs) (InstalledKeys s) (effectiveJobs s q)) : t.operations = [] := by
  rw [← exclusive_active] at hE
  rw [solves_active] at hv
  obtain ⟨pool, st, a, installed, D, hc, hsearch, ht⟩ := solve_ok hs h
  obtain ⟨rem, ins, he, h1, h2, -⟩ := C44_operations_well_formed hc.built hc.decisions hc.hI ht
  have hkeep := fun (p : Package N S U) (i : Nat) (hp : InstalledKeys s p.key) (hi : pool.packageId p = .ok i) =>
    hc.keeps hsearch hv hsoft hp hi
  have hrem : rem = [] := by
    rw [List.eq_nil_iff_forall_not_mem]
    intro p hp
    obtain ⟨h3, i, ⟨p', hk, hi⟩, hd⟩ := h1 p hp
    have hin := (hc.installed_iff _).1 h3
    rw [← hk] at hin
    exact (hkeep p' i hin hi).1 ((hc.found.neg i).1 (hc.sub _ hd))
  have hins : ins = [] := by
    rw [List.eq_nil_iff_forall_not_mem]
    intro p hp
    obtain ⟨h3, h4⟩ := h2 p hp
    exact h3 ((hc.installed_iff _).2 (hc.nothing_new hu hE hT hv (fun p i h1 h2 => (hkeep p i h1 h2).2) h4))
  rw [he, hrem, hins]
  rfl

/-- C43: a request that the installed packages already satisfy is never reported as unsatisfiable. -/
theorem C43_satisfied_request_is_satisfiable (hs : SolverFor rs s) (o : Orders) (q : Request N U)
    (hv : Solves rs s q (InstalledKeys s)) (u : Sat.UnsatInfo) : s.solve o q ≠ .error (.sat (.satisfiability u)) := by
  have h := C40_decides hs o q
  intro hu
  rw [hu] at h
  exact h ⟨_, hv⟩

/-- C43: whatever the pool, no installed package is removed then, with or without pruning. -/
theorem C43_satisfied_request_removes_nothing (hs : SolverFor rs s) {o : Orders} {q : Request N U}
    {t : Transaction N S U} (h : s.solve o q = .ok t) (hv : Solves rs s q (InstalledKeys s))
    (hsoft : ∀ j ∈ effectiveJobs s q, j.kind ≠ .softUpdate) (k : PKey N S U) : ¬ RemovedBy t.operations k := by
  rw [solves_active] at hv
  obtain ⟨pool, st, a, installed, D, hc, hsearch, ht⟩ := solve_ok hs h
  obtain ⟨rem, ins, he, h1, h2, -⟩ := C44_operations_well_formed hc.built hc.decisions hc.hI ht
  rw [he, removedBy_iff]
  rintro ⟨p, hp, rfl⟩
  obtain ⟨h3, i, ⟨p', hk, hi⟩, hd⟩ := h1 p hp
  have hin := (hc.installed_iff _).1 h3
  rw [← hk] at hin
  exact (hc.keeps hsearch hv hsoft hin hi).1 ((hc.found.neg i).1 (hc.sub _ hd))

/-! ### C48 -/

/-- what is decided in is installed afterwards, up to the choice among packages of the same name and version -/
theorem Completed.result_of_decided {m : Option (Modifiers N)} {jobs : List (Job N U)} {pool : Pool N S U}
    {st : Setup N S U} {a : ASet} {installed : List Nat} {D : List Int} (hc : Completed rs s m jobs pool st a installed D)
    {t : Transaction N S U} (ht : mkTransaction pool D installed = .ok t) {k : PKey N S U} (hk : DecidedIn pool D k) :
    ∃ k', Result s t k' ∧ SameNameVersion k' k := by
  obtain ⟨-, h2⟩ := C45_decisions_realised hc.built hc.decisions hc.hI ht k
  rw [hc.installed_eq] at h2
  by_cases hR : Result s t k
  · exact ⟨k, hR, rfl, rfl⟩
  · obtain ⟨-, -, k', -, h3, h4⟩ := h2 (Or.inr hk) hR
    exact ⟨k', h4, h3⟩

/-- C48: after a request with a hard update of a requirement `r`, the package of the highest version among all available
ones that meet `r` is installed. -/
theorem C48_hard_update_installs_newest (hs : SolverFor rs s) {o : Orders} {q : Request N U} {t : Transaction N S U}
    (h : s.solve o q = .ok t) {j : Job N U} (hj : j ∈ q.jobs) (hk : j.kind = .hardUpdate) {r : Requirement N U}
    (hr : j.requirement = some r) :
    ∃ p ∈ allPackages rs, MeetsJob r p ∧ (∀ p' ∈ allPackages rs, MeetsJob r p' → p'.version ≤ p.version) ∧
      ∃ k, Result s t k ∧ SameNameVersion k p.key := by
  obtain ⟨pool, st, a, installed, D, hc, -, ht⟩ := solve_ok hs h
  have hj' : j ∈ effectiveJobs s q := by
    unfold effectiveJobs convertUpgrade
    split
    · next j' hq =>
      rw [hq, List.mem_singleton] at hj
      subst hj
      rw [if_neg (by rw [hk]; simp), hq]
      simp
    · exact hj
  obtain ⟨p, hp, hreq, hch⟩ := hc.requested_chosen hj' (by rw [hk]; simp)
  have hdec := hc.requested_decided hj' hreq hch (by rw [hk]; simp)
  obtain ⟨r', hr', htarget⟩ := hreq
  rw [hr] at hr'
  cases hr'
  rw [if_pos hk] at htarget
  obtain ⟨b, c, heq, hm, hbef, haft⟩ := htarget
  refine ⟨p, hp, hm, ?_, Completed.result_of_decided hc ht hdec⟩
  intro p' hp' hm'
  rw [heq] at hp'
  rcases List.mem_append.1 hp' with hp' | hp'
  · rcases hbef p' hp' hm' with h1 | ⟨h1, -⟩
    · exact le_of_lt h1
    · exact le_of_eq h1
  · rcases List.mem_cons.1 hp' with rfl | hp'
    · exact le_refl _
    · exact not_lt.1 (fun h1 => haft p' hp' hm' (Or.inl h1))

/-! ### C49 -/

/-- the packages of the remote repositories -/
def remotePackages (s : DependencySolver N S U) : List (Package N S U) := s.remote.flatMap Repository.iter

theorem merged_inv (remote : List (Repository N S U)) {r : Repository N S U} {l : List (Package N S U)} (h : r.Inv l) :
    (remote.foldl (fun m r => m.update r.iter) r).Inv (l ++ remote.flatMap Repository.iter) := by
  induction remote generalizing r l with
  | nil => simpa using h
  | cons a remote ih =>
    have := ih (h.update a.iter)
    simpa using this

/-- the jobs of an upgrade -/
theorem upgrade_job (s : DependencySolver N S U) {q : Request N U} {j : Job N U} (hq : q.jobs = [j]) (hk : j.kind = .upgrade)
    {p r0 : Package N S U} (hp : p ∈ s.installed.iter) (h0 : r0 ∈ remotePackages s) (hn : r0.name = p.name) :
    ∃ r ∈ remotePackages s, r.name = p.name ∧ (∀ r' ∈ remotePackages s, r'.name = p.name → r'.version ≤ r.version) ∧
      (⟨some (Requirement.exactly .install p.name r.version), .install⟩ : Job N U) ∈ effectiveJobs s q := by
  unfold effectiveJobs convertUpgrade
  rw [hq]
  simp only [hk, if_true, List.mem_map, List.mem_filterMap]
  have hinv := merged_inv s.remote (Repository.Inv.empty (N := N) (S := S) (U := U))
  rw [List.nil_append] at hinv
  have hf := hinv.get p.name
  generalize (s.remote.foldl (fun m r => m.update r.iter) Repository.empty : Repository N S U) = merged at hf hinv
  have hfp : merged.findPackages p.name =
      sortBy Package.version ((remotePackages s).filter (fun r => decide (r.name = p.name))) := hf
  have hmem : ∀ r, r ∈ merged.findPackages p.name ↔ r ∈ remotePackages s ∧ r.name = p.name := by
    intro r
    rw [hfp, (sortBy_perm _ _).mem_iff]
    simp
  cases hl : (merged.findPackages p.name).getLast? with
  | none =>
    rw [List.getLast?_eq_none_iff] at hl
    have := (hmem r0).2 ⟨h0, hn⟩
    rw [hl] at this
    simp at this
  | some r =>
    have hr : r ∈ merged.findPackages p.name := List.mem_of_getLast? hl
    have hr' := (hmem r).1 hr
    refine ⟨r, hr'.1, hr'.2, ?_, r, ⟨p, hp, hl⟩, by rw [hr'.2]⟩
    intro r' h1 h2
    have h3 := (hmem r').2 ⟨h1, h2⟩
    have hs : (merged.findPackages p.name).Pairwise (fun a b => a.version ≤ b.version) := by rw [hfp]; exact sortBy_sorted _ _
    obtain ⟨ys, hys⟩ := List.getLast?_eq_some_iff.1 hl
    rw [hys] at h3 hs
    rw [List.pairwise_append] at hs
    rcases List.mem_append.1 h3 with h3 | h3
    · exact hs.2.2 r' h3 r (by simp)
    · rw [List.mem_singleton] at h3; rw [h3]

/-- C49: after an upgrade, for every installed package whose name occurs in the remote repositories, a package that
provides this name and has the highest version under which the name occurs there is installed. (This version may be lower
than the installed one.) Missing: that it is a package of this name, see `C49_violated`. -/
theorem C49_upgrade_to_newest_remote_partial (hs : SolverFor rs s) {o : Orders} {q : Request N U} {t : Transaction N S U}
    (h : s.solve o q = .ok t) {j : Job N U} (hq : q.jobs = [j]) (hk : j.kind = .upgrade) {p : Package N S U}
    (hp : p ∈ s.installed.iter) (hn : ∃ r ∈ remotePackages s, r.name = p.name) :
    ∃ r ∈ remotePackages s, r.name = p.name ∧ (∀ r' ∈ remotePackages s, r'.name = p.name → r'.version ≤ r.version) ∧
      ∃ c ∈ allPackages rs, Provides c p.name ∧ c.version = r.version ∧ ∃ k, Result s t k ∧ SameNameVersion k c.key := by
  obtain ⟨r0, h0, hn0⟩ := hn
  obtain ⟨r, h1, h2, h3, hj⟩ := upgrade_job s hq hk hp h0 hn0
  obtain ⟨pool, st, a, installed, D, hc, -, ht⟩ := solve_ok hs h
  obtain ⟨c, hca, hreq, hch⟩ := hc.requested_chosen hj (by simp)
  have hdec := hc.requested_decided hj hreq hch (by simp)
  obtain ⟨req, hreq1, hreq2⟩ := hreq
  cases hreq1
  rw [if_neg (by simp)] at hreq2
  obtain ⟨-, hprov, r', hl, hacc⟩ := hreq2
  cases hl
  refine ⟨r, h1, h2, h3, c, hca, hprov, ?_, Completed.result_of_decided hc ht hdec⟩
  exact (sameVersion_iff _ _).1 (hacc (.equal r.version) (by simp [Requirement.exactly]))

/-- C49: in particular, if no package provides anything but its own name, a package of the same name and of the highest
version there is installed. -/
theorem C49_upgrade_by_name_partial (hs : SolverFor rs s) {o : Orders} {q : Request N U} {t : Transaction N S U}
    (h : s.solve o q = .ok t) {j : Job N U} (hq : q.jobs = [j]) (hk : j.kind = .upgrade) {p : Package N S U}
    (hp : p ∈ s.installed.iter) (hn : ∃ r ∈ remotePackages s, r.name = p.name) (hP : PlainNames (allPackages rs)) :
    ∃ r ∈ remotePackages s, r.name = p.name ∧ (∀ r' ∈ remotePackages s, r'.name = p.name → r'.version ≤ r.version) ∧
      ∃ k, Result s t k ∧ k.name = p.name ∧ k.version = r.version := by
  obtain ⟨r, h1, h2, h3, c, h4, h5, h6, k, h7, h8⟩ := C49_upgrade_to_newest_remote_partial hs h hq hk hp hn
  refine ⟨r, h1, h2, h3, k, h7, ?_, ?_⟩
  · rw [h8.1]; exact (hP c h4 _ h5).symm
  · rw [h8.2]; exact h6

/-- C49: the jobs of an upgrade are one install job per installed package that occurs in the remote repositories, and
nothing else; a request that is not an upgrade stays as it is, and the modifiers are kept. -/
theorem C49_jobs (s : DependencySolver N S U) (q : Request N U) :
    (convertUpgrade q s.remote s.installed).modifiers = q.modifiers ∧
    ((∀ j ∈ q.jobs, j.kind ≠ .upgrade) → effectiveJobs s q = q.jobs) ∧
    ∀ j, q.jobs = [j] → j.kind = .upgrade → ∀ j' ∈ effectiveJobs s q, j'.kind = .install ∧
      ∃ p ∈ s.installed.iter, ∃ r ∈ remotePackages s, r.name = p.name ∧
        (∀ r' ∈ remotePackages s, r'.name = p.name → r'.version ≤ r.version) ∧
        j'.requirement = some (Requirement.exactly .install p.name r.version) := by
  refine ⟨convertUpgrade_modifiers q s.remote s.installed, effectiveJobs_plain s, ?_⟩
  intro j hq hk j' hj'
  unfold effectiveJobs convertUpgrade at hj'
  rw [hq] at hj'
  simp only [hk, if_true, List.mem_map, List.mem_filterMap] at hj'
  obtain ⟨r, ⟨p, hp, hl⟩, rfl⟩ := hj'
  have hinv := merged_inv s.remote (Repository.Inv.empty (N := N) (S := S) (U := U))
  rw [List.nil_append] at hinv
  generalize (s.remote.foldl (fun m r => m.update r.iter) Repository.empty : Repository N S U) = merged at hl hinv
  have hfp : merged.findPackages p.name =
      sortBy Package.version ((remotePackages s).filter (fun r => decide (r.name = p.name))) := hinv.get p.name
  have hmem : ∀ r, r ∈ merged.findPackages p.name ↔ r ∈ remotePackages s ∧ r.name = p.name := by
    intro r
    rw [hfp, (sortBy_perm _ _).mem_iff]
    simp
  have hr := (hmem r).1 (List.mem_of_getLast? hl)
  refine ⟨rfl, p, hp, r, hr.1, hr.2, ?_, by rw [hr.2]⟩
  intro r' h1 h2
  have h3 := (hmem r').2 ⟨h1, h2⟩
  have hs : (merged.findPackages p.name).Pairwise (fun a b => a.version ≤ b.version) := by rw [hfp]; exact sortBy_sorted _ _
  obtain ⟨ys, hys⟩ := List.getLast?_eq_some_iff.1 hl
  rw [hys] at h3 hs
  rw [List.pairwise_append] at hs
  rcases List.mem_append.1 h3 with h3 | h3
  · exact hs.2.2 r' h3 r (by simp)
  · rw [List.mem_singleton] at h3; rw [h3]

/-! ### Concrete cases -/

namespace SolveExample
open Verif.Pkg.Example Verif.Solve.Example Verif.Solve.Check

/-- the repositories of `solver inst remote` -/
abbrev repos (inst remote : List P) : List (Repository Nat Str Nat) := [Repository.ofList inst, Repository.ofList remote]

theorem solverFor {inst remote : List P} {prune strict : Bool}
    (h : (Pool.addRepositories (repos inst remote) (Pool.empty none)).2 = none)
    (hm : (poolOf (repos inst remote)).modifiers = none) :
    SolverFor (repos inst remote) (solver inst remote prune strict) := by
  refine ⟨⟨none, none, poolOf (repos inst remote), ?_, ?_⟩, inst, rfl⟩
  · unfold poolOf
    rw [← h]
  · rw [← hm]
    rfl

theorem solved_ok {x : Except (SErr Nat Nat) (Transaction Nat Str Nat)} {ops pretty : List (Op Nat Str Nat)}
    (h : solved x = some (.ok (ops, pretty))) : ∃ t, x = .ok t ∧ t.operations = ops := by
  cases x with
  | ok t => simp only [solved, Option.some.injEq, Except.ok.injEq, Prod.mk.injEq] at h; exact ⟨t, rfl, h.1⟩
  | error e => cases e <;> simp [solved] at h

/-- Installed: 1-1, 2-1 which depends on 1, 4-1. Remote: 1-2, 2-2 which depends on 1 ≥ 2, 3-1 which depends on 2 ≥ 2, 5-1
which conflicts with 3, 2-0. -/
def inst : List P := [pkg 9 1 1, pkg 9 2 1 [dep 1], pkg 9 4 1]
def remote : List P := [pkg 0 1 2, pkg 0 2 2 [depc 1 (.geq (v 2))], pkg 0 3 1 [depc 2 (.geq (v 2))], pkg 0 5 1 [] [dep 3],
  pkg 0 2 0]

theorem forExample : SolverFor (repos inst remote) (solver inst remote) := solverFor (by decide +kernel) (by decide +kernel)

/-- C40 - C42: a request for which `solve` returns -/
theorem example_install : solved ((solver inst remote).solve insertionOrder (request [install (req 3), remove (req 4)])) =
    some (.ok ([.remove (pkg 9 2 1 [dep 1]), .remove (pkg 9 4 1), .remove (pkg 9 1 1), .install (pkg 0 1 2),
        .install (pkg 0 2 2 [depc 1 (.geq (v 2))]), .install (pkg 0 3 1 [depc 2 (.geq (v 2))])],
      [.remove (pkg 9 4 1), .update (pkg 0 1 2) (pkg 9 1 1),
        .update (pkg 0 2 2 [depc 1 (.geq (v 2))]) (pkg 9 2 1 [dep 1]), .install (pkg 0 3 1 [depc 2 (.geq (v 2))])])) := by
  decide +kernel

/-- C40: a request that has no solution: `none` is an exception of the SAT solver -/
theorem example_unsatisfiable :
    solved ((solver inst remote).solve insertionOrder (request [install (req 3), install (req 5)])) = none := by
  decide +kernel

theorem no_solution {rs : List (Repository Nat Str Nat)} {s : DependencySolver Nat Str Nat} (hs : SolverFor rs s) (o : Orders)
    (q : Request Nat Nat) (hn : solved (s.solve o q) = none) : ¬ ∃ I, Solves rs s q I := by
  have h := C40_decides hs o q
  cases hx : s.solve o q with
  | ok t => rw [hx] at hn; simp [solved] at hn
  | error e =>
    rw [hx] at hn h
    cases e with
    | pkg e => simp [solved] at hn
    | hint u l => exact h.elim
    | unexpectedlySatisfiable => exact h.elim
    | sat e => cases e <;> first | exact h | exact h.elim

/-- so there is no valid installation in which 3 and 5 are installed -/
example : ¬ ∃ I, Solves (repos inst remote) (solver inst remote) (request [install (req 3), install (req 5)]) I :=
  no_solution forExample insertionOrder _ example_unsatisfiable

/-- C41: the hypotheses hold for this request -/
theorem example_tidy : Exclusive (allPackages (repos inst remote)) (some Modifiers.empty) ∧
    Tidy (allPackages (repos inst remote)) (InstalledKeys (solver inst remote)) [install (req 3), remove (req 4)] ∧
    SameMetadata (allPackages (repos inst remote)) (InstalledKeys (solver inst remote)) := by decide +kernel

example : ∃ t, (solver inst remote).solve insertionOrder (request [install (req 3), remove (req 4)]) = .ok t ∧
    Solves (repos inst remote) (solver inst remote) (request [install (req 3), remove (req 4)])
      (Result (solver inst remote) t) := by
  obtain ⟨t, ht, -⟩ := solved_ok example_install
  exact ⟨t, ht, C41_valid_installation_partial forExample ht rfl example_tidy.1 example_tidy.2.1 example_tidy.2.2⟩

/-- C41 also holds where packages provide other names, if they exclude each other: 2-1 and 3-1 both provide 9 and conflict
with 9; installed is 3-1 -/
def inst2 : List P := [pkg 9 3 1 [] [dep 9] [dep 9]]
def remote2 : List P := [pkg 0 2 1 [] [dep 9] [dep 9], pkg 0 1 1 [depc 9 (.geq (v 1))], pkg 0 9 1 [] [dep 9]]

example : solved ((solver inst2 remote2).solve insertionOrder (request [install (req 1), remove (req 3)])) =
    some (.ok ([.remove (pkg 9 3 1 [] [dep 9] [dep 9]), .install (pkg 0 2 1 [] [dep 9] [dep 9]),
      .install (pkg 0 1 1 [depc 9 (.geq (v 1))])],
      [.remove (pkg 9 3 1 [] [dep 9] [dep 9]), .install (pkg 0 2 1 [] [dep 9] [dep 9]),
      .install (pkg 0 1 1 [depc 9 (.geq (v 1))])])) := by
  decide +kernel

/-- C43: 1-1, 2-1, 4-1 are installed, and 2 is asked for, 5 is to be removed -/
theorem example_satisfied : Solves (repos inst remote) (solver inst remote) (request [install (req 2), remove (req 5)])
    (InstalledKeys (solver inst remote)) := by
  unfold Solves
  rw [installedKeys_eq]
  decide +kernel

example : ∃ t, (solver inst remote).solve insertionOrder (request [install (req 2), remove (req 5)]) = .ok t ∧
    t.operations = [] := by
  have h : solved ((solver inst remote).solve insertionOrder (request [install (req 2), remove (req 5)])) =
    some (.ok ([], [])) := by decide +kernel
  obtain ⟨t, ht, -⟩ := solved_ok h
  exact ⟨t, ht, C43_satisfied_request_changes_nothing_partial forExample ht rfl example_satisfied (by decide +kernel)
    example_tidy.1 (by decide +kernel)⟩

/-- C48, C49 -/
example : solved ((solver inst remote).solve insertionOrder (request [hardUpdate (req 2)])) =
    some (.ok ([.remove (pkg 9 2 1 [dep 1]), .remove (pkg 9 1 1), .install (pkg 0 1 2),
        .install (pkg 0 2 2 [depc 1 (.geq (v 2))])],
      [.update (pkg 0 1 2) (pkg 9 1 1), .update (pkg 0 2 2 [depc 1 (.geq (v 2))]) (pkg 9 2 1 [dep 1])])) := by
  decide +kernel

example : solved ((solver inst remote).solve insertionOrder (request [⟨none, .upgrade⟩])) =
    some (.ok ([.remove (pkg 9 2 1 [dep 1]), .remove (pkg 9 1 1), .install (pkg 0 1 2),
        .install (pkg 0 2 2 [depc 1 (.geq (v 2))])],
      [.update (pkg 0 1 2) (pkg 9 1 1), .update (pkg 0 2 2 [depc 1 (.geq (v 2))]) (pkg 9 2 1 [dep 1])])) := by
  decide +kernel

/-- C49 is violated: 3-2, which provides 1, is as good for the upgrade as 1-2; it is installed, and 1-1 is left as it is. -/
theorem C49_violated :
    solved ((solver [pkg 9 1 1] [pkg 0 1 2, pkg 0 3 2 [] [] [dep 1]]).solve insertionOrder (request [⟨none, .upgrade⟩])) =
      some (.ok ([.install (pkg 0 3 2 [] [] [dep 1])], [.install (pkg 0 3 2 [] [] [dep 1])])) := by decide +kernel

/-- C49: an upgrade may install a lower version than the installed one -/
theorem C49_upgrade_may_downgrade : solved ((solver [pkg 9 1 2] [pkg 0 1 1]).solve insertionOrder (request [⟨none, .upgrade⟩])) =
    some (.ok ([.remove (pkg 9 1 2), .install (pkg 0 1 1)], [.update (pkg 0 1 1) (pkg 9 1 2)])) := by decide +kernel

/-! #### C41, C43 fail without their conditions -/

/-- a solver, a request and a transaction for it that does not lead to a valid installation -/
def Violation (inst remote : List P) (prune : Bool) (jobs : List (Job Nat Nat)) : Prop :=
  SolverFor (repos inst remote) (solver inst remote prune) ∧
  ∃ t, (solver inst remote prune).solve insertionOrder (request jobs) = .ok t ∧
    ¬ Solves (repos inst remote) (solver inst remote prune) (request jobs) (Result (solver inst remote prune) t)

theorem violation {inst remote : List P} {prune : Bool} {jobs : List (Job Nat Nat)} {ops pretty : List (Op Nat Str Nat)}
    (h1 : (Pool.addRepositories (repos inst remote) (Pool.empty none)).2 = none)
    (h2 : (poolOf (repos inst remote)).modifiers = none)
    (h3 : solved ((solver inst remote prune).solve insertionOrder (request jobs)) = some (.ok (ops, pretty)))
    (h4 : ¬ ValidInstall (allPackages (repos inst remote)) (some Modifiers.empty) (InstalledKeys (solver inst remote prune))
      (effectiveJobs (solver inst remote prune) (request jobs))
      (Of (applyList ops ((solver inst remote prune).installed.iter.map Package.key)))) :
    Violation inst remote prune jobs := by
  refine ⟨solverFor h1 h2, ?_⟩
  obtain ⟨t, ht, hops⟩ := solved_ok h3
  refine ⟨t, ht, ?_⟩
  unfold Solves
  rw [result_eq, hops]
  exact h4

/-- C41 fails when two packages that do not exclude each other provide a name: 1-1 depends on 2 > 1 and on 3; 3-1 provides
2. The solution consists of 1-1, 2-2 and 3-1, but only one of the two packages that provide 2 is kept. -/
theorem C41_violated_dependency_missing :
    Violation [] [pkg 0 1 1 [depc 2 (.gt (v 1)), dep 3], pkg 0 2 2, pkg 0 3 1 [] [] [dep 2]] true [install (req 1)] :=
  violation (ops := [.install (pkg 0 3 1 [] [] [dep 2]), .install (pkg 0 1 1 [depc 2 (.gt (v 1)), dep 3])])
    (pretty := [.install (pkg 0 3 1 [] [] [dep 2]), .install (pkg 0 1 1 [depc 2 (.gt (v 1)), dep 3])])
    (by decide +kernel) (by decide +kernel) (by decide +kernel) (by decide +kernel)

/-- C41 fails when a name leads to a package that the request says nothing about: installed is 1-1, which provides 9; 2-1
provides 9, too, and conflicts with 3 ≥ 2; 3-1 conflicts with 2; 3-2. To install 3, both 3-2 and 2-1, which conflict, are
installed, because no rules are made for 2-1. -/
theorem C41_violated_conflict :
    Violation [pkg 9 1 1 [] [] [dep 9]] [pkg 0 2 1 [] [depc 3 (.geq (v 2))] [dep 9], pkg 0 3 1 [] [dep 2], pkg 0 3 2] true
      [install (req 3)] :=
  violation (ops := [.install (pkg 0 2 1 [] [depc 3 (.geq (v 2))] [dep 9]), .install (pkg 0 3 2)])
    (pretty := [.install (pkg 0 2 1 [] [depc 3 (.geq (v 2))] [dep 9]), .install (pkg 0 3 2)])
    (by decide +kernel) (by decide +kernel) (by decide +kernel) (by decide +kernel)

/-- C41 fails when pruning is off: two versions of 2, which the request says nothing about, are installed -/
theorem C41_violated_without_pruning :
    Violation [] [pkg 0 2 1, pkg 0 2 2, pkg 0 3 1 [] [dep 2], pkg 0 3 2] false [install (req 3)] :=
  violation (ops := [.install (pkg 0 2 1), .install (pkg 0 2 2), .install (pkg 0 3 2)])
    (pretty := [.update (pkg 0 2 2) (pkg 0 2 1), .install (pkg 0 3 2)])
    (by decide +kernel) (by decide +kernel) (by decide +kernel) (by decide +kernel)

/-- in the same circumstances `solve` may raise KeyError although there is a valid installation: 2-1 depends on 5, which
does not exist -/
theorem C41_key_error : solved ((solver [pkg 9 1 1 [] [] [dep 9]] [pkg 0 2 1 [dep 5] [] [dep 9], pkg 0 3 1 [] [dep 2], pkg 0 3 2]).solve
    insertionOrder (request [install (req 3)])) = some (.error .keyError) := by decide +kernel

/-- C43 fails when two packages that do not exclude each other provide a requested name: installed is 1-1, which provides 9;
9 is asked for; 2-1, which provides 9 as well, is installed. -/
theorem C43_violated :
    Solves (repos [pkg 9 1 1 [] [] [dep 9]] [pkg 0 2 1 [] [] [dep 9]])
      (solver [pkg 9 1 1 [] [] [dep 9]] [pkg 0 2 1 [] [] [dep 9]]) (request [install (req 9)])
      (InstalledKeys (solver [pkg 9 1 1 [] [] [dep 9]] [pkg 0 2 1 [] [] [dep 9]])) ∧
    solved ((solver [pkg 9 1 1 [] [] [dep 9]] [pkg 0 2 1 [] [] [dep 9]]).solve insertionOrder (request [install (req 9)])) =
      some (.ok ([.install (pkg 0 2 1 [] [] [dep 9])], [.install (pkg 0 2 1 [] [] [dep 9])])) := by
  refine ⟨?_, by decide +kernel⟩
  unfold Solves
  rw [installedKeys_eq]
  decide +kernel

end SolveExample

end Verif.Props
