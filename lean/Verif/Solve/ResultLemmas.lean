import Verif.Solve.PruneLemmas
/-
What `solve` returns: the decisions after pruning, and the installation that results from them.
-/
set_option linter.unusedSectionVars false
namespace Verif.Solve
open Verif Verif.Pkg Verif.Graph Verif.Rules Verif.Props Verif.Sat

variable {N S U : Type} [LinearOrder N] [DecidableEq S] [LinearOrder U] [Syntax S U]

theorem convertUpgrade_modifiers (q : Request N U) (remote : List (Repository N S U)) (installed : Repository N S U) :
    (convertUpgrade q remote installed).modifiers = q.modifiers := by
  unfold convertUpgrade
  split
  · split <;> rfl
  · rfl

/-- the state of a completed solve -/
structure Completed (rs : List (Repository N S U)) (s : DependencySolver N S U) (m : Option (Modifiers N))
    (jobs : List (Job N U)) (pool : Pool N S U) (st : Setup N S U) (a : ASet) (installed : List Nat) (D : List Int) :
    Prop where
  built : Built rs m pool
  setup : SetupSpec rs s pool jobs st
  found : FoundSpec rs pool st a
  inst : ∀ i, i ∈ installed ↔ ∃ p ∈ s.installed.iter, pool.packageId p = .ok i
  decided : if s.usePruning = true then ∃ rootIds name included,
      (∀ i, i ∈ rootIds ↔ i ∈ st.requirementIds ∨ i ∈ installed) ∧ Pruned pool (solutionToIds a) rootIds D name included
    else D = solutionToIds a

theorem liftP_ok {α : Type} {x : Except PErr α} {y : α} : (liftP x : Except (SErr N U) α) = .ok y ↔ x = .ok y := by
  cases x <;> simp [liftP]

theorem liftS_ok {α : Type} {x : Except Sat.Err α} {y : α} : (liftS x : Except (SErr N U) α) = .ok y ↔ x = .ok y := by
  cases x <;> simp [liftS]

theorem solve_ok {rs : List (Repository N S U)} {s : DependencySolver N S U} (hs : SolverFor rs s) {o : Orders}
    {q : Request N U} {t : Transaction N S U} (h : s.solve o q = .ok t) :
    ∃ pool st a installed D,
      Completed rs s (activeModifiers q.modifiers) (effectiveJobs s q) pool st a installed D ∧
      search o pool st = .ok a ∧ mkTransaction pool D installed = .ok t := by
  unfold DependencySolver.solve at h
  simp only [bind_ok, liftP_ok, liftS_ok] at h
  obtain ⟨st, h1, a, h2, h3⟩ := h
  have hb := hs.solvePool (convertUpgrade q s.remote s.installed)
  rw [convertUpgrade_modifiers] at hb
  have hst := createRules_spec hb hs h1
  unfold finish at h3
  simp only [bind_ok] at h3
  obtain ⟨ids, h4, h3⟩ := h3
  have hinst : ∀ i, i ∈ o.installed (fromkeys ids) ↔ ∃ p ∈ s.installed.iter,
      (s.solvePool (convertUpgrade q s.remote s.installed)).packageId p = .ok i := by
    intro i
    rw [(o.installedPerm _).mem_iff, mem_fromkeys, mem_mapE h4]
  have h5 : ∃ D, (if s.usePruning = true then
        connectedPackages o (s.solvePool (convertUpgrade q s.remote s.installed)) (solutionToIds a)
          (supdate st.requirementIds (o.installed (fromkeys ids)))
      else .ok (solutionToIds a)) = .ok D ∧
      mkTransaction (s.solvePool (convertUpgrade q s.remote s.installed)) D (o.installed (fromkeys ids)) = .ok t := by
    split at h3
    · simp only [bind_ok] at h3; simp [*]
    · simp only [bind_ok] at h3; simpa [*] using h3
  obtain ⟨D, h6, h7⟩ := h5
  refine ⟨_, st, a, _, D, ⟨hb, hst, hst.found hb h2, hinst, ?_⟩, h2, h7⟩
  split
  · next hu =>
    rw [if_pos hu] at h6
    obtain ⟨name, included, hp⟩ := connectedPackages_spec h6
    exact ⟨_, name, included, fun i => by rw [mem_supdate], hp⟩
  · next hu =>
    rw [if_neg hu] at h6
    simp only [Except.ok.injEq] at h6
    exact h6.symm

section
variable {rs : List (Repository N S U)} {s : DependencySolver N S U} {m : Option (Modifiers N)} {jobs : List (Job N U)}
  {pool : Pool N S U} {st : Setup N S U} {a : ASet} {installed : List Nat} {D : List Int}
  (h : Completed rs s m jobs pool st a installed D)
include h

/-- a literal that is decided belongs to the solution -/
theorem Completed.sub : ∀ l ∈ D, l ∈ solutionToIds a := by
  intro l hl
  have hd := h.decided
  split at hd
  · obtain ⟨rootIds, name, included, -, hp⟩ := hd
    rcases (hp.decided l).1 hl with hl | hl
    · refine hp.least (fun l => l ∈ solutionToIds a) ?_ ?_ l hl
      · intro i _ p _ n _ l hl
        exact (hp.nameSound n l hl).1
      · intro l _ p _ t _ l' hl'
        exact (hp.nameSound _ l' hl').1
    · exact hl.1
  · rw [hd] at hl; exact hl

/-- what is decided about the installed and requested packages is the whole solution -/
theorem Completed.roots {l : Int} (hl : l ∈ solutionToIds a) (hr : l.natAbs ∈ st.requirementIds ∨ l.natAbs ∈ installed) :
    l ∈ D := by
  have hd := h.decided
  split at hd
  · obtain ⟨rootIds, name, included, hroot, hp⟩ := hd
    exact (hp.decided l).2 (Or.inr ⟨hl, (hroot _).2 hr⟩)
  · rw [hd]; exact hl

theorem Completed.decisions : Decisions pool D := by
  refine ⟨?_, ?_⟩
  · intro l hl
    rcases h.found.lits l (h.sub l hl) with ⟨-, h1⟩ | ⟨-, h1⟩
    · obtain ⟨p, -, hp⟩ := h.found.known l (by rw [h1]; simp)
      exact ⟨p.key, p, rfl, hp⟩
    · obtain ⟨p, -, hp⟩ := h.found.known (-l) (by rw [h1]; simp)
      rw [Int.natAbs_neg] at hp
      exact ⟨p.key, p, rfl, hp⟩
  · intro l hl hl'
    have h1 := h.found.lits l (h.sub l hl)
    have h2 := h.found.lits (-l) (h.sub _ hl')
    rw [Int.neg_neg] at h2
    rcases h1 with ⟨h1, e1⟩ | ⟨h1, e1⟩ <;> rcases h2 with ⟨h2, e2⟩ | ⟨h2, e2⟩
    · omega
    · rw [e1] at e2; simp at e2
    · rw [e1] at e2; simp at e2
    · omega

theorem Completed.hI : ∀ i ∈ installed, ∃ k, IdOf pool k i := by
  intro i hi
  obtain ⟨p, -, hp⟩ := (h.inst i).1 hi
  exact ⟨p.key, p, rfl, hp⟩

theorem Completed.installed_iff (k : PKey N S U) : InstalledId pool installed k ↔ InstalledKeys s k := by
  constructor
  · rintro ⟨i, ⟨p, rfl, hp⟩, hi⟩
    obtain ⟨q, hq, hqi⟩ := (h.inst i).1 hi
    exact ⟨q, hq, h.built.ok.ids.packageId_inj hqi hp⟩
  · rintro ⟨p, hp, rfl⟩
    obtain ⟨i, hi⟩ := h.setup.known p hp
    exact ⟨i, ⟨p, rfl, hi⟩, (h.inst i).2 ⟨p, hp, hi⟩⟩

theorem Completed.installed_eq : InstalledId pool installed = InstalledKeys s := by
  funext k; exact propext (h.installed_iff k)

/-- the assignment of the solution, where packages without rules count as true -/
def m' (st : Setup N S U) (a : ASet) (i : Nat) : Bool := truth a i || decide ((i : Int) ∉ varsOf st.clauses)

theorem Completed.sat' : Sat (m' st a) st.clauses := by
  intro c hc
  obtain ⟨l, hl, ht⟩ := h.found.sat c hc
  refine ⟨l, hl, ?_⟩
  unfold litTrue at ht ⊢
  have hv : ((l.natAbs : Nat) : Int) ∈ varsOf st.clauses := by
    rw [mem_varsOf]
    exact ⟨c, hc, l, hl, by unfold iabs; omega⟩
  unfold m'
  rw [ht]
  simp [hv]

omit h in
theorem m'_of_true {i : Nat} (hi : a.value i = some true) : m' st a i = true := by
  unfold m' truth; simp [hi]

/-- what is not false and has been added, is in the installation -/
theorem Completed.m'_of_not_false {i : Nat} (hi : a.value i ≠ some false) : m' st a i = true := by
  unfold m' truth
  by_cases hv : (i : Int) ∈ varsOf st.clauses
  · have := h.found.vars _ hv
    cases hd : a.value i with
    | none => exact absurd hd this
    | some b => cases b with
      | true => simp
      | false => exact absurd hd hi
  · simp [hv]

theorem Completed.m'_true {i : Nat} (hi : m' st a i = true) (hv : (i : Int) ∈ varsOf st.clauses) : a.value i = some true := by
  unfold m' truth at hi
  simpa [hv] using hi

/-- the packages of the solution whose rules were generated: a valid installation -/
def Chosen (rs : List (Repository N S U)) (pool : Pool N S U) (st : Setup N S U) (a : ASet) (k : PKey N S U) : Prop :=
  ∃ p ∈ allPackages rs, p.key = k ∧ ∃ i ∈ st.gen.added, pool.packageId p = .ok i ∧ m' st a i = true

theorem Completed.chosen_valid : ValidInstall (allPackages rs) m (InstalledKeys s) jobs (Chosen rs pool st a) := by
  have h1 := C37_rules_are_complete h.built h.setup.ids h.setup.gen (m' st a) h.sat'
  have : InstalledSet st.installedDict = InstalledKeys s := by funext k; exact propext (h.setup.inst k)
  rw [this] at h1
  exact h1

theorem Completed.chosen_iff {p : Package N S U} {i : Nat} (hi : pool.packageId p = .ok i) :
    Chosen rs pool st a p.key ↔ i ∈ st.gen.added ∧ m' st a i = true := by
  constructor
  · rintro ⟨q, -, h2, j, h3, h4, h5⟩
    rw [pool.packageId_congr h2, hi] at h4
    cases h4
    exact ⟨h3, h5⟩
  · rintro ⟨h1, h2⟩
    obtain ⟨-, -, q, -, hk, hq, hid⟩ := h.built.ok.ids.packageId_spec hi
    exact ⟨q, hq, h.built.ok.ids.packageId_inj hid hi, i, h1, hid, h2⟩

/-- the rules of installed packages and of the providers of their names have been generated -/
theorem Completed.near_added {p : Package N S U} (hp : p ∈ allPackages rs) (hn : NearInstalled (InstalledKeys s) p)
    {i : Nat} (hi : pool.packageId p = .ok i) : i ∈ st.gen.added := by
  obtain ⟨-, -, hins⟩ := iterRules_spec h.setup.gen
  obtain ⟨k, hk, hprov⟩ := hn
  obtain ⟨e, he, rfl⟩ := (h.setup.inst k).2 hk
  obtain ⟨-, h2⟩ := hins e.2 (List.mem_map.2 ⟨e, he, rfl⟩)
  obtain ⟨j, hj, hadd⟩ := h2 p ((Run.mem_nameToPackages (R := ⟨pool, allPackages rs, [], []⟩) h.built.ok e.2.name p).2
    ⟨hp, hprov⟩)
  rw [hi] at hj
  cases hj
  exact hadd

theorem Completed.installed_added {p : Package N S U} (hp : InstalledKeys s p.key) {i : Nat}
    (hi : pool.packageId p = .ok i) : i ∈ st.gen.added := by
  obtain ⟨-, -, hins⟩ := iterRules_spec h.setup.gen
  obtain ⟨e, he, hk⟩ := (h.setup.inst p.key).2 hp
  obtain ⟨⟨j, hj, hadd⟩, -⟩ := hins e.2 (List.mem_map.2 ⟨e, he, rfl⟩)
  rw [pool.packageId_congr hk, hi] at hj
  cases hj
  exact hadd

/-- the rules of a package that a job asks for have been generated, unless it is to be removed; then it is false -/
theorem Completed.requested {j : Job N U} (hj : j ∈ jobs) {p : Package N S U}
    (hr : Requested (allPackages rs) (InstalledKeys s) j p) {i : Nat} (hi : pool.packageId p = .ok i) :
    if j.kind = .remove then m' st a i = false ∧ a.value i = some false else i ∈ st.gen.added := by
  obtain ⟨-, hjobs, hins⟩ := iterRules_spec h.setup.gen
  have hd := hjobs j hj
  obtain ⟨r, hr1, hr2⟩ := hr
  have hinstalled : i ∈ dkeys st.installedDict → i ∈ st.gen.added := by
    intro hk
    unfold dkeys at hk
    obtain ⟨e, he, rfl⟩ := List.mem_map.1 hk
    obtain ⟨⟨j', hj', hadd⟩, -⟩ := hins e.2 (List.mem_map.2 ⟨e, he, rfl⟩)
    rw [h.setup.ids e he] at hj'
    cases hj'
    exact hadd
  unfold JobDone at hd
  split at hd
  · next r' hk hr' =>
    rw [hr1] at hr'; cases hr'
    rw [hk] at hr2 ⊢
    simp only [reduceCtorEq, if_false] at hr2 ⊢
    obtain ⟨ps, ids, h1, -, -, -, h5⟩ := hd
    obtain ⟨j', hj', hadd⟩ := h5 p ((Run.mem_jobProviders (R := ⟨pool, allPackages rs, [], []⟩) h.built.ok h1 p).2 hr2)
    rw [hi] at hj'; cases hj'
    exact hadd.elim hinstalled id
  · next r' hk hr' =>
    rw [hr1] at hr'; cases hr'
    rw [hk] at hr2 ⊢
    simp only [reduceCtorEq, if_false] at hr2 ⊢
    obtain ⟨ps, ids, h1, -, -, -, h5⟩ := hd
    obtain ⟨j', hj', hadd⟩ := h5 p ((Run.mem_jobProviders (R := ⟨pool, allPackages rs, [], []⟩) h.built.ok h1 p).2 hr2)
    rw [hi] at hj'; cases hj'
    exact hadd.elim hinstalled id
  · next r' hk hr' =>
    rw [hr1] at hr'; cases hr'
    rw [hk] at hr2 ⊢
    simp only [reduceCtorEq, if_false, if_true] at hr2 ⊢
    obtain ⟨ps, h1, h2⟩ := hd
    obtain ⟨j', hj', hhas⟩ := h2 p ((Run.mem_jobProviders (R := ⟨pool, allPackages rs, [], []⟩) h.built.ok h1 p).2 hr2)
    rw [hi] at hj'; cases hj'
    have hm : m' st a i = false := by
      obtain ⟨l, a1, a2⟩ := Run.sat_has h.sat' hhas
      rw [List.mem_singleton] at a1; subst a1
      rwa [Run.litTrue_negId] at a2
    refine ⟨hm, ?_⟩
    apply Classical.byContradiction
    intro hne
    rw [h.m'_of_not_false hne] at hm
    cases hm
  · next r' hk hr' =>
    rw [hr1] at hr'; cases hr'
    rw [hk] at hr2 ⊢
    simp only [reduceCtorEq, if_true, if_false] at hr2 ⊢
    obtain ⟨ps, h1, h2⟩ := hd
    rcases h2 with rfl | ⟨p', hp', j', hj', -, hadd⟩
    · obtain ⟨b, c, e, hmeet, -⟩ := hr2
      have := (Run.mem_jobProviders (R := ⟨pool, allPackages rs, [], []⟩) h.built.ok h1 p).2
        ⟨by rw [e]; simp, hmeet⟩
      simp at this
    · have ht := Run.maxPkg_target (R := ⟨pool, allPackages rs, [], st.installedDict⟩) h.built.ok h.setup.ids h1 hp'
      have hset : (Run.mk pool (allPackages rs) [] st.installedDict : Run N S U).isInst = InstalledKeys s := by
        funext k; exact propext (h.setup.inst k)
      rw [hset] at ht
      rw [updateTarget_unique hr2 ht, hj'] at hi
      cases hi
      exact hadd
  · exact hd.elim

/-- a job that is not a removal asks for a package that is chosen -/
theorem Completed.requested_chosen {j : Job N U} (hj : j ∈ jobs) (hk : j.kind ≠ .remove) :
    ∃ c ∈ allPackages rs, Requested (allPackages rs) (InstalledKeys s) j c ∧ Chosen rs pool st a c.key := by
  obtain ⟨r, hr, hs⟩ := h.chosen_valid.jobs j hj
  cases hkind : j.kind with
  | install =>
    rw [hkind] at hs
    obtain ⟨q, hq, hI, hm⟩ := hs
    exact ⟨q, hq, ⟨r, hr, by rw [hkind]; simp [hq, hm]⟩, hI⟩
  | softUpdate =>
    rw [hkind] at hs
    obtain ⟨q, hq, hI, hm⟩ := hs
    exact ⟨q, hq, ⟨r, hr, by rw [hkind]; simp [hq, hm]⟩, hI⟩
  | remove => exact absurd hkind hk
  | upgrade => rw [hkind] at hs; exact hs.elim
  | hardUpdate =>
    rw [hkind] at hs
    obtain ⟨-, hjobs, -⟩ := iterRules_spec h.setup.gen
    have hd := hjobs j hj
    unfold JobDone at hd
    rw [hkind, hr] at hd
    simp only at hd
    obtain ⟨ps, h1, h2⟩ := hd
    rcases h2 with rfl | ⟨p', hp', -⟩
    · obtain ⟨-, r', hr', p, hp, hm⟩ := h.setup.possible j hj
      rw [hr] at hr'; cases hr'
      have := (Run.mem_jobProviders (R := ⟨pool, allPackages rs, [], []⟩) h.built.ok h1 p).2 ⟨hp, hm⟩
      simp at this
    · have ht := Run.maxPkg_target (R := ⟨pool, allPackages rs, [], st.installedDict⟩) h.built.ok h.setup.ids h1 hp'
      have hset : (Run.mk pool (allPackages rs) [] st.installedDict : Run N S U).isInst = InstalledKeys s := by
        funext k; exact propext (h.setup.inst k)
      rw [hset] at ht
      have hp : p' ∈ allPackages rs := by
        obtain ⟨b, c, e, -⟩ := ht
        have e : allPackages rs = b ++ p' :: c := e
        rw [e]; simp
      exact ⟨p', hp, ⟨r, hr, by rw [hkind]; simpa using ht⟩, hs p' ht⟩

/-- a chosen package and one that is true do not have the same name nor conflict, unless they are equal -/
theorem Completed.exclusive_pair {p q : Package N S U} (hp : p ∈ allPackages rs)
    (hq : q ∈ allPackages rs) (hE : p.name = q.name ∨ ∃ t ∈ p.conflicts, MeetsConflict m t q) (hc : Chosen rs pool st a p.key) {j : Nat}
    (hj : pool.packageId q = .ok j) (hm : m' st a j = true) : p.key = q.key := by
  apply Classical.byContradiction
  intro hne
  obtain ⟨i, hi⟩ := h.built.ok.ids.packageId_ok ⟨p, hp, rfl⟩
  obtain ⟨hadd, hmi⟩ := (h.chosen_iff hi).1 hc
  obtain ⟨hcl, -, -⟩ := iterRules_spec h.setup.gen
  obtain ⟨p', hp', -, hname, hconf⟩ := hcl i hadd
  have hk : p'.key = p.key := h.built.ok.ids.packageId_inj hp' hi
  have hf := key_fields hk
  rcases hE with e | ⟨t, ht, hmeet⟩
  · obtain ⟨cands, h1, h2⟩ := hname
    rw [hf.1] at h1
    obtain ⟨j', hj', hhas⟩ := h2 q (Run.name_cands (R := ⟨pool, allPackages rs, [], []⟩) h.built.ok h1 hq e.symm)
      (by rw [hk]; exact fun e => hne e.symm) (by rw [hf.1]; exact e.symm)
    rw [hj] at hj'; cases hj'
    exact Run.not_both h.sat' hhas hmi hm
  · rw [← hf.2.2.2] at ht
    obtain ⟨req, cands, h1, h2, h3⟩ := hconf t ht
    have hmod := h.built.modifiers
    subst hmod
    obtain ⟨j', hj', hhas⟩ := h3 q
      ((Run.meetsConflict_iff (R := ⟨pool, allPackages rs, [], []⟩) h.built.ok h1 h2 hq).2 hmeet)
      (by rw [hk]; exact fun e => hne e.symm)
    rw [hj] at hj'; cases hj'
    exact Run.not_both h.sat' hhas hmi hm

/-- a chosen package and one that is true do not provide a common name, unless they are equal -/
theorem Completed.exclusive (hE : Exclusive (allPackages rs) m) {p q : Package N S U} (hp : p ∈ allPackages rs)
    (hq : q ∈ allPackages rs) (hpq : ShareName p q) (hc : Chosen rs pool st a p.key) {j : Nat}
    (hj : pool.packageId q = .ok j) (hm : m' st a j = true) : p.key = q.key :=
  h.exclusive_pair hp hq ((hE p hp q hq hpq).imp id And.left) hc hj hm

/-- the package with an id that the solution mentions -/
theorem Completed.get {i : Nat} (hi : ∃ k, IdOf pool k i) :
    ∃ p ∈ allPackages rs, pool.idToPkg i = .ok p ∧ pool.packageId p = .ok i := by
  obtain ⟨k, hk⟩ := hi
  obtain ⟨q, h1, -, h3, h4⟩ := IdOf.get h.built.ok hk
  exact ⟨q, h1, h3, h4⟩

/-- a chosen package that a job (not a removal) asks for is decided in -/
theorem Completed.requested_decided {j : Job N U} (hj : j ∈ jobs) {c : Package N S U}
    (hc : Requested (allPackages rs) (InstalledKeys s) j c) (hch : Chosen rs pool st a c.key) (hk : j.kind ≠ .remove) :
    DecidedIn pool D c.key := by
  obtain ⟨q, hq, hkey, i, hadd, hqi, hm⟩ := hch
  rw [pool.packageId_congr hkey] at hqi
  by_cases hv : a.value i = some true
  · refine ⟨i, ⟨c, rfl, hqi⟩, h.roots ((h.found.pos i).2 hv) (Or.inl ?_)⟩
    rw [Int.natAbs_natCast, h.setup.reqs]
    exact ⟨j, hj, c, hc, hqi⟩
  · -- a requested package occurs in a rule
    exfalso
    apply hv
    apply h.m'_true hm
    obtain ⟨-, hjobs, -⟩ := iterRules_spec h.setup.gen
    have hd := hjobs j hj
    obtain ⟨r, hr1, hr2⟩ := hc
    have hvar : ∀ lits, Has st.gen.rules lits → (i : Int) ∈ lits → (i : Int) ∈ varsOf st.clauses := by
      rintro lits ⟨rule, h1, h2⟩ hl
      rw [mem_varsOf]
      refine ⟨rule.literals, List.mem_map.2 ⟨rule, h1, rfl⟩, i, ?_, ?_⟩
      · rw [h2, mem_sortBy]; exact hl
      · unfold iabs; omega
    unfold JobDone at hd
    split at hd
    · next r' hk hr' =>
      rw [hr1] at hr'; cases hr'
      rw [hk] at hr2
      simp only [reduceCtorEq, if_false] at hr2
      obtain ⟨ps, ids, h1, -, h3, h4, -⟩ := hd
      refine hvar _ h4 ((idsOfAll_spec h3 _).2 ⟨c, ?_, i, hqi, rfl⟩)
      exact (Run.mem_jobProviders (R := ⟨pool, allPackages rs, [], []⟩) h.built.ok h1 c).2 hr2
    · next r' hk hr' =>
      rw [hr1] at hr'; cases hr'
      rw [hk] at hr2
      simp only [reduceCtorEq, if_false] at hr2
      obtain ⟨ps, ids, h1, -, h3, h4, -⟩ := hd
      refine hvar _ h4 ((idsOfAll_spec h3 _).2 ⟨c, ?_, i, hqi, rfl⟩)
      exact (Run.mem_jobProviders (R := ⟨pool, allPackages rs, [], []⟩) h.built.ok h1 c).2 hr2
    · next r' hk' hr' => exact absurd hk' hk
    · next r' hk hr' =>
      rw [hr1] at hr'; cases hr'
      rw [hk] at hr2
      simp only [if_true] at hr2
      obtain ⟨ps, h1, h2⟩ := hd
      rcases h2 with rfl | ⟨p', hp', j', hj', hhas, -⟩
      · obtain ⟨b, c', e, hmeet, -⟩ := hr2
        have := (Run.mem_jobProviders (R := ⟨pool, allPackages rs, [], []⟩) h.built.ok h1 c).2
          ⟨by rw [e]; simp, hmeet⟩
        simp at this
      · have ht := Run.maxPkg_target (R := ⟨pool, allPackages rs, [], st.installedDict⟩) h.built.ok h.setup.ids h1 hp'
        have hset : (Run.mk pool (allPackages rs) [] st.installedDict : Run N S U).isInst = InstalledKeys s := by
          funext k; exact propext (h.setup.inst k)
        rw [hset] at ht
        rw [updateTarget_unique hr2 ht, hj'] at hqi
        cases hqi
        exact hvar _ hhas (by simp)
    · exact hd.elim

/-- a name leads to a package that is true -/
theorem Completed.named {name : N → Option Int}
    (hs : ∀ n l, name n = some l → l ∈ solutionToIds a ∧ 0 < l ∧ ∃ p, pool.idToPkg l.natAbs = .ok p ∧ Provides p n) :
    ∀ n l, name n = some l → 0 < l ∧ a.value l = some true ∧ ∃ p ∈ allPackages rs,
      pool.idToPkg l.natAbs = .ok p ∧ pool.packageId p = .ok l.natAbs ∧ Provides p n := by
  intro n l hl
  obtain ⟨h1, h0, p, h2, h3⟩ := hs n l hl
  have hv : a.value l = some true := by
    rcases h.found.lits l h1 with ⟨-, h4⟩ | ⟨h4, -⟩
    · exact h4
    · omega
  obtain ⟨q, hq, hqi⟩ := h.found.known l (by rw [hv]; simp)
  obtain ⟨p', hp', h4, h5⟩ := h.get ⟨q.key, q, rfl, hqi⟩
  rw [h2] at h4
  cases h4
  exact ⟨h0, hv, p, hp', h2, h5, h3⟩

/-- the literal is that of a chosen package -/
def ChosenLit (rs : List (Repository N S U)) (pool : Pool N S U) (st : Setup N S U) (a : ASet) (l : Int) : Prop :=
  0 < l ∧ a.value l = some true ∧ ∀ p ∈ allPackages rs, pool.packageId p = .ok l.natAbs → Chosen rs pool st a p.key

omit h in
theorem m'_lit {l : Int} (h0 : 0 < l) (hv : a.value l = some true) : m' st a l.natAbs = true := by
  have : ((l.natAbs : Nat) : Int) = l := by omega
  exact m'_of_true (by rw [this]; exact hv)

/-- under the conditions, what the names of the roots lead to is chosen -/
theorem Completed.prune_root (hE : Exclusive (allPackages rs) m) (hT : Tidy (allPackages rs) (InstalledKeys s) jobs)
    {name : N → Option Int}
    (hs : ∀ n l, name n = some l → l ∈ solutionToIds a ∧ 0 < l ∧ ∃ p, pool.idToPkg l.natAbs = .ok p ∧ Provides p n)
    {i : Nat} (hi : i ∈ st.requirementIds ∨ i ∈ installed) {r : Package N S U} (hr : pool.idToPkg i = .ok r) {n : N}
    (hn : Provides r n) {l : Int} (hl : name n = some l) : ChosenLit rs pool st a l := by
  obtain ⟨h0, hv, p, hpa, -, hpi, hpn⟩ := h.named hs n l hl
  refine ⟨h0, hv, ?_⟩
  have hm := m'_lit (st := st) h0 hv
  have main : l.natAbs ∈ st.gen.added := by
    have hknown : ∃ k, IdOf pool k i := by
      rcases hi with hi | hi
      · obtain ⟨j, -, p, -, hp⟩ := (h.setup.reqs i).1 hi
        exact ⟨p.key, p, rfl, hp⟩
      · exact h.hI i hi
    obtain ⟨r', hra, hr', hri⟩ := h.get hknown
    rw [hr] at hr'; cases hr'
    have hsh : ShareName p r := ⟨n, hpn, hn⟩
    rcases hi with hi | hi
    · obtain ⟨j, hj, c, hc, hci⟩ := (h.setup.reqs i).1 hi
      have hkey : c.key = r.key := h.built.ok.ids.packageId_inj hci hri
      rcases hT.ofJobs p hpa r hra hsh j hj ⟨c, hc, hkey⟩ with h1 | ⟨h1, h2⟩ | ⟨h1, h2⟩
      · exact h.near_added hpa h1 hpi
      · have := h.requested hj h2 hpi
        rw [if_pos h1] at this
        rw [hm] at this
        cases this.1
      · obtain ⟨c', hc'a, hc', hch⟩ := h.requested_chosen hj h1
        have := h.exclusive hE hc'a hpa ?_ hch hpi hm
        · rw [this] at hch
          exact ((h.chosen_iff hpi).1 hch).1
        · obtain ⟨n', k1, k2⟩ := h2 c' hc'a hc'
          exact ⟨n', k2, k1⟩
    · have hk : InstalledKeys s r.key := (h.installed_iff r.key).1 ⟨i, ⟨r, rfl, hri⟩, hi⟩
      exact h.near_added hpa (hT.ofInstalled p hpa r hra hsh hk) hpi
  intro p' _ hpi'
  exact (h.chosen_iff hpi').2 ⟨main, hm⟩

/-- under the conditions, what the dependencies of a chosen package lead to is chosen -/
theorem Completed.prune_step (hE : Exclusive (allPackages rs) m) {name : N → Option Int}
    (hs : ∀ n l, name n = some l → l ∈ solutionToIds a ∧ 0 < l ∧ ∃ p, pool.idToPkg l.natAbs = .ok p ∧ Provides p n)
    {l : Int} (hl : ChosenLit rs pool st a l) {p : Package N S U} (hpg : pool.idToPkg l.natAbs = .ok p) {t : CTuple N S}
    (ht : t ∈ p.installRequires) {l' : Int} (hl' : name t.1 = some l') : ChosenLit rs pool st a l' := by
  obtain ⟨h0, hv, hch⟩ := hl
  obtain ⟨h0', hv', p', hpa', -, hpi', hpn'⟩ := h.named hs _ l' hl'
  refine ⟨h0', hv', ?_⟩
  obtain ⟨q, hq, hqi⟩ := h.found.known l (by rw [hv]; simp)
  obtain ⟨p1, hpa, h2, hpi⟩ := h.get ⟨q.key, q, rfl, hqi⟩
  rw [hpg] at h2; cases h2
  obtain ⟨d, hd, hdI, -, req, hreq, hdm⟩ := h.chosen_valid.consistent.deps p.key (hch p hpa hpi) t ht
  have hdn : Provides d t.1 := by
    have := hdm.1
    rwa [(fromConstraints_name hreq).1] at this
  have hk := h.exclusive hE hd hpa' ⟨t.1, hdn, hpn'⟩ hdI hpi' (m'_lit h0' hv')
  rw [hk] at hdI
  intro p'' _ hpi''
  exact (h.chosen_iff hpi'').2 ((h.chosen_iff hpi').1 hdI)

/-- under the conditions, what pruning includes is chosen -/
theorem Completed.included_chosen (hE : Exclusive (allPackages rs) m) (hT : Tidy (allPackages rs) (InstalledKeys s) jobs)
    {rootIds : List Nat} {name : N → Option Int} {included : List Int}
    (hroot : ∀ i, i ∈ rootIds ↔ i ∈ st.requirementIds ∨ i ∈ installed)
    (hp : Pruned pool (solutionToIds a) rootIds D name included) :
    ∀ l ∈ included, 0 < l ∧ a.value l = some true ∧
      ∀ p ∈ allPackages rs, pool.packageId p = .ok l.natAbs → Chosen rs pool st a p.key := by
  refine hp.least (ChosenLit rs pool st a) ?_ ?_
  · intro i hi r hr n hn l hl
    exact h.prune_root hE hT hp.nameSound ((hroot i).1 hi) hr hn hl
  · intro l hl p hpg t ht l' hl'
    exact h.prune_step hE hp.nameSound hl hpg ht hl'

/-- under the conditions, the decisions ask for a valid installation, which is a part of what is chosen -/
theorem Completed.wanted_valid (hu : s.usePruning = true) (hE : Exclusive (allPackages rs) m)
    (hT : Tidy (allPackages rs) (InstalledKeys s) jobs) :
    (∀ k, Wanted pool D installed k → Chosen rs pool st a k) ∧
    ValidInstall (allPackages rs) m (InstalledKeys s) jobs (Wanted pool D installed) := by
  have hd := h.decided
  rw [if_pos hu] at hd
  obtain ⟨rootIds, name, included, hroot, hp⟩ := hd
  have hinc := h.included_chosen hE hT hroot hp
  have hV := h.chosen_valid
  -- what is true and decided has been included
  have hin : ∀ (i : Nat) (p : Package N S U), p ∈ allPackages rs → pool.idToPkg i = .ok p → pool.packageId p = .ok i →
      (i : Int) ∈ D → (i : Int) ∈ included := by
    intro i p hpa hpg hpi hD
    rcases (hp.decided _).1 hD with hD | ⟨hs, hr⟩
    · exact hD
    · rw [Int.natAbs_natCast] at hr
      have hv := (h.found.pos i).1 hs
      have hm : m' st a i = true := m'_of_true hv
      have h0 : 0 < i := (h.built.ok.ids.packageId_spec hpi).1
      obtain ⟨l', hl'⟩ := hp.nameComplete i hs (by omega) p (by rw [Int.natAbs_natCast]; exact hpg) p.name (Or.inl rfl)
      have hl'i := hp.roots i hr p hpg p.name (Or.inl rfl) l' hl'
      obtain ⟨k1, k2, k3⟩ := hinc l' hl'i
      obtain ⟨-, -, p', hp', hpn'⟩ := hp.nameSound _ _ hl'
      obtain ⟨q, hq, hqi⟩ := h.found.known l' (by rw [k2]; simp)
      obtain ⟨p1, hpa1, h2, hpi1⟩ := h.get ⟨q.key, q, rfl, hqi⟩
      rw [hp'] at h2; cases h2
      have hk := h.exclusive hE hpa1 hpa ⟨p.name, hpn', Or.inl rfl⟩ (k3 p' hpa1 hpi1) hpi hm
      rw [pool.packageId_congr hk, hpi] at hpi1
      cases hpi1
      have : ((l'.natAbs : Nat) : Int) = l' := by omega
      rw [this]; exact hl'i
  have hsub : ∀ k, Wanted pool D installed k → Chosen rs pool st a k := by
    rintro k (⟨⟨i, ⟨p, rfl, hi⟩, hii⟩, hnot⟩ | ⟨i, ⟨p, rfl, hi⟩, hiD⟩)
    · refine (h.chosen_iff hi).2 ⟨h.installed_added ((h.installed_iff p.key).1 ⟨i, ⟨p, rfl, hi⟩, hii⟩) hi, ?_⟩
      apply h.m'_of_not_false
      intro hf
      apply hnot
      refine ⟨i, ⟨p, rfl, hi⟩, h.roots ((h.found.neg i).2 hf) (Or.inr ?_)⟩
      rw [Int.natAbs_neg, Int.natAbs_natCast]; exact hii
    · obtain ⟨q, hqa, hqg, hqi⟩ := h.get ⟨p.key, p, rfl, hi⟩
      obtain ⟨-, -, h3⟩ := hinc _ (hin i q hqa hqg hqi hiD)
      have := h3 q hqa (by rw [Int.natAbs_natCast]; exact hqi)
      exact (h.chosen_iff hi).2 ((h.chosen_iff hqi).1 this)
  have hreq : ∀ j ∈ jobs, ∀ c, Requested (allPackages rs) (InstalledKeys s) j c → Chosen rs pool st a c.key →
      j.kind ≠ .remove → Wanted pool D installed c.key := fun j hj c hc hch hk =>
    Or.inr (h.requested_decided hj hc hch hk)
  refine ⟨hsub, ⟨⟨?_, ?_, ?_, ?_⟩, ?_⟩⟩
  · intro k hk
    exact hV.consistent.available k (hsub k hk)
  · intro k hk t ht
    obtain ⟨d, hd, hdI, hne, req, hreqt, hdm⟩ := hV.consistent.deps k (hsub k hk) t ht
    refine ⟨d, hd, ?_, hne, req, hreqt, hdm⟩
    have hdn : Provides d t.1 := by
      have := hdm.1
      rwa [(fromConstraints_name hreqt).1] at this
    -- the package is decided in, otherwise it occurs in no rule and has no dependencies
    have hcase : ∃ i : Nat, IdOf pool k i ∧ (i : Int) ∈ D := by
      rcases hk with ⟨⟨i, ⟨p, rfl, hi⟩, hii⟩, hnot⟩ | ⟨i, hi, hiD⟩
      · refine ⟨i, ⟨p, rfl, hi⟩, h.roots ((h.found.pos i).2 ?_) (Or.inr (by rw [Int.natAbs_natCast]; exact hii))⟩
        have hnf : a.value i ≠ some false := by
          intro hf
          apply hnot
          refine ⟨i, ⟨p, rfl, hi⟩, h.roots ((h.found.neg i).2 hf) (Or.inr ?_)⟩
          rw [Int.natAbs_neg, Int.natAbs_natCast]; exact hii
        apply h.m'_true (h.m'_of_not_false hnf)
        obtain ⟨hcl, -, -⟩ := iterRules_spec h.setup.gen
        have hadd := h.installed_added ((h.installed_iff p.key).1 ⟨i, ⟨p, rfl, hi⟩, hii⟩) hi
        obtain ⟨p', hp', h2, -⟩ := hcl i hadd
        have hkey : p'.key = p.key := h.built.ok.ids.packageId_inj hp' hi
        have : ∃ lits, Has st.gen.rules lits ∧ -(i : Int) ∈ lits := by
          rcases h2 with h2 | h2
          · exact ⟨_, h2, by simp⟩
          · obtain ⟨_, _, ids, -, -, -, h4, -⟩ := h2 t (by rw [(key_fields hkey).2.2.1]; exact ht)
            exact ⟨_, h4, by simp⟩
        obtain ⟨lits, ⟨rule, h3, h4⟩, h5⟩ := this
        rw [mem_varsOf]
        refine ⟨rule.literals, List.mem_map.2 ⟨rule, h3, rfl⟩, -(i : Int), ?_, ?_⟩
        · rw [h4, mem_sortBy]; exact h5
        · unfold iabs; omega
      · exact ⟨i, hi, hiD⟩
    obtain ⟨i, ⟨p, rfl, hi⟩, hiD⟩ := hcase
    obtain ⟨p', hpa', hpg', hpi'⟩ := h.get ⟨p.key, p, rfl, hi⟩
    have hkey : p'.key = p.key := h.built.ok.ids.packageId_inj hpi' hi
    obtain ⟨-, p'', hp'', hdeps⟩ := hp.closed _ (hin i p' hpa' hpg' hpi' hiD)
    rw [Int.natAbs_natCast, hpg'] at hp''
    cases hp''
    obtain ⟨l', hl', hl'i⟩ := hdeps t (by rw [(key_fields hkey).2.2.1]; exact ht)
    obtain ⟨k1, k2, k3⟩ := hinc l' hl'i
    obtain ⟨-, -, e, he, hen⟩ := hp.nameSound _ _ hl'
    obtain ⟨q, hq, hqi⟩ := h.found.known l' (by rw [k2]; simp)
    obtain ⟨e', hea, he', hei⟩ := h.get ⟨q.key, q, rfl, hqi⟩
    rw [he] at he'; cases he'
    have hl0 : ((l'.natAbs : Nat) : Int) = l' := by omega
    have hk := h.exclusive hE hd hea ⟨t.1, hdn, hen⟩ hdI hei (m'_of_true (by rw [hl0]; exact k2))
    refine Or.inr ⟨l'.natAbs, ⟨e, hk.symm, hei⟩, ?_⟩
    rw [hl0]
    exact (hp.decided l').2 (Or.inl hl'i)
  · intro k k' hk hk' hn
    exact hV.consistent.names k k' (hsub k hk) (hsub k' hk') hn
  · intro k hk t ht q hq hq' hne
    exact hV.consistent.conflicts k (hsub k hk) t ht q hq (hsub _ hq') hne
  · intro j hj
    obtain ⟨r, hr, hs⟩ := hV.jobs j hj
    refine ⟨r, hr, ?_⟩
    cases hkind : j.kind with
    | install =>
      rw [hkind] at hs
      obtain ⟨q, hq, hI, hm⟩ := hs
      exact ⟨q, hq, hreq j hj q ⟨r, hr, by rw [hkind]; simp [hq, hm]⟩ hI (by rw [hkind]; simp), hm⟩
    | softUpdate =>
      rw [hkind] at hs
      obtain ⟨q, hq, hI, hm⟩ := hs
      exact ⟨q, hq, hreq j hj q ⟨r, hr, by rw [hkind]; simp [hq, hm]⟩ hI (by rw [hkind]; simp), hm⟩
    | remove =>
      rw [hkind] at hs
      intro q hq hI hm
      exact hs q hq (hsub _ hI) hm
    | upgrade => rw [hkind] at hs; exact hs.elim
    | hardUpdate =>
      rw [hkind] at hs
      intro q ht
      exact hreq j hj q ⟨r, hr, by rw [hkind]; simpa using ht⟩ (hs q ht) (by rw [hkind]; simp)

/-- if the installed packages are valid and nothing is to be updated softly, none of them is dropped -/
theorem Completed.keeps {o : Orders} (hsearch : search o pool st = .ok a)
    (hv : ValidInstall (allPackages rs) m (InstalledKeys s) jobs (InstalledKeys s))
    (hsoft : ∀ j ∈ jobs, j.kind ≠ .softUpdate) {p : Package N S U} (hp : InstalledKeys s p.key) {i : Nat}
    (hi : pool.packageId p = .ok i) : a.value i ≠ some false ∧ Chosen rs pool st a p.key := by
  have hset : InstalledSet st.installedDict = InstalledKeys s := by funext k; exact propext (h.setup.inst k)
  have hnf : a.value i ≠ some false := by
    classical
    have hsat := C36_rules_are_sound h.built h.setup.ids h.setup.gen (InstalledKeys s) (by rw [hset]; exact hv)
      (fun i => decide (∃ p, pool.packageId p = .ok i ∧ InstalledKeys s p.key)) (by
        intro p i hi
        rw [decide_eq_true_eq]
        constructor
        · rintro ⟨q, h1, h2⟩
          rw [h.built.ok.ids.packageId_inj hi h1]; exact h2
        · intro h2; exact ⟨p, hi, h2⟩)
    refine (C16_preferred_kept o.policyPerm (h.setup.hids h.built) (h.setup.hnz h.built) hsearch ⟨_, hsat, ?_⟩ (i : Int) ?_).1
    · intro x hx
      obtain ⟨q, hq, -, j, hj, rfl⟩ := (h.setup.prefer x).1 hx
      rw [Run.litTrue_pos (h.built.ok.ids.packageId_spec hj).1, decide_eq_true_eq]
      exact ⟨q, hj, q, hq, rfl⟩
    · rw [h.setup.prefer]
      obtain ⟨q, hq, hk⟩ := hp
      refine ⟨q, hq, ?_, i, by rw [pool.packageId_congr hk]; exact hi, rfl⟩
      rintro ⟨j, hj, hs, -⟩
      exact hsoft j hj hs
  exact ⟨hnf, (h.chosen_iff hi).2 ⟨h.installed_added hp hi, h.m'_of_not_false hnf⟩⟩

/-- if the installed packages are valid, nothing is selected that shares a name with an installed or requested package,
but is not installed -/
theorem Completed.root_installed (hE : Exclusive (allPackages rs) m) (hT : Tidy (allPackages rs) (InstalledKeys s) jobs)
    (hv : ValidInstall (allPackages rs) m (InstalledKeys s) jobs (InstalledKeys s))
    (hkeep : ∀ (p : Package N S U) (i : Nat), InstalledKeys s p.key → pool.packageId p = .ok i → Chosen rs pool st a p.key)
    {p r : Package N S U} (hpa : p ∈ allPackages rs) (hra : r ∈ allPackages rs) (hsh : ShareName p r) {i l : Nat}
    (hri : pool.packageId r = .ok i) (hi : i ∈ st.requirementIds ∨ i ∈ installed) (hpi : pool.packageId p = .ok l)
    (hm : m' st a l = true) : InstalledKeys s p.key := by
  have near : ∀ c ∈ allPackages rs, InstalledKeys s c.key → ShareName p c → InstalledKeys s p.key := by
    rintro c hca hc ⟨n, h1, h2⟩
    obtain ⟨j, hj⟩ := h.built.ok.ids.packageId_ok ⟨c, hca, rfl⟩
    rw [← h.exclusive hE hca hpa ⟨n, h2, h1⟩ (hkeep c j hc hj) hpi hm]
    exact hc
  rcases hi with hi | hi
  · obtain ⟨j, hj, c, hc, hci⟩ := (h.setup.reqs i).1 hi
    have hkey : c.key = r.key := h.built.ok.ids.packageId_inj hci hri
    rcases hT.ofJobs p hpa r hra hsh j hj ⟨c, hc, hkey⟩ with ⟨k, hk, hn⟩ | ⟨h1, h2⟩ | ⟨h1, h2⟩
    · obtain ⟨q, hq, rfl⟩ := hv.consistent.available k hk
      exact near q hq hk ⟨q.name, hn, Or.inl rfl⟩
    · have := h.requested hj h2 hpi
      rw [if_pos h1, hm] at this
      cases this.1
    · obtain ⟨req, hreq, hsat⟩ := hv.jobs j hj
      obtain ⟨c', hca', ⟨req', hreq', hc'⟩, -⟩ := h.requested_chosen hj h1
      rw [hreq] at hreq'; cases hreq'
      have inst : ∀ q ∈ allPackages rs, InstalledKeys s q.key → MeetsJob req q → j.kind ≠ .hardUpdate →
          InstalledKeys s p.key := by
        intro q hq hqi hqm hjk
        exact near q hq hqi (h2 q hq ⟨req, hreq, by rw [if_neg hjk]; exact ⟨hq, hqm⟩⟩)
      cases hkind : j.kind with
      | install =>
        rw [hkind] at hsat
        obtain ⟨q, hq, hqi, hqm⟩ := hsat
        exact inst q hq hqi hqm (by rw [hkind]; simp)
      | softUpdate =>
        rw [hkind] at hsat
        obtain ⟨q, hq, hqi, hqm⟩ := hsat
        exact inst q hq hqi hqm (by rw [hkind]; simp)
      | remove => exact absurd hkind h1
      | upgrade => rw [hkind] at hsat; exact hsat.elim
      | hardUpdate =>
        rw [hkind] at hsat
        rw [if_pos hkind] at hc'
        exact near c' hca' (hsat c' hc') (h2 c' hca' ⟨req, hreq, by rw [if_pos hkind]; exact hc'⟩)
  · have hk : InstalledKeys s r.key := (h.installed_iff r.key).1 ⟨i, ⟨r, rfl, hri⟩, hi⟩
    exact near r hra hk hsh

/-- if the installed packages are valid, nothing is decided in that is not installed -/
theorem Completed.nothing_new (hu : s.usePruning = true) (hE : Exclusive (allPackages rs) m)
    (hT : Tidy (allPackages rs) (InstalledKeys s) jobs)
    (hv : ValidInstall (allPackages rs) m (InstalledKeys s) jobs (InstalledKeys s))
    (hkeep : ∀ (p : Package N S U) (i : Nat), InstalledKeys s p.key → pool.packageId p = .ok i → Chosen rs pool st a p.key)
    {k : PKey N S U} (hk : DecidedIn pool D k) : InstalledKeys s k := by
  have hd := h.decided
  rw [if_pos hu] at hd
  obtain ⟨rootIds, name, included, hroot, hp⟩ := hd
  have hname : ∀ n l, name n = some l → 0 < l ∧ m' st a l.natAbs = true ∧ ∃ p ∈ allPackages rs,
      pool.packageId p = .ok l.natAbs ∧ Provides p n := by
    intro n l hl
    obtain ⟨h1, h0, p, h2, h3⟩ := hp.nameSound n l hl
    have e : ((l.natAbs : Nat) : Int) = l := by omega
    have hval : a.value l = some true := by
      rcases h.found.lits l h1 with ⟨-, h4⟩ | ⟨h4, -⟩
      · exact h4
      · omega
    obtain ⟨q, hq, hqi⟩ := h.found.known l (by rw [hval]; simp)
    obtain ⟨p', hp', h4, h5⟩ := h.get ⟨q.key, q, rfl, hqi⟩
    rw [h2] at h4
    cases h4
    exact ⟨h0, m'_of_true (by rw [e]; exact hval), p, hp', h5, h3⟩
  have hinc : ∀ l ∈ included, (∃ k, IdOf pool k l.natAbs) ∧
      ∀ p, pool.packageId p = .ok l.natAbs → InstalledKeys s p.key := by
    refine hp.least _ ?_ ?_
    · intro i hi r hr n hn l hl
      obtain ⟨h0, hm, p, hpa, hpi, hpn⟩ := hname n l hl
      refine ⟨⟨p.key, p, rfl, hpi⟩, ?_⟩
      rw [hroot] at hi
      have hknown : ∃ k, IdOf pool k i := by
        rcases hi with hi | hi
        · obtain ⟨j, -, p, -, hp⟩ := (h.setup.reqs i).1 hi
          exact ⟨p.key, p, rfl, hp⟩
        · exact h.hI i hi
      obtain ⟨r', hra, hr', hri⟩ := h.get hknown
      rw [hr] at hr'; cases hr'
      have := h.root_installed hE hT hv hkeep hpa hra ⟨n, hpn, hn⟩ hri hi hpi hm
      intro p' hp'
      rw [h.built.ok.ids.packageId_inj hp' hpi]; exact this
    · rintro l ⟨hkn, hl⟩ p hpg t ht l' hl'
      obtain ⟨h0', hm', p', hpa', hpi', hpn'⟩ := hname _ l' hl'
      refine ⟨⟨p'.key, p', rfl, hpi'⟩, ?_⟩
      obtain ⟨p1, hpa, h2, hpi⟩ := h.get hkn
      rw [hpg] at h2; cases h2
      obtain ⟨d, hd, hdI, -, req, hreq, hdm⟩ := hv.consistent.deps p.key (hl p hpi) t ht
      have hdn : Provides d t.1 := by
        have := hdm.1
        rwa [(fromConstraints_name hreq).1] at this
      obtain ⟨j, hj⟩ := h.built.ok.ids.packageId_ok ⟨d, hd, rfl⟩
      have hkk := h.exclusive hE hd hpa' ⟨t.1, hdn, hpn'⟩ (hkeep d j hdI hj) hpi' hm'
      intro p'' hp''
      rw [h.built.ok.ids.packageId_inj hp'' hpi', ← hkk]; exact hdI
  obtain ⟨i, ⟨p, rfl, hi⟩, hiD⟩ := hk
  rcases (hp.decided _).1 hiD with hl | ⟨hs, hr⟩
  · exact (hinc _ hl).2 p (by rw [Int.natAbs_natCast]; exact hi)
  · rw [Int.natAbs_natCast, hroot] at hr
    obtain ⟨q, hqa, -, hqi⟩ := h.get ⟨p.key, p, rfl, hi⟩
    have := h.root_installed hE hT hv hkeep hqa hqa ⟨q.name, Or.inl rfl, Or.inl rfl⟩ hqi hr hqi
      (m'_of_true ((h.found.pos i).1 hs))
    rw [h.built.ok.ids.packageId_inj hi hqi]; exact this

end
end Verif.Solve
