import Verif.Props.Choice
/-
Property C134: requests that only remove packages.
-/
set_option linter.unusedSectionVars false
namespace Verif.Props
open Verif Verif.Pkg Verif.Solve Verif.Rules Verif.Sat

variable {N S U : Type} [LinearOrder N] [DecidableEq S] [LinearOrder U] [Syntax S U]

/-! ### Specification -/

/-- The package `k` has to go: a removal asks for it, or every other package that would meet one of its dependencies has to go. -/
inductive Doomed (avail : List (Package N S U)) (mods : Option (Modifiers N)) (jobs : List (Job N U)) : PKey N S U → Prop where
  | asked {p j r} : p ∈ avail → j ∈ jobs → j.kind = .remove → j.requirement = some r → MeetsJob r p → Doomed avail mods jobs p.key
  | dep {k t} : t ∈ k.installRequires → (∀ q ∈ avail, q.key ≠ k → MeetsDep mods t q → Doomed avail mods jobs q.key) →
      Doomed avail mods jobs k

/-- the request only removes packages -/
def OnlyRemoves (q : Request N U) : Prop := ∀ j ∈ q.jobs, j.kind = .remove ∧ ∃ r, j.requirement = some r

/-- nothing can take the place of an installed package that has to go: every package that shares a name with it has to go too -/
def NoReplacement (avail : List (Package N S U)) (mods : Option (Modifiers N)) (jobs : List (Job N U)) (installed : PKey N S U → Prop) :
    Prop :=
  ∀ p ∈ avail, ∀ r ∈ avail, ShareName p r → installed r.key → Doomed avail mods jobs r.key → Doomed avail mods jobs p.key

/-! ### Proofs -/

variable {rs : List (Repository N S U)} {s : DependencySolver N S U}

/-- a package that has to go is in no valid installation -/
theorem doomed_out {avail : List (Package N S U)} {mods : Option (Modifiers N)} {jobs : List (Job N U)}
    {installed I : PKey N S U → Prop} (hv : ValidInstall avail mods installed jobs I) {k : PKey N S U}
    (hk : Doomed avail mods jobs k) : ¬ I k := by
  induction hk with
  | @asked p j r hp hj hkind hreq hm =>
    intro hI
    obtain ⟨r', h1, h2⟩ := hv.jobs j hj
    rw [hreq] at h1
    cases h1
    rw [hkind] at h2
    exact h2 p hp hI hm
  | @dep k t ht _ ih =>
    intro hI
    obtain ⟨q, hq, hqI, hne, hm⟩ := hv.consistent.deps k hI t ht
    exact ih q hq hne hm hqI

theorem doomed_active (avail : List (Package N S U)) (m : Modifiers N) (jobs : List (Job N U)) (k : PKey N S U) :
    Doomed avail (activeModifiers m) jobs k ↔ Doomed avail (some m) jobs k := by
  constructor
  · intro h
    induction h with
    | asked h1 h2 h3 h4 h5 => exact .asked h1 h2 h3 h4 h5
    | dep ht _ ih => exact .dep ht (fun q hq hne hm => ih q hq hne ((meetsDep_active m _ q).2 hm))
  · intro h
    induction h with
    | asked h1 h2 h3 h4 h5 => exact .asked h1 h2 h3 h4 h5
    | dep ht _ ih => exact .dep ht (fun q hq hne hm => ih q hq hne ((meetsDep_active m _ q).1 hm))

theorem OnlyRemoves.jobs {q : Request N U} (h : OnlyRemoves q) (s : DependencySolver N S U) : effectiveJobs s q = q.jobs :=
  effectiveJobs_plain s (fun j hj => by rw [(h j hj).1]; simp)

/-- what can stay is a valid installation -/
theorem rest_valid {avail : List (Package N S U)} {mods : Option (Modifiers N)} {jobs : List (Job N U)} {installed : PKey N S U → Prop}
    (hc : Consistent avail mods installed) (hj : ∀ j ∈ jobs, j.kind = .remove ∧ ∃ r, j.requirement = some r)
    (hW : NoReplacement avail mods jobs installed) :
    ValidInstall avail mods installed jobs (fun k => installed k ∧ ¬ Doomed avail mods jobs k) := by
  refine ⟨⟨fun k hk => hc.available k hk.1, ?_, fun k k' hk hk' => hc.names k k' hk.1 hk'.1, ?_⟩, ?_⟩
  · intro k hk t ht
    obtain ⟨d, hd, hdI, hne, hm⟩ := hc.deps k hk.1 t ht
    refine ⟨d, hd, ⟨hdI, fun hdoom => hk.2 (.dep ht ?_)⟩, hne, hm⟩
    intro p hp _ hpm
    refine hW p hp d hd ?_ hdI hdoom
    obtain ⟨r, hr, h1⟩ := hm
    obtain ⟨r', hr', h2⟩ := hpm
    rw [hr] at hr'
    cases hr'
    exact ⟨r.name, h2.1, h1.1⟩
  · intro k hk t ht p hp hpI hne
    exact hc.conflicts k hk.1 t ht p hp hpI.1 hne
  · intro j hjm
    obtain ⟨hk, r, hr⟩ := hj j hjm
    refine ⟨r, hr, ?_⟩
    rw [hk]
    intro p hp hpI hm
    exact hpI.2 (.asked hp hjm hk hr hm)

section
variable {m : Option (Modifiers N)} {jobs : List (Job N U)} {pool : Pool N S U} {st : Setup N S U} {a : ASet}
  {installed : List Nat} {D : List Int} (h : Completed rs s m jobs pool st a installed D)
include h

/-- With pruning, all that is decided in belongs to `K`, if what is true and shares a name with an installed or requested package does,
and `K` is chosen and closed under dependencies. -/
theorem Completed.decided_within (hu : s.usePruning = true) (hE : Exclusive (allPackages rs) m) {K : PKey N S U → Prop}
    (hdeps : ∀ k, K k → ∀ t ∈ k.installRequires, ∃ q ∈ allPackages rs, K q.key ∧ MeetsDep m t q)
    (hkeep : ∀ k, K k → Chosen rs pool st a k)
    (hrootK : ∀ p ∈ allPackages rs, ∀ r ∈ allPackages rs, ShareName p r → ∀ i l : Nat, pool.packageId r = .ok i →
      (i ∈ st.requirementIds ∨ i ∈ installed) → pool.packageId p = .ok l → m' st a l = true → K p.key)
    {k : PKey N S U} (hk : DecidedIn pool D k) : K k := by
  have hd := h.decided
  rw [if_pos hu] at hd
  obtain ⟨rootIds, name, included, hroot, hp⟩ := hd
  have hname : ∀ n l, name n = some l → 0 < l ∧ m' st a l.natAbs = true ∧ ∃ p ∈ allPackages rs,
      pool.packageId p = .ok l.natAbs ∧ Provides p n := by
    intro n l hl
    obtain ⟨h1, h0, p, h2, h3⟩ := hp.nameSound n l hl
    have e : ((l.natAbs : Nat) : Int) = l := by omega
    have hval : a.value l = some true := by
      rcases h.found.lits l h1 with ⟨-, h4⟩ | ⟨h4, -⟩
      · exact h4
      · omega
    obtain ⟨q, hq, hqi⟩ := h.found.known l (by rw [hval]; simp)
    obtain ⟨p', hp', h4, h5⟩ := h.get ⟨q.key, q, rfl, hqi⟩
    rw [h2] at h4
    cases h4
    exact ⟨h0, m'_of_true (by rw [e]; exact hval), p, hp', h5, h3⟩
  have hinc : ∀ l ∈ included, (∃ k, IdOf pool k l.natAbs) ∧ ∀ p, pool.packageId p = .ok l.natAbs → K p.key := by
    refine hp.least _ ?_ ?_
    · intro i hi r hr n hn l hl
      obtain ⟨h0, hm, p, hpa, hpi, hpn⟩ := hname n l hl
      refine ⟨⟨p.key, p, rfl, hpi⟩, ?_⟩
      rw [hroot] at hi
      have hknown : ∃ k, IdOf pool k i := by
        rcases hi with hi | hi
        · obtain ⟨j, -, p, -, hp⟩ := (h.setup.reqs i).1 hi
          exact ⟨p.key, p, rfl, hp⟩
        · exact h.hI i hi
      obtain ⟨r', hra, hr', hri⟩ := h.get hknown
      rw [hr] at hr'; cases hr'
      have := hrootK p hpa r hra ⟨n, hpn, hn⟩ i _ hri hi hpi hm
      intro p' hp'
      rw [h.built.ok.ids.packageId_inj hp' hpi]; exact this
    · rintro l ⟨hkn, hl⟩ p hpg t ht l' hl'
      obtain ⟨h0', hm', p', hpa', hpi', hpn'⟩ := hname _ l' hl'
      refine ⟨⟨p'.key, p', rfl, hpi'⟩, ?_⟩
      obtain ⟨p1, hpa, h2, hpi⟩ := h.get hkn
      rw [hpg] at h2; cases h2
      obtain ⟨d, hd, hdK, req, hreq, hdm⟩ := hdeps p.key (hl p hpi) t ht
      have hdn : Provides d t.1 := by
        have := hdm.1
        rwa [(fromConstraints_name hreq).1] at this
      have hkk := h.exclusive hE hd hpa' ⟨t.1, hdn, hpn'⟩ (hkeep _ hdK) hpi' hm'
      intro p'' hp''
      rw [h.built.ok.ids.packageId_inj hp'' hpi', ← hkk]; exact hdK
  obtain ⟨i, ⟨p, rfl, hi⟩, hiD⟩ := hk
  rcases (hp.decided _).1 hiD with hl | ⟨hs, hr⟩
  · exact (hinc _ hl).2 p (by rw [Int.natAbs_natCast]; exact hi)
  · rw [Int.natAbs_natCast, hroot] at hr
    obtain ⟨q, hqa, -, hqi⟩ := h.get ⟨p.key, p, rfl, hi⟩
    have := hrootK q hqa q hqa ⟨q.name, Or.inl rfl, Or.inl rfl⟩ i i hqi hr hqi (m'_of_true ((h.found.pos i).1 hs))
    rw [h.built.ok.ids.packageId_inj hi hqi]; exact this

/-- installed packages that need not go are not decided out, if those that need not go are a valid installation -/
theorem Completed.rest_true {o : Orders} (hsearch : search o pool st = .ok a) (hj : ∀ j ∈ jobs, j.kind = .remove)
    (hv : ValidInstall (allPackages rs) m (InstalledKeys s) jobs
      (fun k => InstalledKeys s k ∧ ¬ Doomed (allPackages rs) m jobs k)) {p : Package N S U} (hp : p ∈ s.installed.iter)
    (hd : ¬ Doomed (allPackages rs) m jobs p.key) {i : Nat} (hi : pool.packageId p = .ok i) : a.value i ≠ some false := by
  intro hf
  obtain ⟨μ, hμ, hμI⟩ := Completed.model h hv
  have hsoft : ∀ k : PKey N S U, ¬ ∃ j ∈ jobs, SoftlyUpdated (allPackages rs) (InstalledKeys s) j k := by
    rintro k ⟨j, hjm, hs, -⟩
    rw [hj j hjm] at hs
    cases hs
  have hmem : (i : Int) ∈ st.prefer := (h.setup.prefer _).2 ⟨p, hp, hsoft _, i, hi, rfl⟩
  obtain ⟨pre, post, hsplit⟩ := List.append_of_mem hmem
  refine C57_lexicographic_preference o.policyPerm (h.setup.hids h.built) (h.setup.hnz h.built) hsearch hsplit
    h.setup.preferNodup hf hμ ?_ ((hμI p i hi).2 ⟨⟨p, hp, rfl⟩, hd⟩)
  intro x hx hxt
  obtain ⟨p', hp', -, i', hi', rfl⟩ := (h.setup.prefer x).1 (by rw [hsplit]; simp [hx])
  refine (hμI p' i' hi').2 ⟨⟨p', hp', rfl⟩, fun hd' => ?_⟩
  exact doomed_out h.chosen_valid hd' ((h.chosen_iff hi').2 ⟨h.installed_added ⟨p', hp', rfl⟩ hi', m'_of_true hxt⟩)

end

/-! ### C134 -/

/-- C134: a request that only removes packages is never unsatisfiable. -/
theorem C134_never_unsatisfiable (hs : SolverFor rs s) (o : Orders) {q : Request N U} (hr : OnlyRemoves q) (u : Sat.UnsatInfo) :
    s.solve o q ≠ .error (.sat (.satisfiability u)) := by
  have h := C40_decides hs o q
  intro hu
  rw [hu] at h
  refine h ⟨fun _ => False, ⟨⟨by simp, by simp, by simp, by simp⟩, ?_⟩⟩
  rw [hr.jobs s]
  intro j hj
  obtain ⟨hk, r, hreq⟩ := hr j hj
  refine ⟨r, hreq, ?_⟩
  rw [hk]
  exact fun _ _ hF => hF.elim

/-- a package that has to go and of whose name no other one can be installed is removed -/
theorem doomed_removed {m : Option (Modifiers N)} {jobs : List (Job N U)} {pool : Pool N S U} {st : Setup N S U} {a : ASet}
    {installed : List Nat} {D : List Int} (h : Completed rs s m jobs pool st a installed D) {t : Transaction N S U}
    (ht : mkTransaction pool D installed = .ok t) {k : PKey N S U} (hk : InstalledKeys s k)
    (htwin : ∀ p ∈ allPackages rs, SameNameVersion k p.key → Doomed (allPackages rs) m jobs p.key) (hd : Doomed (allPackages rs) m jobs k) :
    ¬ Result s t k := by
  intro hR
  have hw : ¬ Wanted pool D installed k := by
    obtain ⟨p, hp, rfl⟩ := hk
    obtain ⟨i, hi⟩ := h.setup.known p hp
    have hadd := h.installed_added ⟨p, hp, rfl⟩ hi
    have hnc := doomed_out h.chosen_valid hd
    have hf : a.value i = some false := by
      apply Classical.byContradiction
      intro hn
      exact hnc ((h.chosen_iff hi).2 ⟨hadd, h.m'_of_not_false hn⟩)
    have hD : -(i : Int) ∈ D := h.roots ((h.found.neg i).2 hf) (Or.inr (by rw [Int.natAbs_neg, Int.natAbs_natCast]; exact (h.inst i).2 ⟨p, hp, hi⟩))
    rintro (⟨-, h1⟩ | ⟨j, ⟨p', hk', hj⟩, hjD⟩)
    · exact h1 ⟨i, ⟨p, rfl, hi⟩, hD⟩
    · rw [pool.packageId_congr hk', hi] at hj
      cases hj
      exact h.decisions.consistent _ hjD hD
  obtain ⟨h1, -⟩ := C45_decisions_realised h.built h.decisions h.hI ht k
  rw [h.installed_eq] at h1
  obtain ⟨-, -, k', ⟨j, hid, hjD⟩, -, hsame⟩ := h1 hR hw
  obtain ⟨p, hpa, hpk, -, hpj⟩ := IdOf.get h.built.ok hid
  subst hpk
  have hnc := doomed_out h.chosen_valid (htwin p hpa hsame)
  refine hnc ((h.chosen_iff hpj).2 ⟨h.near_added hpa ⟨k, hk, Or.inl ?_⟩ hpj, m'_of_true ((h.found.pos j).1 (h.sub _ hjD))⟩)
  exact hsame.1

/-- C134: packages that have to go are removed: those that a removal asks for and all that cannot do without them. (A package of the
same name and version from another repository would stand for it; so it has to go too.) -/
theorem C134_doomed_go (hs : SolverFor rs s) {o : Orders} {q : Request N U} {t : Transaction N S U} (h : s.solve o q = .ok t)
    {k : PKey N S U} (hk : InstalledKeys s k) (hd : Doomed (allPackages rs) (some q.modifiers) (effectiveJobs s q) k)
    (htwin : ∀ p ∈ allPackages rs, SameNameVersion k p.key → Doomed (allPackages rs) (some q.modifiers) (effectiveJobs s q) p.key) :
    ¬ Result s t k := by
  obtain ⟨pool, st, a, installed, D, hc, -, ht⟩ := solve_ok hs h
  exact doomed_removed hc ht hk (fun p hp h1 => (doomed_active _ _ _ _).2 (htwin p hp h1)) ((doomed_active _ _ _ _).2 hd)

/-- C134 (partial): if the installed packages are in order, and nothing can take the place of those that have to go, then a request
that only removes packages removes those that have to go, and no others, with or without pruning. What is missing: replacements, for
which the property fails, see `C134_violated`, `C134_violated_unrelated`. -/
theorem C134_removes_exactly_partial (hs : SolverFor rs s) {o : Orders} {q : Request N U} {t : Transaction N S U}
    (h : s.solve o q = .ok t) (hr : OnlyRemoves q) (hi : Consistent (allPackages rs) (some q.modifiers) (InstalledKeys s))
    (hW : NoReplacement (allPackages rs) (some q.modifiers) q.jobs (InstalledKeys s)) (k : PKey N S U) (hk : InstalledKeys s k) :
    RemovedBy t.operations k ↔ Doomed (allPackages rs) (some q.modifiers) q.jobs k := by
  have e := hr.jobs s
  have hgo : ∀ k, InstalledKeys s k → Doomed (allPackages rs) (some q.modifiers) q.jobs k → ¬ Result s t k := by
    intro k hk hd
    refine C134_doomed_go hs h hk (by rw [e]; exact hd) (fun p hp hsame => ?_)
    obtain ⟨r, hra, rfl⟩ := hi.available k hk
    rw [e]
    exact hW p hp r hra ⟨p.name, Or.inl rfl, Or.inl hsame.1.symm⟩ hk hd
  have hgone : RemovedBy t.operations k ↔ ¬ Result s t k := by
    have h2 := (C42_removes_installed hs h k).2
    unfold Result Apply
    constructor
    · rintro h1 (⟨-, h3⟩ | h3)
      · exact h3 h1
      · exact h2 h3 hk
    · intro h1
      apply Classical.byContradiction
      intro h3
      exact h1 (Or.inl ⟨hk, h3⟩)
  rw [hgone]
  refine ⟨fun hg => ?_, hgo k hk⟩
  apply Classical.byContradiction
  intro hd
  have hpref : ∀ k, Preferred rs s q k ↔ InstalledKeys s k := by
    intro k
    unfold Preferred
    rw [e]
    refine ⟨And.left, fun h1 => ⟨h1, ?_⟩⟩
    rintro ⟨j, hj, hsoft, -⟩
    rw [(hr j hj).1] at hsoft
    cases hsoft
  refine C84_given_up_only_if_necessary hs h ((hpref k).2 hk) hg
    (I := fun k => InstalledKeys s k ∧ ¬ Doomed (allPackages rs) (some q.modifiers) q.jobs k) ?_ ?_ ⟨hk, hd⟩
  · unfold Solves
    rw [e]
    exact rest_valid hi hr hW
  · intro k' hk' hR _
    have hk' := (hpref k').1 hk'
    exact ⟨hk', fun hd' => hgo k' hk' hd' hR⟩

/-- C134 (partial): then, with pruning, nothing is installed, if packages which provide a common name exclude each other and the
names are tidy (as for C43). -/
theorem C134_installs_nothing_partial (hs : SolverFor rs s) {o : Orders} {q : Request N U} {t : Transaction N S U}
    (h : s.solve o q = .ok t) (hr : OnlyRemoves q) (hi : Consistent (allPackages rs) (some q.modifiers) (InstalledKeys s))
    (hW : NoReplacement (allPackages rs) (some q.modifiers) q.jobs (InstalledKeys s))
    (hu : s.usePruning = true) (hE : Exclusive (allPackages rs) (some q.modifiers))
    (hT : Tidy (allPackages rs) (InstalledKeys s) q.jobs) (k : PKey N S U) : ¬ InstalledBy t.operations k := by
  have hx := C134_removes_exactly_partial hs h hr hi hW
  have e := hr.jobs s
  have hout := C42_removes_installed hs h
  rw [← exclusive_active] at hE
  rw [← consistent_active] at hi
  have hD := doomed_active (allPackages rs) q.modifiers q.jobs
  obtain ⟨pool, st, a, installed, D, hc, hsearch, ht⟩ := solve_ok hs h
  rw [e] at hc
  obtain ⟨rem, ins, he, h1, h2, -⟩ := C44_operations_well_formed hc.built hc.decisions hc.hI ht
  intro hk
  have hnew := (hout k).2 hk
  rw [he, installedBy_iff] at hk
  obtain ⟨p, hp, rfl⟩ := hk
  obtain ⟨-, hin⟩ := h2 p hp
  have hW' : NoReplacement (allPackages rs) (activeModifiers q.modifiers) q.jobs (InstalledKeys s) := by
    unfold NoReplacement
    simp only [hD]
    exact hW
  have hv := rest_valid hi hr hW'
  have hkeep : ∀ k, (InstalledKeys s k ∧ ¬ Doomed (allPackages rs) (activeModifiers q.modifiers) q.jobs k) → Chosen rs pool st a k := by
    rintro k ⟨hk, hd⟩
    obtain ⟨r, hr', rfl⟩ := hk
    obtain ⟨i, hi'⟩ := hc.setup.known r hr'
    exact (hc.chosen_iff hi').2 ⟨hc.installed_added ⟨r, hr', rfl⟩ hi', hc.m'_of_not_false
      (Completed.rest_true hc hsearch (fun j hj => (hr j hj).1) hv hr' hd hi')⟩
  refine hnew (Completed.decided_within hc hu hE
    (K := fun k => InstalledKeys s k ∧ ¬ Doomed (allPackages rs) (activeModifiers q.modifiers) q.jobs k)
    (fun k hk t ht => ?_) hkeep ?_ hin).1
  · obtain ⟨d, hd, hdK, -, hm⟩ := hv.consistent.deps k hk t ht
    exact ⟨d, hd, hdK, hm⟩
  · intro p hpa r hra hsh i l hri hir hpi hm
    -- what provides the name of an installed package and is true, stays
    have near : ∀ c ∈ allPackages rs, InstalledKeys s c.key → ShareName p c → NearInstalled (InstalledKeys s) p →
        InstalledKeys s p.key ∧ ¬ Doomed (allPackages rs) (activeModifiers q.modifiers) q.jobs p.key := by
      intro c hca hcI hsc hn
      have hch : Chosen rs pool st a p.key := (hc.chosen_iff hpi).2 ⟨hc.near_added hpa hn hpi, hm⟩
      have hnd : ¬ Doomed (allPackages rs) (activeModifiers q.modifiers) q.jobs p.key :=
        fun hd => doomed_out hc.chosen_valid hd hch
      have hcK : ¬ Doomed (allPackages rs) (activeModifiers q.modifiers) q.jobs c.key :=
        fun hd => hnd (hW' p hpa c hca hsc hcI hd)
      obtain ⟨n, k1, k2⟩ := hsc
      have := hc.exclusive hE hca hpa ⟨n, k2, k1⟩ (hkeep c.key ⟨hcI, hcK⟩) hpi hm
      exact ⟨this ▸ hcI, hnd⟩
    have nearName : NearInstalled (InstalledKeys s) p →
        InstalledKeys s p.key ∧ ¬ Doomed (allPackages rs) (activeModifiers q.modifiers) q.jobs p.key := by
      rintro ⟨k, hk, hn⟩
      obtain ⟨c, hca, rfl⟩ := hi.available k hk
      exact near c hca hk ⟨c.name, hn, Or.inl rfl⟩ ⟨c.key, hk, hn⟩
    rcases hir with hir | hir
    · obtain ⟨j, hj, c, hcr, hci⟩ := (hc.setup.reqs i).1 hir
      rcases hT.ofJobs p hpa r hra hsh j hj ⟨c, hcr, hc.built.ok.ids.packageId_inj hci hri⟩ with hn | ⟨k1, k2⟩ | ⟨k1, -⟩
      · exact nearName hn
      · have := hc.requested hj k2 hpi
        rw [if_pos k1, hm] at this
        cases this.1
      · exact absurd (hr j hj).1 k1
    · have hk : InstalledKeys s r.key := (hc.installed_iff r.key).1 ⟨i, ⟨r, rfl, hri⟩, hir⟩
      exact nearName (hT.ofInstalled p hpa r hra hsh hk)

/-- C134: the same if every package provides its own name only, and the removals ask for all versions of a package. -/
theorem C134_plain_partial (hs : SolverFor rs s) {o : Orders} {q : Request N U} {t : Transaction N S U}
    (h : s.solve o q = .ok t) (hr : OnlyRemoves q) (hi : Consistent (allPackages rs) (some q.modifiers) (InstalledKeys s))
    (hP : PlainNames (allPackages rs))
    (hall : ∀ j ∈ q.jobs, ∀ r, j.requirement = some r → ∀ p ∈ allPackages rs, p.name = r.name → MeetsJob r p)
    (hW : ∀ p ∈ allPackages rs, ∀ k, InstalledKeys s k → p.name = k.name →
      Doomed (allPackages rs) (some q.modifiers) q.jobs k → Doomed (allPackages rs) (some q.modifiers) q.jobs p.key)
    (hu : s.usePruning = true) (k : PKey N S U) :
    Result s t k ↔ InstalledKeys s k ∧ ¬ Doomed (allPackages rs) (some q.modifiers) q.jobs k := by
  have hW' : NoReplacement (allPackages rs) (some q.modifiers) q.jobs (InstalledKeys s) := by
    rintro p hp r hra ⟨n, h1, h2⟩ hk hd
    exact hW p hp r.key hk ((hP p hp n h1).symm.trans (hP r hra n h2)) hd
  have h1 := C134_removes_exactly_partial hs h hr hi hW'
  have h2 := C134_installs_nothing_partial hs h hr hi hW' hu (hP.exclusive _)
    (hP.tidy (fun j hj _ r hreq => Or.inr (hall j hj r hreq)))
  unfold Result Apply
  constructor
  · rintro (⟨k1, k2⟩ | k1)
    · exact ⟨k1, fun hd => k2 ((h1 k k1).2 hd)⟩
    · exact absurd k1 (h2 k)
  · rintro ⟨k1, k2⟩
    exact Or.inl ⟨k1, fun hrem => k2 ((h1 k k1).1 hrem)⟩

/-! ### concrete cases -/
namespace RemovalExample
open Verif.Pkg.Example Verif.Solve.Example Verif.Solve.Check SolveExample

/-- 2 needs 1, 3 needs nothing, 4 needs 3; there is another 2, which needs 1 too, and a newer 3 -/
def inst : List P := [pkg 9 1 1, pkg 9 2 1 [dep 1], pkg 9 3 1, pkg 9 4 1 [dep 3]]
def remote : List P := [pkg 0 2 2 [dep 1], pkg 0 3 2]

theorem onlyRemoves (l : List (Requirement Nat Nat)) : OnlyRemoves (request (l.map remove)) := by
  intro j hj
  obtain ⟨r, -, rfl⟩ := List.mem_map.1 hj
  exact ⟨rfl, r, rfl⟩

theorem plainNames {ps : List P} (h : ∀ p ∈ ps, p.provNames = [p.name]) : PlainNames ps := by
  intro p hp n hn
  rw [provides_iff, h p hp, List.mem_singleton] at hn
  exact hn

theorem removed : solved ((solver inst remote).solve insertionOrder (request [remove (req 1)])) =
    some (.ok ([.remove (pkg 9 2 1 [dep 1]), .remove (pkg 9 1 1)], [.remove (pkg 9 2 1 [dep 1]), .remove (pkg 9 1 1)])) := by
  decide +kernel

theorem one_doomed : Doomed (allPackages (repos inst remote)) (some Modifiers.empty) [remove (req 1)] (pkg 9 1 1).key :=
  .asked (by decide +kernel) (List.mem_singleton.2 rfl) rfl rfl (by decide +kernel)

theorem needs_one {k : PKey Nat Str Nat} (h : dep 1 ∈ k.installRequires) :
    Doomed (allPackages (repos inst remote)) (some Modifiers.empty) [remove (req 1)] k := by
  refine .dep h (fun q hq _ hm => ?_)
  have : ∀ q ∈ allPackages (repos inst remote), MeetsDep (some Modifiers.empty) (dep 1) q → q = pkg 9 1 1 := by decide +kernel
  rw [this q hq hm]
  exact one_doomed

/-- a valid installation with 3 and 4: they need not go -/
theorem rest : ValidInstall (allPackages (repos inst remote)) (some Modifiers.empty) (InstalledKeys (solver inst remote)) [remove (req 1)]
    (Of [(pkg 9 3 1).key, (pkg 9 4 1 [dep 3]).key]) := by decide +kernel

theorem consistent : Consistent (allPackages (repos inst remote)) (some Modifiers.empty) (InstalledKeys (solver inst remote)) := by
  rw [installedKeys_eq]
  decide +kernel

theorem noReplacement : ∀ p ∈ allPackages (repos inst remote), ∀ k, InstalledKeys (solver inst remote) k → p.name = k.name →
    Doomed (allPackages (repos inst remote)) (some Modifiers.empty) [remove (req 1)] k →
    Doomed (allPackages (repos inst remote)) (some Modifiers.empty) [remove (req 1)] p.key := by
  have key : ∀ p ∈ allPackages (repos inst remote), p = pkg 9 1 1 ∨ dep 1 ∈ p.key.installRequires ∨ p.name = 3 ∨ p.name = 4 := by
    decide +kernel
  have key2 : ∀ k ∈ (solver inst remote).installed.iter.map Package.key, k.name = 3 ∨ k.name = 4 →
      Of [(pkg 9 3 1).key, (pkg 9 4 1 [dep 3]).key] k := by decide +kernel
  intro p hp k hk hn hd
  rcases key p hp with rfl | h | h
  · exact one_doomed
  · exact needs_one h
  · rw [installedKeys_eq] at hk
    exact absurd (key2 k hk (by rw [← hn]; exact h)) (doomed_out rest hd)

example : ∃ t, (solver inst remote).solve insertionOrder (request [remove (req 1)]) = .ok t ∧
    ∀ k, Result (solver inst remote) t k ↔ InstalledKeys (solver inst remote) k ∧
      ¬ Doomed (allPackages (repos inst remote)) (some Modifiers.empty) [remove (req 1)] k := by
  obtain ⟨t, ht, -⟩ := solved_ok removed
  exact ⟨t, ht, C134_plain_partial (solverFor (by decide +kernel) (by decide +kernel)) ht (onlyRemoves [req 1]) consistent
    (plainNames (by decide +kernel)) (by decide +kernel) noReplacement rfl⟩

example (o : Orders) (u : Sat.UnsatInfo) :=
  C134_never_unsatisfiable (s := solver inst remote) (solverFor (by decide +kernel) (by decide +kernel)) o (onlyRemoves [req 1, req 4]) u

example : ∃ t, (solver inst remote).solve insertionOrder (request [remove (req 1)]) = .ok t ∧
    ¬ Result (solver inst remote) t (pkg 9 2 1 [dep 1]).key := by
  obtain ⟨t, ht, -⟩ := solved_ok removed
  refine ⟨t, ht, C134_doomed_go (solverFor (by decide +kernel) (by decide +kernel)) ht (by decide +kernel)
    (needs_one (by decide +kernel)) (fun p hp hsame => needs_one ?_)⟩
  revert p
  decide +kernel

/-- C134 is violated: 2-1 needs 1, and there is a 2-2, which needs 3 instead. Removing 1 does not remove 2, but installs 2-2 and 3,
although nothing needs 2; ... -/
theorem C134_violated : solved ((solver [pkg 9 1 1, pkg 9 2 1 [dep 1]] [pkg 0 2 2 [dep 3], pkg 0 3 1]).solve insertionOrder
    (request [remove (req 1)])) =
    some (.ok ([.remove (pkg 9 2 1 [dep 1]), .remove (pkg 9 1 1), .install (pkg 0 3 1), .install (pkg 0 2 2 [dep 3])],
      [.remove (pkg 9 1 1), .install (pkg 0 3 1), .update (pkg 0 2 2 [dep 3]) (pkg 9 2 1 [dep 1])])) := by decide +kernel

/-- ... and if 3 needs 2, and the 2-2 that does not need 1 conflicts with the installed 4, which has nothing to do with 1, then
4 is removed too, so that 3 can stay. -/
theorem C134_violated_unrelated : solved ((solver [pkg 9 1 1, pkg 9 2 1 [dep 1], pkg 9 3 1 [dep 2], pkg 9 4 5]
    [pkg 0 2 2 [] [dep 4]]).solve insertionOrder (request [remove (req 1)])) =
    some (.ok ([.remove (pkg 9 2 1 [dep 1]), .remove (pkg 9 4 5), .remove (pkg 9 1 1), .install (pkg 0 2 2 [] [dep 4])],
      [.remove (pkg 9 4 5), .remove (pkg 9 1 1), .update (pkg 0 2 2 [] [dep 4]) (pkg 9 2 1 [dep 1])])) := by decide +kernel

end RemovalExample
end Verif.Props
