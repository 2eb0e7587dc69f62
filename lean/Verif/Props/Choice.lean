import Verif.Props.Monotone
/-
C84, C85: which of the valid installations `solve` chooses.
-/
set_option linter.unusedSectionVars false
namespace Verif.Props
open Verif Verif.Pkg Verif.Solve Verif.Rules Verif.Sat

variable {N S U : Type} [LinearOrder N] [DecidableEq S] [LinearOrder U] [Syntax S U]

/-! ### Specification -/

/-- the installed package `k` is to be kept if possible: no soft update asks for its name -/
def Preferred (rs : List (Repository N S U)) (s : DependencySolver N S U) (q : Request N U) (k : PKey N S U) : Prop :=
  InstalledKeys s k ∧ ¬ ∃ j ∈ effectiveJobs s q, SoftlyUpdated (allPackages rs) (InstalledKeys s) j k

/-- the set contains a package of this name and version -/
def HasVersion (I : PKey N S U → Prop) (k : PKey N S U) : Prop := ∃ k', I k' ∧ SameNameVersion k' k

/-- available packages of the same name and version differ at most in the repository they come from -/
def TwinsAlike (avail : List (Package N S U)) : Prop :=
  ∀ p ∈ avail, ∀ q ∈ avail, SameNameVersion p.key q.key →
    p.installRequires = q.installRequires ∧ p.conflicts = q.conflicts ∧ ∀ n, Provides p n ↔ Provides q n

/-! ### Proofs -/

variable {rs : List (Repository N S U)} {s : DependencySolver N S U}

section
variable {m : Option (Modifiers N)} {jobs : List (Job N U)} {pool : Pool N S U} {st : Setup N S U} {a : ASet}
  {installed : List Nat} {D : List Int} (h : Completed rs s m jobs pool st a installed D)
include h

/-- the model of the rules that an installation is -/
theorem Completed.model {I : PKey N S U → Prop} (hv : ValidInstall (allPackages rs) m (InstalledKeys s) jobs I) :
    ∃ μ : Nat → Bool, Sat.Sat μ st.clauses ∧ ∀ (p : Package N S U) (i : Nat), pool.packageId p = .ok i →
      (litTrue μ (i : Int) ↔ I p.key) := by
  classical
  have hset : InstalledSet st.installedDict = InstalledKeys s := by funext k; exact propext (h.setup.inst k)
  have key : ∀ (p : Package N S U) (i : Nat), pool.packageId p = .ok i →
      (decide (∃ p, pool.packageId p = .ok i ∧ I p.key) = true ↔ I p.key) := by
    intro p i hi
    rw [decide_eq_true_eq]
    constructor
    · rintro ⟨q, h1, h2⟩
      rw [h.built.ok.ids.packageId_inj hi h1]; exact h2
    · intro h2; exact ⟨p, hi, h2⟩
  refine ⟨fun i => decide (∃ p, pool.packageId p = .ok i ∧ I p.key),
    C36_rules_are_sound h.built h.setup.ids h.setup.gen I (by rw [hset]; exact hv) _ (fun p i hi => key p i hi), ?_⟩
  intro p i hi
  rw [Run.litTrue_pos (h.built.ok.ids.packageId_spec hi).1]
  exact key p i hi

theorem Completed.idVersion_eq {p : Package N S U} {i : Nat} (hi : pool.packageId p = .ok i) :
    idVersion pool (i : Int) = some p.version := by
  obtain ⟨h0, h1, q, h2, h3, -, h5⟩ := h.built.ok.ids.packageId_spec hi
  have hk := h.built.ok.ids.packageId_inj h5 hi
  unfold idVersion
  rw [if_pos (by omega), Int.natAbs_natCast]
  obtain ⟨q', hq'⟩ := h.get ⟨p.key, p, rfl, hi⟩
  have hx := hq'.2.1
  unfold Pool.idToPkg at hx
  cases hd : dget pool.idToPackage i with
  | none => rw [hd] at hx; simp at hx
  | some y =>
    rw [hd] at hx
    simp only [Except.ok.injEq] at hx
    subst hx
    simp [(key_fields (h.built.ok.ids.packageId_inj hq'.2.2 hi)).2.1]

/-- an installed package that is gone was decided to be out -/
theorem Completed.gone {t : Transaction N S U} (ht : mkTransaction pool D installed = .ok t) {p : Package N S U}
    (hp : InstalledKeys s p.key) (hR : ¬ Result s t p.key) {i : Nat} (hi : pool.packageId p = .ok i) :
    a.value i = some false := by
  have hrem : RemovedBy t.operations p.key := by
    apply Classical.byContradiction
    intro hn
    exact hR (Or.inl ⟨hp, hn⟩)
  obtain ⟨rem, ins, he, h1, -⟩ := C44_operations_well_formed h.built h.decisions h.hI ht
  rw [he, removedBy_iff] at hrem
  obtain ⟨p', hp', hk⟩ := hrem
  obtain ⟨-, l, ⟨p2, hk2, hl⟩, hd⟩ := h1 p' hp'
  have : l = i := by
    rw [pool.packageId_congr (hk2.trans hk), hi] at hl
    cases hl
    rfl
  subst this
  exact (h.found.neg l).1 (h.sub _ hd)

end

/-! ### C84 -/

/-- C84: an installed package is given up only if that is necessary: if `k`, which no soft update asks for, is gone after the
transaction, then no valid installation contains `k` together with those of these packages, of the same or a lower version,
that are still there. -/
theorem C84_given_up_only_if_necessary (hs : SolverFor rs s) {o : Orders} {q : Request N U} {t : Transaction N S U}
    (h : s.solve o q = .ok t) {k : PKey N S U} (hk : Preferred rs s q k) (hgone : ¬ Result s t k) {I : PKey N S U → Prop}
    (hI : Solves rs s q I)
    (hkept : ∀ k', Preferred rs s q k' → Result s t k' → k'.version ≤ k.version → I k') : ¬ I k := by
  rw [solves_active] at hI
  obtain ⟨pool, st, a, installed, D, hc, hsearch, ht⟩ := solve_ok hs h
  obtain ⟨⟨p, hp, rfl⟩, hsoft⟩ := hk
  obtain ⟨i, hi⟩ := hc.setup.known p hp
  have hf := Completed.gone hc ht ⟨p, hp, rfl⟩ hgone hi
  obtain ⟨μ, hμ, hμI⟩ := Completed.model hc hI
  have hmem : (i : Int) ∈ st.prefer := (hc.setup.prefer _).2 ⟨p, hp, hsoft, i, hi, rfl⟩
  obtain ⟨pre, post, hsplit⟩ := List.append_of_mem hmem
  rw [← hμI p i hi]
  refine C57_lexicographic_preference o.policyPerm (hc.setup.hids hc.built) (hc.setup.hnz hc.built) hsearch hsplit
    hc.setup.preferNodup hf hμ ?_
  intro x hx hxt
  obtain ⟨p', hp', hsoft', i', hi', rfl⟩ := (hc.setup.prefer x).1 (by rw [hsplit]; simp [hx])
  refine (hμI p' i' hi').2 (hkept p'.key ⟨⟨p', hp', rfl⟩, hsoft'⟩ ?_ ?_)
  · by_contra hn
    rw [Completed.gone hc ht ⟨p', hp', rfl⟩ hn hi'] at hxt
    simp at hxt
  · have := hc.setup.preferSorted
    rw [hsplit, List.pairwise_append] at this
    exact this.2.2 _ hx _ (by simp) _ _ (Completed.idVersion_eq hc hi') (Completed.idVersion_eq hc hi)

/-- C84: in particular, if some valid installation contains all the installed packages that no soft update asks for, all of them
are kept. -/
theorem C84_kept_if_possible (hs : SolverFor rs s) {o : Orders} {q : Request N U} {t : Transaction N S U}
    (h : s.solve o q = .ok t) {I : PKey N S U → Prop} (hI : Solves rs s q I) (hall : ∀ k, Preferred rs s q k → I k) :
    ∀ k, Preferred rs s q k → Result s t k := by
  intro k hk
  by_contra hn
  exact C84_given_up_only_if_necessary hs h hk hn hI (fun k' hk' _ _ => hall k' hk') (hall k hk)

/-- C84: no valid installation keeps more of these packages than the transaction does: if it keeps all those that the transaction
keeps, it keeps no other one. -/
theorem C84_kept_set_is_maximal (hs : SolverFor rs s) {o : Orders} {q : Request N U} {t : Transaction N S U}
    (h : s.solve o q = .ok t) {I : PKey N S U → Prop} (hI : Solves rs s q I)
    (hall : ∀ k, Preferred rs s q k → Result s t k → I k) : ∀ k, Preferred rs s q k → I k → Result s t k := by
  intro k hk hIk
  by_contra hn
  exact C84_given_up_only_if_necessary hs h hk hn hI (fun k' hk' hr _ => hall k' hk' hr) hIk

/-! ### C85 -/

theorem SameNameVersion.symm {k k' : PKey N S U} (h : SameNameVersion k k') : SameNameVersion k' k := ⟨h.1.symm, h.2.symm⟩
theorem SameNameVersion.trans {k k' k'' : PKey N S U} (h : SameNameVersion k k') (h' : SameNameVersion k' k'') :
    SameNameVersion k k'' := ⟨h.1.trans h'.1, h.2.trans h'.2⟩

theorem TwinsAlike.twin {avail : List (Package N S U)} (hT : TwinsAlike avail) {p q : Package N S U} (hp : p ∈ avail)
    (hq : q ∈ avail) (h : SameNameVersion p.key q.key) : Twin p q := by
  obtain ⟨h1, h2, h3⟩ := hT p hp q hq h
  exact ⟨h.1, h.2, h1, h2, h3⟩

/-- the installation `I`, with the packages of `C` instead of those of the same name and version -/
def Swapped (C I : PKey N S U → Prop) (k : PKey N S U) : Prop :=
  (C k ∧ HasVersion I k) ∨ (I k ∧ ¬ HasVersion C k)

/-- exchanging packages of the same name and version in a valid installation for those of another one -/
theorem swapped_valid {avail : List (Package N S U)} (hT : TwinsAlike avail) {mods : Option (Modifiers N)}
    {inst : PKey N S U → Prop} {jobs : List (Job N U)} {C I : PKey N S U → Prop} (hC : ValidInstall avail mods inst jobs C)
    (hI : ValidInstall avail mods inst jobs I) : ValidInstall avail mods inst jobs (Swapped C I) := by
  have back : ∀ p ∈ avail, Swapped C I p.key → ∃ q ∈ avail, I q.key ∧ Twin p q := by
    intro p hp hs
    rcases hs with ⟨-, k, hk, hv⟩ | ⟨hk, -⟩
    · obtain ⟨q, hq, rfl⟩ := hI.consistent.available k hk
      exact ⟨q, hq, hk, hT.twin hp hq hv.symm⟩
    · exact ⟨p, hp, hk, Twin.refl p⟩
  have forth : ∀ p ∈ avail, I p.key → ∃ q ∈ avail, Swapped C I q.key ∧ Twin p q := by
    intro p hp hk
    by_cases hv : HasVersion C p.key
    · obtain ⟨k, hk', hv⟩ := hv
      obtain ⟨q, hq, rfl⟩ := hC.consistent.available k hk'
      exact ⟨q, hq, Or.inl ⟨hk', p.key, hk, hv.symm⟩, hT.twin hp hq hv.symm⟩
    · exact ⟨p, hp, Or.inr ⟨hk, hv⟩, Twin.refl p⟩
  have avl : ∀ k, Swapped C I k → ∃ p ∈ avail, p.key = k := by
    rintro k (⟨hk, -⟩ | ⟨hk, -⟩)
    · exact hC.consistent.available k hk
    · exact hI.consistent.available k hk
  refine ⟨⟨avl, ?_, ?_, ?_⟩, ?_⟩
  · intro k hk t ht
    obtain ⟨p, hp, rfl⟩ := avl k hk
    obtain ⟨p0, hp0, hIp, htw⟩ := back p hp hk
    have ht' : t ∈ p0.key.installRequires := by
      show t ∈ p0.installRequires
      rw [← htw.2.2.1]; exact ht
    obtain ⟨q, hq, h1, h2, r, h3, h4⟩ := hI.consistent.deps _ hIp t ht'
    obtain ⟨q', hq', h5, h6⟩ := forth q hq h1
    refine ⟨q', hq', h5, ?_, r, h3, h6.meets h4⟩
    intro e
    refine h2 (hI.consistent.names _ _ h1 hIp ?_)
    show q.name = p0.name
    rw [h6.1, ← htw.1]
    exact (key_fields e).1
  · rintro k k' hk hk' hn
    obtain ⟨p, hp, rfl⟩ := avl k hk
    obtain ⟨p', hp', rfl⟩ := avl k' hk'
    obtain ⟨p0, hp0, hIp, htw⟩ := back p hp hk
    obtain ⟨p0', hp0', hIp', htw'⟩ := back p' hp' hk'
    have e : p0.key = p0'.key := hI.consistent.names _ _ hIp hIp' (by
      show p0.name = p0'.name
      rw [← htw.1, ← htw'.1]; exact hn)
    have hv : SameNameVersion p.key p'.key := by
      refine ⟨hn, ?_⟩
      show p.version = p'.version
      rw [htw.2.1, htw'.2.1]; exact (key_fields e).2.1
    rcases hk with ⟨hk, -⟩ | ⟨hk, hk2⟩ <;> rcases hk' with ⟨hk', -⟩ | ⟨hk', hk2'⟩
    · exact hC.consistent.names _ _ hk hk' hn
    · exact absurd ⟨_, hk, hv⟩ hk2'
    · exact absurd ⟨_, hk', hv.symm⟩ hk2
    · exact hI.consistent.names _ _ hk hk' hn
  · rintro k hk t ht q hq hS hne ⟨r, h3, h4⟩
    obtain ⟨p, hp, rfl⟩ := avl k hk
    obtain ⟨p0, hp0, hIp, htw⟩ := back p hp hk
    obtain ⟨q0, hq0, hIq, htq⟩ := back q hq hS
    have ht' : t ∈ p0.key.conflicts := by
      show t ∈ p0.conflicts
      rw [← htw.2.2.2.1]; exact ht
    refine hI.consistent.conflicts _ hIp t ht' q0 hq0 hIq ?_ ⟨r, h3, htq.meets h4⟩
    intro e
    have hn : q.name = p.name := by rw [htq.1, htw.1]; exact (key_fields e).1
    have hv : SameNameVersion q.key p.key := ⟨hn, by
      show q.version = p.version
      rw [htq.2.1, htw.2.1]; exact (key_fields e).2.1⟩
    refine hne ?_
    rcases hk with ⟨hk, -⟩ | ⟨hk, hk2⟩ <;> rcases hS with ⟨hk', -⟩ | ⟨hk', hk2'⟩
    · exact hC.consistent.names _ _ hk' hk hn
    · exact absurd ⟨_, hk, hv.symm⟩ hk2'
    · exact absurd ⟨_, hk', hv⟩ hk2
    · exact hI.consistent.names _ _ hk' hk hn
  · intro j hj
    obtain ⟨r, hr, h1⟩ := hI.jobs j hj
    obtain ⟨r', hr', h2⟩ := hC.jobs j hj
    rw [hr] at hr'
    cases hr'
    refine ⟨r, hr, ?_⟩
    cases hkind : j.kind with
    | install =>
      rw [hkind] at h1
      obtain ⟨q, hq, h3, h4⟩ := h1
      obtain ⟨q', hq', h5, h6⟩ := forth q hq h3
      exact ⟨q', hq', h5, h6.meets h4⟩
    | softUpdate =>
      rw [hkind] at h1
      obtain ⟨q, hq, h3, h4⟩ := h1
      obtain ⟨q', hq', h5, h6⟩ := forth q hq h3
      exact ⟨q', hq', h5, h6.meets h4⟩
    | remove =>
      rw [hkind] at h1
      intro q hq hS hm
      obtain ⟨q0, hq0, hIq, htq⟩ := back q hq hS
      exact h1 q0 hq0 hIq (htq.meets hm)
    | hardUpdate =>
      rw [hkind] at h1 h2
      intro q hq
      exact Or.inl ⟨h2 q hq, q.key, h1 q hq, rfl, rfl⟩
    | upgrade => rw [hkind] at h1; exact h1

section
variable {m : Option (Modifiers N)} {jobs : List (Job N U)} {pool : Pool N S U} {st : Setup N S U} {a : ASet}
  {installed : List Nat} {D : List Int} (h : Completed rs s m jobs pool st a installed D)
include h

/-- a requested package that is true or has no value is installed afterwards -/
theorem Completed.requested_result {t : Transaction N S U} (ht : mkTransaction pool D installed = .ok t) {j : Job N U}
    (hj : j ∈ jobs) {p : Package N S U} (hr : Requested (allPackages rs) (InstalledKeys s) j p) (hk : j.kind ≠ .remove)
    {i : Nat} (hi : pool.packageId p = .ok i) (hv : a.value i ≠ some false) :
    Chosen rs pool st a p.key ∧ HasVersion (Result s t) p.key := by
  have hadd := h.requested hj hr hi
  rw [if_neg hk] at hadd
  have hch := (h.chosen_iff hi).2 ⟨hadd, h.m'_of_not_false hv⟩
  exact ⟨hch, Completed.result_of_decided h ht (h.requested_decided hj hr hch hk)⟩

end

/-- C85: among the packages that an install or soft update job asks for, the newest possible are chosen: if `p`, which meets the
requirement of such a job, is not installed after the transaction, then no valid installation contains it together with the
installed packages (but those of soft updates) that are kept and the packages of the same or a higher version that meet the
requirement of a job and are installed afterwards. Packages of the same name and version are not distinguished. -/
theorem C85_newest_possible (hs : SolverFor rs s) (hT : TwinsAlike (allPackages rs)) {o : Orders} {q : Request N U}
    {t : Transaction N S U} (h : s.solve o q = .ok t) {j : Job N U} (hj : j ∈ effectiveJobs s q)
    (hkind : j.kind = .install ∨ j.kind = .softUpdate) {r : Requirement N U} (hr : j.requirement = some r)
    {p : Package N S U} (hp : p ∈ allPackages rs) (hm : MeetsJob r p) (hout : ¬ HasVersion (Result s t) p.key)
    {I : PKey N S U → Prop} (hI : Solves rs s q I)
    (hkept : ∀ k, Preferred rs s q k → Result s t k → HasVersion I k)
    (hnewer : ∀ j' ∈ effectiveJobs s q, ∀ p', Requested (allPackages rs) (InstalledKeys s) j' p' →
      p.version ≤ p'.version → HasVersion (Result s t) p'.key → HasVersion I p'.key) : ¬ HasVersion I p.key := by
  rw [solves_active] at hI
  obtain ⟨pool, st, a, installed, D, hc, hsearch, ht⟩ := solve_ok hs h
  have hreq : ∀ p' ∈ allPackages rs, SameNameVersion p'.key p.key → Requested (allPackages rs) (InstalledKeys s) j p' := by
    intro p' hp' hv
    refine ⟨r, hr, ?_⟩
    rw [if_neg (by rcases hkind with e | e <;> rw [e] <;> simp)]
    exact ⟨hp', (hT.twin hp hp' hv.symm).meets hm⟩
  have hnr : j.kind ≠ .remove := by rcases hkind with e | e <;> rw [e] <;> simp
  rintro ⟨k, hk, hkv⟩
  obtain ⟨p0, hp0, rfl⟩ := hI.consistent.available k hk
  have hCnot : ¬ HasVersion (Chosen rs pool st a) p0.key := by
    rintro ⟨k1, hk1, hv1⟩
    obtain ⟨p1, hp1, rfl⟩ := hc.chosen_valid.consistent.available k1 hk1
    obtain ⟨i1, hi1⟩ := hc.built.ok.ids.packageId_ok ⟨p1, hp1, rfl⟩
    have hv2 := hv1.trans hkv
    obtain ⟨k3, h3, h4⟩ := Completed.result_of_decided hc ht (hc.requested_decided hj (hreq p1 hp1 hv2) hk1 hnr)
    exact hout ⟨k3, h3, h4.trans hv2⟩
  obtain ⟨i, hi⟩ := hc.built.ok.ids.packageId_ok ⟨p0, hp0, rfl⟩
  have hf : a.value i = some false := by
    by_contra hn
    obtain ⟨-, k3, h3, h4⟩ := Completed.requested_result hc ht hj (hreq p0 hp0 hkv) hnr hi hn
    exact hout ⟨k3, h3, h4.trans hkv⟩
  obtain ⟨μ, hμ, hμI⟩ := Completed.model hc (swapped_valid hT hc.chosen_valid hI)
  refine C58_newest_requirement o.policyPerm (hc.setup.hids hc.built) (hc.setup.hnz hc.built) hsearch (q := (i : Int)) ?_
    hc.setup.preferNodup hf hμ ?_ ?_ ((hμI p0 i hi).2 (Or.inr ⟨hk, hCnot⟩))
  · unfold Setup.reqs
    rw [List.mem_map]
    exact ⟨i, (hc.setup.reqs i).2 ⟨j, hj, p0, hreq p0 hp0 hkv, hi⟩, rfl⟩
  · intro x hx hxt
    obtain ⟨p', hp', hsoft', i', hi', rfl⟩ := (hc.setup.prefer x).1 hx
    refine (hμI p' i' hi').2 (Or.inl ⟨?_, ?_⟩)
    · exact (hc.chosen_iff hi').2 ⟨hc.installed_added ⟨p', hp', rfl⟩ hi', hc.m'_of_not_false (by rw [hxt]; simp)⟩
    · refine hkept p'.key ⟨⟨p', hp', rfl⟩, hsoft'⟩ ?_
      by_contra hn
      rw [Completed.gone hc ht ⟨p', hp', rfl⟩ hn hi'] at hxt
      simp at hxt
  · intro x hx vp vq hvp hvq hle hxt
    unfold Setup.reqs at hx
    obtain ⟨i', hi', rfl⟩ := List.mem_map.1 hx
    obtain ⟨j', hj', p', hreq', hpi'⟩ := (hc.setup.reqs i').1 hi'
    have hnr' : j'.kind ≠ .remove := by
      intro e
      have := hc.requested hj' hreq' hpi'
      rw [if_pos e, hxt] at this
      simp at this
    obtain ⟨h1, h2⟩ := Completed.requested_result hc ht hj' hreq' hnr' hpi' (by rw [hxt]; simp)
    refine (hμI p' i' hpi').2 (Or.inl ⟨h1, hnewer j' hj' p' hreq' ?_ h2⟩)
    rw [Completed.idVersion_eq hc hpi'] at hvp
    rw [Completed.idVersion_eq hc hi] at hvq
    cases hvp
    cases hvq
    have : p0.version = p.version := hkv.2
    rw [← this]
    exact hle

/-- C85, for a request of one job: no valid installation that contains what is kept of the installed packages contains a newer
package for the job than the transaction installs. -/
theorem C85_newest_for_one_job (hs : SolverFor rs s) (hT : TwinsAlike (allPackages rs)) {o : Orders} {q : Request N U}
    {t : Transaction N S U} (h : s.solve o q = .ok t) {j : Job N U} (hq : q.jobs = [j])
    (hkind : j.kind = .install ∨ j.kind = .softUpdate) {r : Requirement N U} (hr : j.requirement = some r)
    {I : PKey N S U → Prop} (hI : Solves rs s q I) (hkept : ∀ k, Preferred rs s q k → Result s t k → HasVersion I k)
    {p : Package N S U} (hp : p ∈ allPackages rs) (hm : MeetsJob r p) (hIp : I p.key) :
    ∃ p' ∈ allPackages rs, MeetsJob r p' ∧ p.version ≤ p'.version ∧ HasVersion (Result s t) p'.key := by
  by_contra hn
  have he : effectiveJobs s q = [j] := by
    rw [effectiveJobs_plain s, hq]
    intro j' hj'
    rw [hq, List.mem_singleton] at hj'
    rcases hkind with e | e <;> rw [hj', e] <;> simp
  refine C85_newest_possible hs hT h (by rw [he]; simp) hkind hr hp hm ?_ hI hkept ?_ ⟨_, hIp, rfl, rfl⟩
  · intro hv
    exact hn ⟨p, hp, hm, le_refl _, hv⟩
  · intro j' hj' p' hreq hle hv
    rw [he, List.mem_singleton] at hj'
    subst hj'
    obtain ⟨r', hr', hx⟩ := hreq
    rw [hr] at hr'
    cases hr'
    rw [if_neg (by rcases hkind with e | e <;> rw [e] <;> simp)] at hx
    exact absurd ⟨p', hx.1, hx.2, hle, hv⟩ hn

/-! ### C79 with soft updates -/

/-- no two different packages that a job (not a removal) asks for have the same version -/
def NoTies (rs : List (Repository N S U)) (q : Request N U) : Prop :=
  ∀ j ∈ q.jobs, ∀ j' ∈ q.jobs, j.kind ≠ .remove → j'.kind ≠ .remove → ∀ r r', j.requirement = some r → j'.requirement = some r' →
    ∀ p ∈ allPackages rs, ∀ p' ∈ allPackages rs, MeetsJob r p → MeetsJob r' p' → p.version = p'.version → p.key = p'.key

/-- a package of greatest version with a property -/
theorem exists_newest {P : Package N S U → Prop} : ∀ (l : List (Package N S U)), (∃ p ∈ l, P p) →
    ∃ p ∈ l, P p ∧ ∀ p' ∈ l, P p' → p'.version ≤ p.version := by
  intro l
  induction l with
  | nil => simp
  | cons x l ih =>
    rintro ⟨p, hp, hP⟩
    by_cases hl : ∃ p ∈ l, P p
    · obtain ⟨b, hb, hPb, hmax⟩ := ih hl
      by_cases hx : P x ∧ b.version ≤ x.version
      · refine ⟨x, by simp, hx.1, ?_⟩
        intro p' hp' hP'
        rcases List.mem_cons.1 hp' with rfl | hp'
        · exact le_refl _
        · exact le_trans (hmax p' hp' hP') hx.2
      · refine ⟨b, by simp [hb], hPb, ?_⟩
        intro p' hp' hP'
        rcases List.mem_cons.1 hp' with rfl | hp'
        · exact le_of_not_ge (fun hle => hx ⟨hP', hle⟩)
        · exact hmax p' hp' hP'
    · rcases List.mem_cons.1 hp with rfl | hp
      · exact ⟨p, by simp, hP, fun p' hp' hP' => by
          rcases List.mem_cons.1 hp' with rfl | hp'
          · exact le_refl _
          · exact absurd ⟨p', hp', hP'⟩ hl⟩
      · exact absurd ⟨p, hp, hP⟩ hl

theorem updateTarget_newest {avail : List (Package N S U)} {inst : PKey N S U → Prop} {r : Requirement N U} {x : Package N S U}
    (h : UpdateTarget avail inst r x) : x ∈ avail ∧ MeetsJob r x ∧ ∀ p ∈ avail, MeetsJob r p → p.version ≤ x.version := by
  obtain ⟨b, a, e, hx, hb, ha⟩ := h
  refine ⟨by rw [e]; simp, hx, ?_⟩
  intro p hp hm
  rw [e, List.mem_append, List.mem_cons] at hp
  rcases hp with hp | rfl | hp
  · rcases hb p hp hm with h2 | h2
    · exact le_of_lt h2
    · exact le_of_eq h2.1
  · exact le_refl _
  · by_contra hn
    exact ha p hp hm (Or.inl (not_le.1 hn))

variable {rs' : List (Repository N S U)} {s' : DependencySolver N S U}

/-- a decided package is installed afterwards, or an installed one of the same name and version is -/
theorem Completed.result_or_twin {m : Option (Modifiers N)} {jobs : List (Job N U)} {pool : Pool N S U}
    {st : Setup N S U} {a : ASet} {installed : List Nat} {D : List Int} (hc : Completed rs s m jobs pool st a installed D)
    {t : Transaction N S U} (ht : mkTransaction pool D installed = .ok t) {k : PKey N S U} (hk : DecidedIn pool D k) :
    Result s t k ∨ ∃ k', InstalledKeys s k' ∧ Result s t k' ∧ SameNameVersion k k' := by
  obtain ⟨-, h2⟩ := C45_decisions_realised hc.built hc.decisions hc.hI ht k
  rw [hc.installed_eq] at h2
  by_cases hR : Result s t k
  · exact Or.inl hR
  · obtain ⟨-, -, k', h5, h3, h4⟩ := h2 (Or.inr hk) hR
    exact Or.inr ⟨k', h5, h4, h3.symm⟩

/-- C79 (partial), with soft updates: once the transaction has been carried out, the same request is satisfied by what is
installed, and solving it again gives an empty transaction, if no two different packages that jobs ask for have the same version.
What is missing: ties of versions and upgrades (for which the property fails, see `C79_violated_soft` and `C79_violated`), and the
conditions of C41 and C43. -/
theorem C79_repeating_soft_updates_partial (hs : SolverFor rs s) (hs' : SolverFor rs' s') {o o' : Orders} {q : Request N U}
    {t : Transaction N S U} (h : s.solve o q = .ok t) (ha : After rs s t rs' s')
    (hj : ∀ j ∈ q.jobs, j.kind ≠ .upgrade) (hD : NoTies rs q)
    (hu : s.usePruning = true) (hE : Exclusive (allPackages rs) (some q.modifiers))
    (hT : Tidy (allPackages rs) (InstalledKeys s) (effectiveJobs s q)) (hM : SameMetadata (allPackages rs) (InstalledKeys s))
    (hu' : s'.usePruning = true) (hE' : Exclusive (allPackages rs') (some q.modifiers))
    (hT' : Tidy (allPackages rs') (InstalledKeys s') (effectiveJobs s' q)) :
    (∀ v, s'.solve o' q ≠ .error (.sat (.satisfiability v))) ∧ ∀ t', s'.solve o' q = .ok t' → t'.operations = [] := by
  have hv := C41_valid_installation_partial hs h hu hE hT hM
  have e := effectiveJobs_plain s hj
  have e' := effectiveJobs_plain s' hj
  have hI : InstalledKeys s' = Result s t := funext (fun k => propext (ha.installed k))
  have hv' : Solves rs' s' q (InstalledKeys s') := by
    unfold Solves at hv ⊢
    rw [e] at hv
    rw [e', hI]
    exact validInstall_after (fun k hk => ha.present k ((ha.installed k).2 hk)) ha.known ha.same hv
  refine ⟨C43_satisfied_request_is_satisfiable hs' o' q hv', fun t' ht' => ?_⟩
  rw [← exclusive_active] at hE'
  rw [solves_active] at hv hv'
  rw [e] at hv
  rw [e'] at hv'
  obtain ⟨pool, st, a, installed, D, hc, hsearch, htr⟩ := solve_ok hs h
  obtain ⟨pool', st', a', installed', D', hc', hsearch', htr'⟩ := solve_ok hs' ht'
  rw [e] at hc
  rw [e'] at hc' hT'
  -- packages of the two lists
  have back : ∀ p' ∈ allPackages rs', ∃ p ∈ allPackages rs, p.key = p'.key ∧ ∀ r, MeetsJob r p' → MeetsJob r p := by
    intro p' hp'
    obtain ⟨p, hp, hk⟩ := ha.known p' hp'
    exact ⟨p, hp, hk, fun r hm => meets_congr hk.symm (fun n => (ha.same p hp p' hp' hk n).2) hm⟩
  have forth : ∀ p ∈ allPackages rs, ∀ p' ∈ allPackages rs', p.key = p'.key → ∀ r, MeetsJob r p → MeetsJob r p' :=
    fun p hp p' hp' hk r hm => meets_congr hk (fun n => (ha.same p hp p' hp' hk n).1) hm
  -- the preferred packages of the second run are kept
  have hnotout : ∀ k, Preferred rs' s' q k → ∃ p i, p.key = k ∧ pool'.packageId p = .ok i ∧ a'.value i ≠ some false := by
    rintro k ⟨⟨p, hp, rfl⟩, hsoft⟩
    rw [e'] at hsoft
    obtain ⟨i, hi⟩ := hc'.setup.known p hp
    obtain ⟨μ, hμ, hμI⟩ := Completed.model hc' hv'
    refine ⟨p, i, rfl, hi, ?_⟩
    refine (C16_preferred_kept o'.policyPerm (hc'.setup.hids hc'.built) (hc'.setup.hnz hc'.built) hsearch' ⟨μ, hμ, ?_⟩ (i : Int)
      ((hc'.setup.prefer _).2 ⟨p, hp, hsoft, i, hi, rfl⟩)).1
    intro x hx
    obtain ⟨p2, hp2, -, i2, hi2, rfl⟩ := (hc'.setup.prefer x).1 hx
    exact (hμI p2 i2 hi2).2 ⟨p2, hp2, rfl⟩
  have hkeep : ∀ k, Preferred rs' s' q k → Chosen rs' pool' st' a' k := by
    intro k hk
    obtain ⟨p, i, rfl, hi, hval⟩ := hnotout k hk
    exact (hc'.chosen_iff hi).2 ⟨hc'.installed_added hk.1 hi, hc'.m'_of_not_false hval⟩
  -- hard updates ask for the same package in both runs
  have htarget : ∀ j ∈ q.jobs, j.kind = .hardUpdate → ∀ r, j.requirement = some r → ∀ x, UpdateTarget (allPackages rs)
      (InstalledKeys s) r x → ∀ x', UpdateTarget (allPackages rs') (InstalledKeys s') r x' → x.key = x'.key := by
    intro j hjm hk r hr x hx x' hx'
    have hRx : Result s t x.key := by
      obtain ⟨r', hr', h1⟩ := hv.jobs j hjm
      rw [hr] at hr'; cases hr'
      rw [hk] at h1
      exact h1 x hx
    obtain ⟨h1, h2, h3⟩ := updateTarget_newest hx
    obtain ⟨h1', h2', h3'⟩ := updateTarget_newest hx'
    obtain ⟨y, hy, hyk⟩ := ha.present x.key ((ha.installed _).2 hRx)
    obtain ⟨z, hz, hzk, hzm⟩ := back x' h1'
    have hle := h3' y hy (forth x h1 y hy hyk.symm r h2)
    have hle' := h3 z hz (hzm r h2')
    rw [(key_fields hyk).2.1] at hle
    rw [(key_fields hzk).2.1] at hle'
    rw [← hzk]
    refine hD j hjm j hjm (by rw [hk]; simp) (by rw [hk]; simp) r r hr hr x h1 z hz h2 (hzm r h2') ?_
    rw [(key_fields hzk).2.1]
    exact le_antisymm hle hle'
  -- what the second run chooses is a valid installation for the first one
  have hCval := hc'.chosen_valid
  have hCjob : ∀ j ∈ q.jobs, j.kind = .hardUpdate → ∀ r, j.requirement = some r → ∀ x, UpdateTarget (allPackages rs)
      (InstalledKeys s) r x → Chosen rs' pool' st' a' x.key := by
    intro j hjm hk r hr x hx
    obtain ⟨-, r', hr', y0, hy0, hym0⟩ := hc'.setup.possible j hjm
    rw [hr] at hr'; cases hr'
    obtain ⟨x', hx'⟩ := updateTarget_exists (inst := InstalledKeys s') ⟨y0, hy0, hym0⟩
    rw [htarget j hjm hk r hr x hx x' hx']
    obtain ⟨r', hr', h1⟩ := hCval.jobs j hjm
    rw [hr] at hr'; cases hr'
    rw [hk] at h1
    exact h1 x' hx'
  have hCrs : ValidInstall (allPackages rs) (activeModifiers q.modifiers) (InstalledKeys s) q.jobs (Chosen rs' pool' st' a') := by
    have avl' := hCval.consistent.available
    refine ⟨⟨?_, ?_, hCval.consistent.names, ?_⟩, ?_⟩
    · intro k hk
      obtain ⟨p', hp', rfl⟩ := avl' k hk
      exact ha.known p' hp'
    · intro k hk d hd
      obtain ⟨p', hp', h1, h2, r, h3, h4⟩ := hCval.consistent.deps k hk d hd
      obtain ⟨p, hp, hpk⟩ := ha.known p' hp'
      exact ⟨p, hp, by rw [hpk]; exact h1, by rw [hpk]; exact h2, r, h3,
        meets_congr hpk.symm (fun n => (ha.same p hp p' hp' hpk n).2) h4⟩
    · rintro k hk d hd p hp hCp hne ⟨r, h3, h4⟩
      obtain ⟨p', hp', hpk⟩ := avl' _ hCp
      exact hCval.consistent.conflicts k hk d hd p' hp' (by rw [hpk]; exact hCp) (by rw [hpk]; exact hne)
        ⟨r, h3, meets_congr hpk.symm (fun n => (ha.same p hp p' hp' hpk.symm n).1) h4⟩
    · intro j hjm
      obtain ⟨r, hr, h1⟩ := hCval.jobs j hjm
      refine ⟨r, hr, ?_⟩
      cases hkind : j.kind with
      | install =>
        rw [hkind] at h1
        obtain ⟨p', hp', h2, h3⟩ := h1
        obtain ⟨p, hp, hpk, hpm⟩ := back p' hp'
        exact ⟨p, hp, by rw [hpk]; exact h2, hpm r h3⟩
      | softUpdate =>
        rw [hkind] at h1
        obtain ⟨p', hp', h2, h3⟩ := h1
        obtain ⟨p, hp, hpk, hpm⟩ := back p' hp'
        exact ⟨p, hp, by rw [hpk]; exact h2, hpm r h3⟩
      | remove =>
        rw [hkind] at h1
        intro p hp hCp hm
        obtain ⟨p', hp', hpk⟩ := avl' _ hCp
        exact h1 p' hp' (by rw [hpk]; exact hCp) (forth p hp p' hp' hpk.symm r hm)
      | hardUpdate => exact fun x hx => hCjob j hjm hkind r hr x hx
      | upgrade => rw [hkind] at h1; exact h1
  -- in the first run, a requested package that is true is installed afterwards
  have hres : ∀ j ∈ q.jobs, j.kind ≠ .remove → ∀ p, Requested (allPackages rs) (InstalledKeys s) j p → ∀ i,
      pool.packageId p = .ok i → a.value i ≠ some false → Result s t p.key := by
    intro j hjm hk p hreq i hi hval
    have hadd := hc.requested hjm hreq hi
    rw [if_neg hk] at hadd
    have hch := (hc.chosen_iff hi).2 ⟨hadd, hc.m'_of_not_false hval⟩
    rcases Completed.result_or_twin hc htr (hc.requested_decided hjm hreq hch hk) with hR | ⟨k', hk', hR, hsv⟩
    · exact hR
    · obtain ⟨p2, hp2, rfl⟩ := hv.consistent.available k' hR
      obtain ⟨r, hr, hx⟩ := hreq
      have hpm : p ∈ allPackages rs ∧ MeetsJob r p := by
        split at hx
        · exact ⟨(updateTarget_newest hx).1, (updateTarget_newest hx).2.1⟩
        · exact hx
      have htw := hM.twin hpm.1 hp2 hk' hsv
      rw [hD j hjm j hjm hk hk r r hr hr p hpm.1 p2 hp2 hpm.2 (htw.meets hpm.2) htw.2.1]
      exact hR
  -- the two runs choose the same packages for install and soft update jobs
  have agree : ¬ ∃ p ∈ allPackages rs, (∃ j ∈ q.jobs, (j.kind = .install ∨ j.kind = .softUpdate) ∧
      ∃ r, j.requirement = some r ∧ MeetsJob r p) ∧ ¬ (Result s t p.key ↔ Chosen rs' pool' st' a' p.key) := by
    intro hex
    obtain ⟨p, hp, ⟨⟨j, hjm, hkind, r, hr, hm⟩, hdiff⟩, hmax⟩ := exists_newest (P := fun p => (∃ j ∈ q.jobs,
      (j.kind = .install ∨ j.kind = .softUpdate) ∧ ∃ r, j.requirement = some r ∧ MeetsJob r p) ∧
      ¬ (Result s t p.key ↔ Chosen rs' pool' st' a' p.key)) _ hex
    have hnr : j.kind ≠ .remove := by rcases hkind with e | e <;> rw [e] <;> simp
    have hnh : j.kind ≠ .hardUpdate := by rcases hkind with e | e <;> rw [e] <;> simp
    -- packages that are at least as new agree, unless they are `p`
    have newer : ∀ p2 ∈ allPackages rs, ∀ j2 ∈ q.jobs, (j2.kind = .install ∨ j2.kind = .softUpdate) → ∀ r2,
        j2.requirement = some r2 → MeetsJob r2 p2 → p.version ≤ p2.version → p2.key = p.key ∨
        (Result s t p2.key ↔ Chosen rs' pool' st' a' p2.key) := by
      intro p2 hp2 j2 hj2 hk2 r2 hr2 hm2 hle
      by_cases hd2 : Result s t p2.key ↔ Chosen rs' pool' st' a' p2.key
      · exact Or.inr hd2
      · left
        refine hD j2 hj2 j hjm (by rcases hk2 with e | e <;> rw [e] <;> simp) hnr r2 r hr2 hr p2 hp2 p hp hm2 hm ?_
        exact le_antisymm (hmax p2 hp2 ⟨⟨j2, hj2, hk2, r2, hr2, hm2⟩, hd2⟩) hle
    by_cases hR : Result s t p.key
    · -- in the first but not in the second run
      have hnC : ¬ Chosen rs' pool' st' a' p.key := fun hC => hdiff ⟨fun _ => hC, fun _ => hR⟩
      obtain ⟨p', hp', hpk⟩ := ha.present p.key ((ha.installed _).2 hR)
      obtain ⟨i, hi⟩ := hc'.built.ok.ids.packageId_ok ⟨p', hp', rfl⟩
      have hreq : Requested (allPackages rs') (InstalledKeys s') j p' :=
        ⟨r, hr, by rw [if_neg hnh]; exact ⟨hp', forth p hp p' hp' hpk.symm r hm⟩⟩
      have hf : a'.value i = some false := by
        by_contra hn
        have := (Completed.requested_result hc' htr' hjm hreq hnr hi hn).1
        rw [hpk] at this
        exact hnC this
      obtain ⟨μ, hμ, hμI⟩ := Completed.model hc' hv'
      refine C58_newest_requirement o'.policyPerm (hc'.setup.hids hc'.built) (hc'.setup.hnz hc'.built) hsearch' (q := (i : Int)) ?_
        hc'.setup.preferNodup hf hμ ?_ ?_ ((hμI p' i hi).2 (by rw [hpk, ha.installed]; exact hR))
      · unfold Setup.reqs
        rw [List.mem_map]
        exact ⟨i, (hc'.setup.reqs i).2 ⟨j, hjm, p', hreq, hi⟩, rfl⟩
      · intro x hx _
        obtain ⟨p2, hp2, -, i2, hi2, rfl⟩ := (hc'.setup.prefer x).1 hx
        exact (hμI p2 i2 hi2).2 ⟨p2, hp2, rfl⟩
      · intro x hx vp vq hvp hvq hle hxt
        unfold Setup.reqs at hx
        obtain ⟨i2, hi2, rfl⟩ := List.mem_map.1 hx
        obtain ⟨j2, hj2, p2, hreq2, hpi2⟩ := (hc'.setup.reqs i2).1 hi2
        refine (hμI p2 i2 hpi2).2 ?_
        have hnr2 : j2.kind ≠ .remove := by
          intro ek
          have := hc'.requested hj2 hreq2 hpi2
          rw [if_pos ek, hxt] at this
          simp at this
        have hC2 := (Completed.requested_result hc' htr' hj2 hreq2 hnr2 hpi2 (by rw [hxt]; simp)).1
        rw [Completed.idVersion_eq hc' hpi2] at hvp
        rw [Completed.idVersion_eq hc' hi] at hvq
        cases hvp
        cases hvq
        obtain ⟨r2, hr2, hx2⟩ := hreq2
        by_cases hk2 : j2.kind = .hardUpdate
        · rw [if_pos hk2] at hx2
          obtain ⟨r', hr', h1⟩ := hv'.jobs j2 hj2
          rw [hr2] at hr'; cases hr'
          rw [hk2] at h1
          exact h1 p2 hx2
        · rw [if_neg hk2] at hx2
          obtain ⟨p3, hp3, hk3, hm3⟩ := back p2 hx2.1
          have hkk : j2.kind = .install ∨ j2.kind = .softUpdate := by
            have := hj j2 hj2
            revert hk2 hnr2 this
            cases j2.kind <;> simp
          rw [← hk3, ha.installed]
          rcases newer p3 hp3 j2 hj2 hkk r2 hr2 (hm3 r2 hx2.2) (by
            rw [(key_fields hk3).2.1, ← (key_fields hpk).2.1]; exact hle) with h1 | h1
          · rw [h1]; exact hR
          · exact h1.2 (by rw [hk3]; exact hC2)
    · -- in the second but not in the first run
      have hC : Chosen rs' pool' st' a' p.key := by
        by_contra hn
        exact hdiff ⟨fun h1 => absurd h1 hR, fun h1 => absurd h1 hn⟩
      obtain ⟨i, hi⟩ := hc.built.ok.ids.packageId_ok ⟨p, hp, rfl⟩
      have hreq : Requested (allPackages rs) (InstalledKeys s) j p := ⟨r, hr, by rw [if_neg hnh]; exact ⟨hp, hm⟩⟩
      have hf : a.value i = some false := by
        by_contra hn
        exact hR (hres j hjm hnr p hreq i hi hn)
      obtain ⟨μ, hμ, hμI⟩ := Completed.model hc hCrs
      refine C58_newest_requirement o.policyPerm (hc.setup.hids hc.built) (hc.setup.hnz hc.built) hsearch (q := (i : Int)) ?_
        hc.setup.preferNodup hf hμ ?_ ?_ ((hμI p i hi).2 hC)
      · unfold Setup.reqs
        rw [List.mem_map]
        exact ⟨i, (hc.setup.reqs i).2 ⟨j, hjm, p, hreq, hi⟩, rfl⟩
      · intro x hx hxt
        obtain ⟨p2, hp2, hsoft2, i2, hi2, rfl⟩ := (hc.setup.prefer x).1 hx
        refine (hμI p2 i2 hi2).2 (hkeep _ ⟨?_, ?_⟩)
        · rw [ha.installed]
          by_contra hn
          rw [Completed.gone hc htr ⟨p2, hp2, rfl⟩ hn hi2] at hxt
          simp at hxt
        · rw [e']
          rintro ⟨j2, hj2, hk2, -, r2, hr2, p3, hp3, hk3, hm3⟩
          obtain ⟨p4, hp4, hk4, hm4⟩ := back p3 hp3
          exact hsoft2 ⟨j2, hj2, hk2, ⟨p2, hp2, rfl⟩, r2, hr2, p4, hp4, hk4.trans hk3, hm4 r2 hm3⟩
      · intro x hx vp vq hvp hvq hle hxt
        unfold Setup.reqs at hx
        obtain ⟨i2, hi2, rfl⟩ := List.mem_map.1 hx
        obtain ⟨j2, hj2, p2, hreq2, hpi2⟩ := (hc.setup.reqs i2).1 hi2
        refine (hμI p2 i2 hpi2).2 ?_
        have hnr2 : j2.kind ≠ .remove := by
          intro ek
          have := hc.requested hj2 hreq2 hpi2
          rw [if_pos ek, hxt] at this
          simp at this
        have hR2 := hres j2 hj2 hnr2 p2 hreq2 i2 hpi2 (by rw [hxt]; simp)
        rw [Completed.idVersion_eq hc hpi2] at hvp
        rw [Completed.idVersion_eq hc hi] at hvq
        cases hvp
        cases hvq
        obtain ⟨r2, hr2, hx2⟩ := hreq2
        by_cases hk2 : j2.kind = .hardUpdate
        · rw [if_pos hk2] at hx2
          exact hCjob j2 hj2 hk2 r2 hr2 p2 hx2
        · rw [if_neg hk2] at hx2
          have hkk : j2.kind = .install ∨ j2.kind = .softUpdate := by
            have := hj j2 hj2
            revert hk2 hnr2 this
            cases j2.kind <;> simp
          rcases newer p2 hx2.1 j2 hj2 hkk r2 hr2 hx2.2 hle with h1 | h1
          · rw [h1] at hR2; exact absurd hR2 hR
          · exact h1.1 hR2
  -- so everything that is installed is chosen again
  have hall0 : ∀ (p : Package N S U) (i : Nat), InstalledKeys s' p.key → pool'.packageId p = .ok i →
      Chosen rs' pool' st' a' p.key ∧ a'.value i ≠ some false := by
    intro p i hp hi
    by_cases hsoft : ∃ j ∈ q.jobs, SoftlyUpdated (allPackages rs') (InstalledKeys s') j p.key
    · obtain ⟨j, hjm, hk, hin, r, hr, p2, hp2, hk2, hm2⟩ := hsoft
      obtain ⟨p3, hp3, hk3, hm3⟩ := back p2 hp2
      have := not_exists.1 agree p3
      rw [not_and, not_and] at this
      have := Classical.not_not.1 (this hp3 ⟨j, hjm, Or.inr hk, r, hr, hm3 r hm2⟩)
      rw [hk3, hk2] at this
      have hch := this.1 ((ha.installed _).1 hin)
      refine ⟨hch, ?_⟩
      rw [← hk2] at hch
      obtain ⟨l, ⟨p4, hk4, hl⟩, hd⟩ := hc'.requested_decided hjm (c := p2) ⟨r, hr, by
        rw [if_neg (by rw [hk]; simp)]; exact ⟨hp2, hm2⟩⟩ hch (by rw [hk]; simp)
      rw [pool'.packageId_congr (hk4.trans hk2), hi] at hl
      cases hl
      rw [(hc'.found.pos i).1 (hc'.sub _ hd)]
      simp
    · have hP : Preferred rs' s' q p.key := ⟨hp, by rw [e']; exact hsoft⟩
      refine ⟨hkeep p.key hP, ?_⟩
      obtain ⟨p2, i2, hk2, hi2, hval⟩ := hnotout p.key hP
      rw [pool'.packageId_congr hk2, hi] at hi2
      cases hi2
      exact hval
  have hall : ∀ (p : Package N S U) (i : Nat), InstalledKeys s' p.key → pool'.packageId p = .ok i →
      Chosen rs' pool' st' a' p.key := fun p i hp hi => (hall0 p i hp hi).1
  obtain ⟨rem, ins, he, h1, h2, -⟩ := C44_operations_well_formed hc'.built hc'.decisions hc'.hI htr'
  have hrem : rem = [] := by
    rw [List.eq_nil_iff_forall_not_mem]
    intro p hp
    obtain ⟨h3, i, ⟨p', hk, hi⟩, hd⟩ := h1 p hp
    have hin := (hc'.installed_iff _).1 h3
    rw [← hk] at hin
    exact (hall0 p' i hin hi).2 ((hc'.found.neg i).1 (hc'.sub _ hd))
  have hins : ins = [] := by
    rw [List.eq_nil_iff_forall_not_mem]
    intro p hp
    obtain ⟨h3, h4⟩ := h2 p hp
    exact h3 ((hc'.installed_iff _).2 (hc'.nothing_new hu' hE' hT' hv' hall h4))
  rw [he, hrem, hins]
  rfl

end Verif.Props
