import Verif.Props.Removal
/-
Property C137: a request leaves alone what has nothing to do with it.
-/
set_option linter.unusedSectionVars false
namespace Verif.Props
open Verif Verif.Pkg Verif.Solve Verif.Rules Verif.Sat

variable {N S U : Type} [LinearOrder N] [DecidableEq S] [LinearOrder U] [Syntax S U]

/-! ### Specification -/

/-- The packages in `E` have nothing to do with the other ones, nor with the jobs: they share no name with them; neither do they depend on or
conflict with a name that one of the others provides, nor the other way round; and no job asks for a name that they provide. -/
structure Apart (avail : List (Package N S U)) (jobs : List (Job N U)) (E : PKey N S U → Prop) : Prop where
  names : ∀ p ∈ avail, ∀ q ∈ avail, ShareName p q → (E p.key ↔ E q.key)
  deps : ∀ p ∈ avail, ∀ t ∈ p.installRequires, ∀ q ∈ avail, Provides q t.1 → (E p.key ↔ E q.key)
  conflicts : ∀ p ∈ avail, ∀ t ∈ p.conflicts, ∀ q ∈ avail, Provides q t.1 → (E p.key ↔ E q.key)
  jobs : ∀ j ∈ jobs, ∀ r, j.requirement = some r → ∀ p ∈ avail, Provides p r.name → ¬ E p.key

/-- packages in `E` that provide a common name have the same name, or conflict -/
def ExclusiveIn (avail : List (Package N S U)) (mods : Option (Modifiers N)) (E : PKey N S U → Prop) : Prop :=
  ∀ p ∈ avail, ∀ q ∈ avail, E p.key → E q.key → ShareName p q → p.name = q.name ∨ ∃ t ∈ p.conflicts, MeetsConflict mods t q

/-! ### Proofs -/

/-- what a valid installation has of the others, and the installed ones of `E` -/
def Joined (installed C E : PKey N S U → Prop) (k : PKey N S U) : Prop := (C k ∧ ¬ E k) ∨ (installed k ∧ E k)

theorem MeetsDep.provides {mods : Option (Modifiers N)} {t : CTuple N S} {q : Package N S U} (h : MeetsDep mods t q) : Provides q t.1 := by
  obtain ⟨r, hr, hm⟩ := h
  have := hm.1
  rwa [(fromConstraints_name hr).1] at this

theorem MeetsConflict.provides {mods : Option (Modifiers N)} {t : CTuple N S} {q : Package N S U} (h : MeetsConflict mods t q) :
    Provides q t.1 := by
  obtain ⟨r, hr, hm⟩ := h
  have := hm.1
  rwa [(fromConstraints_name hr).1] at this

theorem joined_valid {avail : List (Package N S U)} {mods : Option (Modifiers N)} {jobs : List (Job N U)} {installed C E : PKey N S U → Prop}
    (hA : Apart avail jobs E) (hi : Consistent avail mods (fun k => installed k ∧ E k)) (hC : ValidInstall avail mods installed jobs C) :
    ValidInstall avail mods installed jobs (Joined installed C E) := by
  have hav : ∀ k, Joined installed C E k → ∃ p ∈ avail, p.key = k := by
    rintro k (hk | hk)
    · exact hC.consistent.available k hk.1
    · exact hi.available k hk
  refine ⟨⟨hav, ?_, ?_, ?_⟩, ?_⟩
  · rintro k (hk | hk) t ht
    · obtain ⟨p, hp, rfl⟩ := hC.consistent.available k hk.1
      obtain ⟨d, hd, hdC, hne, hm⟩ := hC.consistent.deps p.key hk.1 t ht
      exact ⟨d, hd, Or.inl ⟨hdC, fun he => hk.2 ((hA.deps p hp t ht d hd hm.provides).2 he)⟩, hne, hm⟩
    · obtain ⟨d, hd, hdI, hne, hm⟩ := hi.deps k hk t ht
      exact ⟨d, hd, Or.inr hdI, hne, hm⟩
  · intro k k' hk hk' hn
    obtain ⟨p, hp, rfl⟩ := hav k hk
    obtain ⟨p', hp', rfl⟩ := hav k' hk'
    have hE : E p.key ↔ E p'.key := hA.names p hp p' hp' ⟨p.name, Or.inl rfl, Or.inl hn⟩
    rcases hk with hk | hk <;> rcases hk' with hk' | hk'
    · exact hC.consistent.names _ _ hk.1 hk'.1 hn
    · exact absurd (hE.2 hk'.2) hk.2
    · exact absurd (hE.1 hk.2) hk'.2
    · exact hi.names _ _ hk hk' hn
  · intro k hk t ht q hq hqI hne hm
    obtain ⟨p, hp, rfl⟩ := hav k hk
    have hE : E p.key ↔ E q.key := hA.conflicts p hp t ht q hq hm.provides
    rcases hk with hk | hk <;> rcases hqI with hk' | hk'
    · exact hC.consistent.conflicts _ hk.1 t ht q hq hk'.1 hne hm
    · exact absurd (hE.2 hk'.2) hk.2
    · exact absurd (hE.1 hk.2) hk'.2
    · exact hi.conflicts _ hk t ht q hq hk' hne hm
  · intro j hj
    obtain ⟨r, hr, hs⟩ := hC.jobs j hj
    have hE : ∀ q ∈ avail, MeetsJob r q → ¬ E q.key := fun q hq hm => hA.jobs j hj r hr q hq hm.1
    refine ⟨r, hr, ?_⟩
    cases hk : j.kind with
    | install =>
      rw [hk] at hs
      obtain ⟨q, hq, h1, h2⟩ := hs
      exact ⟨q, hq, Or.inl ⟨h1, hE q hq h2⟩, h2⟩
    | softUpdate =>
      rw [hk] at hs
      obtain ⟨q, hq, h1, h2⟩ := hs
      exact ⟨q, hq, Or.inl ⟨h1, hE q hq h2⟩, h2⟩
    | remove =>
      rw [hk] at hs
      intro q hq hqI hm
      rcases hqI with h1 | h1
      · exact hs q hq h1.1 hm
      · exact hE q hq hm h1.2
    | hardUpdate =>
      rw [hk] at hs
      intro q hT
      refine Or.inl ⟨hs q hT, ?_⟩
      obtain ⟨before, after, e, hm, -⟩ := hT
      exact hE q (by rw [e]; simp) hm
    | upgrade => rw [hk] at hs; exact hs

variable {rs : List (Repository N S U)} {s : DependencySolver N S U}

section
variable {m : Option (Modifiers N)} {jobs : List (Job N U)} {pool : Pool N S U} {st : Setup N S U} {a : ASet}
  {installed : List Nat} {D : List Int} (h : Completed rs s m jobs pool st a installed D)
include h

/-- the installed packages of `E` are not decided out -/
theorem Completed.apart_true {o : Orders} (hsearch : search o pool st = .ok a) {E : PKey N S U → Prop} (hA : Apart (allPackages rs) jobs E)
    (hi : Consistent (allPackages rs) m (fun k => InstalledKeys s k ∧ E k)) {p : Package N S U} (hp : p ∈ s.installed.iter)
    (hE : E p.key) {i : Nat} (hid : pool.packageId p = .ok i) : a.value i ≠ some false := by
  intro hf
  obtain ⟨μ, hμ, hμI⟩ := Completed.model h (joined_valid hA hi h.chosen_valid)
  have hmem : (i : Int) ∈ st.prefer := by
    refine (h.setup.prefer _).2 ⟨p, hp, ?_, i, hid, rfl⟩
    rintro ⟨j, hj, -, -, r, hr, p', hp', hk, hm⟩
    exact hA.jobs j hj r hr p' hp' hm.1 (hk ▸ hE)
  obtain ⟨pre, post, hsplit⟩ := List.append_of_mem hmem
  refine C57_lexicographic_preference o.policyPerm (h.setup.hids h.built) (h.setup.hnz h.built) hsearch hsplit
    h.setup.preferNodup hf hμ ?_ ((hμI p i hid).2 (Or.inr ⟨⟨p, hp, rfl⟩, hE⟩))
  intro x hx hxt
  obtain ⟨p', hp', -, i', hi', rfl⟩ := (h.setup.prefer x).1 (by rw [hsplit]; simp [hx])
  refine (hμI p' i' hi').2 ?_
  by_cases he : E p'.key
  · exact Or.inr ⟨⟨p', hp', rfl⟩, he⟩
  · exact Or.inl ⟨(h.chosen_iff hi').2 ⟨h.installed_added ⟨p', hp', rfl⟩ hi', m'_of_true hxt⟩, he⟩

/-- With pruning, all that is decided in belongs to `K`, if what shares a name with an installed or requested package does, and what provides
a name that a package of `K` depends on. -/
theorem Completed.decided_closed (hu : s.usePruning = true) {K : PKey N S U → Prop}
    (hstep : ∀ p ∈ allPackages rs, K p.key → ∀ t ∈ p.installRequires, ∀ q ∈ allPackages rs, Provides q t.1 → ∀ l : Nat,
      pool.packageId q = .ok l → m' st a l = true → K q.key)
    (hrootK : ∀ p ∈ allPackages rs, ∀ r ∈ allPackages rs, ShareName p r → ∀ i l : Nat, pool.packageId r = .ok i →
      (i ∈ st.requirementIds ∨ i ∈ installed) → pool.packageId p = .ok l → m' st a l = true → K p.key)
    {k : PKey N S U} (hk : DecidedIn pool D k) : K k := by
  have hd := h.decided
  rw [if_pos hu] at hd
  obtain ⟨rootIds, name, included, hroot, hp⟩ := hd
  have hname : ∀ n l, name n = some l → 0 < l ∧ m' st a l.natAbs = true ∧ ∃ p ∈ allPackages rs,
      pool.packageId p = .ok l.natAbs ∧ Provides p n := by
    intro n l hl
    obtain ⟨h1, h0, p, h2, h3⟩ := hp.nameSound n l hl
    have e : ((l.natAbs : Nat) : Int) = l := by omega
    have hval : a.value l = some true := by
      rcases h.found.lits l h1 with ⟨-, h4⟩ | ⟨h4, -⟩
      · exact h4
      · omega
    obtain ⟨q, hq, hqi⟩ := h.found.known l (by rw [hval]; simp)
    obtain ⟨p', hp', h4, h5⟩ := h.get ⟨q.key, q, rfl, hqi⟩
    rw [h2] at h4
    cases h4
    exact ⟨h0, m'_of_true (by rw [e]; exact hval), p, hp', h5, h3⟩
  have hinc : ∀ l ∈ included, (∃ k, IdOf pool k l.natAbs) ∧ ∀ p, pool.packageId p = .ok l.natAbs → K p.key := by
    refine hp.least _ ?_ ?_
    · intro i hi r hr n hn l hl
      obtain ⟨h0, hm, p, hpa, hpi, hpn⟩ := hname n l hl
      refine ⟨⟨p.key, p, rfl, hpi⟩, ?_⟩
      rw [hroot] at hi
      have hknown : ∃ k, IdOf pool k i := by
        rcases hi with hi | hi
        · obtain ⟨j, -, p, -, hp⟩ := (h.setup.reqs i).1 hi
          exact ⟨p.key, p, rfl, hp⟩
        · exact h.hI i hi
      obtain ⟨r', hra, hr', hri⟩ := h.get hknown
      rw [hr] at hr'; cases hr'
      have := hrootK p hpa r hra ⟨n, hpn, hn⟩ i _ hri hi hpi hm
      intro p' hp'
      rw [h.built.ok.ids.packageId_inj hp' hpi]; exact this
    · rintro l ⟨hkn, hl⟩ p hpg t ht l' hl'
      obtain ⟨h0', hm', p', hpa', hpi', hpn'⟩ := hname _ l' hl'
      refine ⟨⟨p'.key, p', rfl, hpi'⟩, ?_⟩
      obtain ⟨p1, hpa, h2, hpi⟩ := h.get hkn
      rw [hpg] at h2; cases h2
      have := hstep p hpa (hl p hpi) t ht p' hpa' hpn' _ hpi' hm'
      intro p'' hp''
      rw [h.built.ok.ids.packageId_inj hp'' hpi']; exact this
  obtain ⟨i, ⟨p, rfl, hi⟩, hiD⟩ := hk
  rcases (hp.decided _).1 hiD with hl | ⟨hs, hr⟩
  · exact (hinc _ hl).2 p (by rw [Int.natAbs_natCast]; exact hi)
  · rw [Int.natAbs_natCast, hroot] at hr
    obtain ⟨q, hqa, -, hqi⟩ := h.get ⟨p.key, p, rfl, hi⟩
    have := hrootK q hqa q hqa ⟨q.name, Or.inl rfl, Or.inl rfl⟩ i i hqi hr hqi (m'_of_true ((h.found.pos i).1 hs))
    rw [h.built.ok.ids.packageId_inj hi hqi]; exact this

end

/-! ### C137 -/

/-- C137: installed packages that are in order among themselves and have nothing to do with the jobs, nor with the other packages, are still there
after the transaction, whatever it does with the others, with or without pruning; none of its operations removes them. -/
theorem C137_kept (hs : SolverFor rs s) {o : Orders} {q : Request N U} {t : Transaction N S U} (h : s.solve o q = .ok t)
    {E : PKey N S U → Prop} (hA : Apart (allPackages rs) (effectiveJobs s q) E)
    (hi : Consistent (allPackages rs) (some q.modifiers) (fun k => InstalledKeys s k ∧ E k)) {k : PKey N S U} (hk : InstalledKeys s k)
    (hE : E k) : Result s t k ∧ ¬ RemovedBy t.operations k := by
  rw [← consistent_active] at hi
  have hR : Result s t k := by
    obtain ⟨pool, st, a, installed, D, hc, hsearch, ht⟩ := solve_ok hs h
    obtain ⟨p, hp, rfl⟩ := hk
    obtain ⟨i, hid⟩ := hc.setup.known p hp
    by_contra hn
    exact Completed.apart_true hc hsearch hA hi hp hE hid (Completed.gone hc ht ⟨p, hp, rfl⟩ hn hid)
  refine ⟨hR, fun hrem => ?_⟩
  rcases hR with ⟨-, h1⟩ | h1
  · exact h1 hrem
  · exact (C42_removes_installed hs h k).2 h1 hk

/-- C137 (partial): and with pruning, no other package of `E` is installed, if packages of `E` which provide a common name exclude each other.
(Without this condition it is false: `C137_violated`.) -/
theorem C137_nothing_installed_partial (hs : SolverFor rs s) {o : Orders} {q : Request N U} {t : Transaction N S U} (h : s.solve o q = .ok t)
    (hu : s.usePruning = true) {E : PKey N S U → Prop} (hA : Apart (allPackages rs) (effectiveJobs s q) E)
    (hi : Consistent (allPackages rs) (some q.modifiers) (fun k => InstalledKeys s k ∧ E k))
    (hX : ExclusiveIn (allPackages rs) (some q.modifiers) E) {k : PKey N S U} (hE : E k) : ¬ InstalledBy t.operations k := by
  rw [← consistent_active] at hi
  have hnew := (C42_removes_installed hs h k).2
  obtain ⟨pool, st, a, installed, D, hc, hsearch, ht⟩ := solve_ok hs h
  obtain ⟨rem, ins, he, -, h2, -⟩ := C44_operations_well_formed hc.built hc.decisions hc.hI ht
  intro hk
  have hnew := hnew hk
  rw [he, installedBy_iff] at hk
  obtain ⟨p, hp, rfl⟩ := hk
  obtain ⟨-, hin⟩ := h2 p hp
  have hch : ∀ k, InstalledKeys s k → E k → Chosen rs pool st a k := by
    rintro k ⟨r, hr, rfl⟩ hEk
    obtain ⟨i, hid⟩ := hc.setup.known r hr
    exact (hc.chosen_iff hid).2 ⟨hc.installed_added ⟨r, hr, rfl⟩ hid, hc.m'_of_not_false (Completed.apart_true hc hsearch hA hi hr hEk hid)⟩
  -- what is true and shares a name with an installed package of `E` is that one
  have same : ∀ c ∈ allPackages rs, InstalledKeys s c.key → E c.key → ∀ q ∈ allPackages rs, E q.key → ShareName c q → ∀ l : Nat,
      pool.packageId q = .ok l → m' st a l = true → InstalledKeys s q.key := by
    intro c hca hcI hcE q hqa hqE hsh l hl hm
    rw [← hc.exclusive_pair hca hqa ((hX c hca q hqa hcE hqE hsh).imp id
      (fun ⟨t, h1, h2⟩ => ⟨t, h1, (meetsConflict_active _ _ _).2 h2⟩)) (hch _ hcI hcE) hl hm]
    exact hcI
  refine hnew (Completed.decided_closed hc hu (K := fun k => E k → InstalledKeys s k) ?_ ?_ hin hE)
  · intro p hpa hK t ht q hqa hpr l hl hm hqE
    have hpE := (hA.deps p hpa t ht q hqa hpr).2 hqE
    obtain ⟨d, hd, hdI, -, hdm⟩ := hi.deps p.key ⟨hK hpE, hpE⟩ t ht
    exact same d hd hdI.1 hdI.2 q hqa hqE ⟨t.1, hdm.provides, hpr⟩ l hl hm
  · intro p hpa r hra hsh i l hri hir hpi hm hpE
    have hrE := (hA.names p hpa r hra hsh).1 hpE
    rcases hir with hir | hir
    · exfalso
      obtain ⟨j, hj, c, ⟨req, hreq, hcr⟩, hci⟩ := (hc.setup.reqs i).1 hir
      have hkey := hc.built.ok.ids.packageId_inj hci hri
      have hm : MeetsJob req c ∧ c ∈ allPackages rs := by
        split at hcr
        · obtain ⟨before, after, e, hm, -⟩ := hcr
          exact ⟨hm, by rw [e]; simp⟩
        · exact ⟨hcr.2, hcr.1⟩
      exact hA.jobs j hj req hreq c hm.2 hm.1.1 (hkey ▸ hrE)
    · have hk : InstalledKeys s r.key := (hc.installed_iff r.key).1 ⟨i, ⟨r, rfl, hri⟩, hir⟩
      obtain ⟨n, k1, k2⟩ := hsh
      exact same r hra hk hrE p hpa hpE ⟨n, k2, k1⟩ l hpi hm

/-- C137: with pruning, packages which have nothing to do with the jobs, nor with the other packages, are not installed if none of them is. -/
theorem C137_stays_out (hs : SolverFor rs s) {o : Orders} {q : Request N U} {t : Transaction N S U} (h : s.solve o q = .ok t)
    (hu : s.usePruning = true) {E : PKey N S U → Prop} (hA : Apart (allPackages rs) (effectiveJobs s q) E)
    (hN : ∀ k, InstalledKeys s k → ¬ E k) {k : PKey N S U} (hE : E k) : ¬ Result s t k ∧ ¬ InstalledBy t.operations k := by
  have hout : ¬ InstalledBy t.operations k := by
    obtain ⟨pool, st, a, installed, D, hc, hsearch, ht⟩ := solve_ok hs h
    obtain ⟨rem, ins, he, -, h2, -⟩ := C44_operations_well_formed hc.built hc.decisions hc.hI ht
    intro hk
    rw [he, installedBy_iff] at hk
    obtain ⟨p, hp, rfl⟩ := hk
    obtain ⟨-, hin⟩ := h2 p hp
    refine Completed.decided_closed hc hu (K := fun k => ¬ E k) ?_ ?_ hin hE
    · intro p hpa hK t ht q hqa hpr l hl hm hqE
      exact hK ((hA.deps p hpa t ht q hqa hpr).2 hqE)
    · intro p hpa r hra hsh i l hri hir hpi hm hpE
      have hrE := (hA.names p hpa r hra hsh).1 hpE
      rcases hir with hir | hir
      · obtain ⟨j, hj, c, ⟨req, hreq, hcr⟩, hci⟩ := (hc.setup.reqs i).1 hir
        have hkey := hc.built.ok.ids.packageId_inj hci hri
        have hm : MeetsJob req c ∧ c ∈ allPackages rs := by
          split at hcr
          · obtain ⟨before, after, e, hm, -⟩ := hcr
            exact ⟨hm, by rw [e]; simp⟩
          · exact ⟨hcr.2, hcr.1⟩
        exact hA.jobs j hj req hreq c hm.2 hm.1.1 (hkey ▸ hrE)
      · exact hN r.key ((hc.installed_iff r.key).1 ⟨i, ⟨r, rfl, hri⟩, hir⟩) hrE
  refine ⟨?_, hout⟩
  rintro (⟨h1, -⟩ | h1)
  · exact hN k h1 hE
  · exact hout h1

/-! ### Examples -/

namespace ApartExample
open Verif.Pkg.Example Verif.Solve.Example Verif.Solve.Check SolveExample

theorem apart {inst remote : List P} {js : List (Job Nat Nat)} {E : PKey Nat Str Nat → Prop} [DecidablePred E]
    (hj : effectiveJobs (solver inst remote) (request js) = js)
    (h1 : ∀ p ∈ allPackages (repos inst remote), ∀ q ∈ allPackages (repos inst remote), ShareName p q → (E p.key ↔ E q.key))
    (h2 : ∀ p ∈ allPackages (repos inst remote), ∀ t ∈ p.installRequires ++ p.conflicts, ∀ q ∈ allPackages (repos inst remote),
      Provides q t.1 → (E p.key ↔ E q.key))
    (h3 : ∀ j ∈ js, ∀ r ∈ j.requirement.toList, ∀ p ∈ allPackages (repos inst remote), Provides p r.name → ¬ E p.key) :
    Apart (allPackages (repos inst remote)) (effectiveJobs (solver inst remote) (request js)) E := by
  rw [hj]
  exact ⟨h1, fun p hp t ht => h2 p hp t (List.mem_append_left _ ht), fun p hp t ht => h2 p hp t (List.mem_append_right _ ht),
    fun j hj r hr => h3 j hj r (by rw [hr]; simp)⟩

theorem consistent_of {inst remote : List P} {m : Option (Modifiers Nat)} {E : PKey Nat Str Nat → Prop} [DecidablePred E]
    (h : Consistent (allPackages (repos inst remote)) m
      (Of (((solver inst remote).installed.iter.map Package.key).filter (fun k => E k)))) :
    Consistent (allPackages (repos inst remote)) m (fun k => InstalledKeys (solver inst remote) k ∧ E k) := by
  have e : (fun k => InstalledKeys (solver inst remote) k ∧ E k) =
      Of (((solver inst remote).installed.iter.map Package.key).filter (fun k => E k)) := by
    rw [installedKeys_eq]
    funext k
    simp [Of]
  rw [e]; exact h

/-- 1 and 3 are installed, 3 needs 1, and there is a newer 1, which conflicts with 3; 5 needs 6, and a newer 6 than the installed one -/
def inst : List P := [pkg 9 1 1, pkg 9 3 1 [dep 1], pkg 9 6 1]
def remote : List P := [pkg 0 1 2 [] [dep 3], pkg 0 5 1 [depc 6 (.geq (v 2))], pkg 0 6 2]
def E (k : PKey Nat Str Nat) : Prop := k.name = 1 ∨ k.name = 3
instance : DecidablePred E := fun k => by unfold E; infer_instance

theorem ran : solved ((solver inst remote).solve insertionOrder (request [install (req 5)])) =
    some (.ok ([.remove (pkg 9 6 1), .install (pkg 0 6 2), .install (pkg 0 5 1 [depc 6 (.geq (v 2))])],
      [.update (pkg 0 6 2) (pkg 9 6 1), .install (pkg 0 5 1 [depc 6 (.geq (v 2))])])) := by decide +kernel

theorem isApart : Apart (allPackages (repos inst remote)) (effectiveJobs (solver inst remote) (request [install (req 5)])) E :=
  apart (effectiveJobs_plain _ (by decide +kernel)) (by decide +kernel) (by decide +kernel) (by decide +kernel)

example : ∃ t, (solver inst remote).solve insertionOrder (request [install (req 5)]) = .ok t ∧
    Result (solver inst remote) t (pkg 9 3 1 [dep 1]).key ∧ ¬ RemovedBy t.operations (pkg 9 3 1 [dep 1]).key ∧
    ¬ InstalledBy t.operations (pkg 0 1 2 [] [dep 3]).key := by
  obtain ⟨t, ht, -⟩ := solved_ok ran
  have hs : SolverFor (repos inst remote) (solver inst remote) := solverFor (by decide +kernel) (by decide +kernel)
  have hc : Consistent (allPackages (repos inst remote)) (some Modifiers.empty) (fun k => InstalledKeys (solver inst remote) k ∧ E k) :=
    consistent_of (by decide +kernel)
  have h1 := C137_kept hs ht isApart hc (k := (pkg 9 3 1 [dep 1]).key) (by rw [installedKeys_eq]; decide +kernel) (by decide +kernel)
  exact ⟨t, ht, h1.1, h1.2, C137_nothing_installed_partial hs ht rfl isApart hc
    (by unfold ExclusiveIn; decide +kernel) (by decide +kernel)⟩

/-- 1 and 6 have nothing to do with the installed 3 -/
def inst3 : List P := [pkg 9 3 1]
def remote3 : List P := [pkg 0 1 2 [dep 6], pkg 0 5 1 [dep 3], pkg 0 6 2]
def E3 (k : PKey Nat Str Nat) : Prop := k.name = 1 ∨ k.name = 6
instance : DecidablePred E3 := fun k => by unfold E3; infer_instance

theorem ran3 : solved ((solver inst3 remote3).solve insertionOrder (request [install (req 5)])) =
    some (.ok ([.install (pkg 0 5 1 [dep 3])], [.install (pkg 0 5 1 [dep 3])])) := by decide +kernel

example : ∃ t, (solver inst3 remote3).solve insertionOrder (request [install (req 5)]) = .ok t ∧
    ∀ k, E3 k → ¬ Result (solver inst3 remote3) t k ∧ ¬ InstalledBy t.operations k := by
  obtain ⟨t, ht, -⟩ := solved_ok ran3
  refine ⟨t, ht, fun k hk => C137_stays_out (solverFor (by decide +kernel) (by decide +kernel)) ht rfl
    (apart (effectiveJobs_plain _ (by decide +kernel)) (by decide +kernel) (by decide +kernel) (by decide +kernel)) ?_ hk⟩
  rw [installedKeys_eq]
  have : ∀ k ∈ (solver inst3 remote3).installed.iter.map Package.key, ¬ E3 k := by decide +kernel
  exact fun k hk => this k hk

/-- 1 and 3 are installed, 1 provides 9, and 3 needs 9; there is a 2 which provides 9, too, and needs 6 -/
def inst2 : List P := [pkg 9 1 1 [] [] [dep 9], pkg 9 3 1 [dep 9]]
def remote2 : List P := [pkg 0 2 2 [dep 6] [] [dep 9], pkg 0 6 2, pkg 0 5 1]
def E2 (k : PKey Nat Str Nat) : Prop := k.name ≠ 5
instance : DecidablePred E2 := fun k => by unfold E2; infer_instance

/-- C137 is violated: 1, 2, 3 and 6 have nothing to do with 5, and the installed 1 and 3 are in order, but if 5 is asked for, then 6 and 2
are installed, too. -/
theorem C137_violated : Apart (allPackages (repos inst2 remote2)) (effectiveJobs (solver inst2 remote2) (request [install (req 5)])) E2 ∧
    Consistent (allPackages (repos inst2 remote2)) (some Modifiers.empty) (fun k => InstalledKeys (solver inst2 remote2) k ∧ E2 k) ∧
    solved ((solver inst2 remote2).solve insertionOrder (request [install (req 5)])) =
      some (.ok ([.install (pkg 0 5 1), .install (pkg 0 6 2), .install (pkg 0 2 2 [dep 6] [] [dep 9])],
        [.install (pkg 0 5 1), .install (pkg 0 6 2), .install (pkg 0 2 2 [dep 6] [] [dep 9])])) :=
  ⟨apart (effectiveJobs_plain _ (by decide +kernel)) (by decide +kernel) (by decide +kernel) (by decide +kernel),
    consistent_of (by decide +kernel), by decide +kernel⟩

/-- Even if nothing is asked for, they are installed. -/
theorem C137_violated_empty : solved ((solver inst2 remote2).solve insertionOrder (request [])) =
      some (.ok ([.install (pkg 0 6 2), .install (pkg 0 2 2 [dep 6] [] [dep 9])],
        [.install (pkg 0 6 2), .install (pkg 0 2 2 [dep 6] [] [dep 9])])) := by decide +kernel

end ApartExample
end Verif.Props
