import Verif.Props.Choice
/-
C42: what a pruned transaction installs is needed by what is there afterwards.
-/
set_option linter.unusedSectionVars false
namespace Verif.Props
open Verif Verif.Pkg Verif.Solve Verif.Rules Verif.Sat

variable {N S U : Type} [LinearOrder N] [DecidableEq S] [LinearOrder U] [Syntax S U]

/-- There is a reason for the package `p` in the set `I` of packages: it shares a provided name with an installed package or with one
that a job asks for, or it provides a name on which a package of `I`, for which there is a reason, depends. -/
inductive Justified (avail : List (Package N S U)) (installed : PKey N S U → Prop) (jobs : List (Job N U)) (I : PKey N S U → Prop) :
    Package N S U → Prop where
  | ofInstalled {p r} : I p.key → p ∈ avail → r ∈ avail → installed r.key → ShareName p r → Justified avail installed jobs I p
  | ofJob {p r j} : I p.key → p ∈ avail → r ∈ avail → j ∈ jobs → RequestedKey avail installed j r.key → ShareName p r →
      Justified avail installed jobs I p
  | dep {p q t} : I q.key → Justified avail installed jobs I p → t ∈ p.installRequires → q ∈ avail → Provides q t.1 →
      Justified avail installed jobs I q

variable {rs : List (Repository N S U)} {s : DependencySolver N S U}

theorem Completed.justified {m : Option (Modifiers N)} {jobs : List (Job N U)} {pool : Pool N S U} {st : Setup N S U}
    {a : ASet} {installed : List Nat} {D : List Int} (hc : Completed rs s m jobs pool st a installed D)
    (hu : s.usePruning = true) {I : PKey N S U → Prop} (hI : ∀ k, DecidedIn pool D k → I k) {k : PKey N S U}
    (hk : DecidedIn pool D k) : ∃ p ∈ allPackages rs, p.key = k ∧ Justified (allPackages rs) (InstalledKeys s) jobs I p := by
  have hd := hc.decided
  rw [if_pos hu] at hd
  obtain ⟨rootIds, name, included, hroot, hp⟩ := hd
  have share : ∀ (p r : Package N S U) (i : Nat), I p.key → p ∈ allPackages rs → r ∈ allPackages rs → pool.packageId r = .ok i →
      i ∈ rootIds → ShareName p r → Justified (allPackages rs) (InstalledKeys s) jobs I p := by
    intro p r i hIp hpa hra hri hi hsh
    rcases (hroot i).1 hi with hi | hi
    · obtain ⟨j, hj, c, hcr, hci⟩ := (hc.setup.reqs i).1 hi
      exact .ofJob hIp hpa hra hj ⟨c, hcr, hc.built.ok.ids.packageId_inj hci hri⟩ hsh
    · obtain ⟨c, hci, hcid⟩ := (hc.inst i).1 hi
      exact .ofInstalled hIp hpa hra ⟨c, hci, hc.built.ok.ids.packageId_inj hcid hri⟩ hsh
  have sel : ∀ n l, name n = some l → ∃ p ∈ allPackages rs, pool.idToPkg l.natAbs = .ok p ∧ pool.packageId p = .ok l.natAbs ∧
      Provides p n ∧ 0 < l := by
    intro n l hl
    obtain ⟨h1, h2, p, h3, h4⟩ := hp.nameSound n l hl
    rcases hc.found.lits l h1 with ⟨-, hv⟩ | ⟨h5, -⟩
    · obtain ⟨p0, hp0, hpi⟩ := hc.found.known l (by rw [hv]; simp)
      obtain ⟨p', hp', hget, hid⟩ := hc.get ⟨p0.key, p0, rfl, hpi⟩
      rw [h3] at hget
      cases hget
      exact ⟨p, hp', h3, hid, h4, h2⟩
    · omega
  have inI : ∀ l ∈ included, 0 < l → ∀ p, pool.packageId p = .ok l.natAbs → I p.key := by
    intro l hl h0 p hpl
    refine hI _ ⟨l.natAbs, ⟨p, rfl, hpl⟩, ?_⟩
    rw [show ((l.natAbs : Nat) : Int) = l by omega]
    exact (hp.decided l).2 (Or.inl hl)
  have rootPkg : ∀ i ∈ rootIds, ∃ r ∈ allPackages rs, pool.idToPkg i = .ok r ∧ pool.packageId r = .ok i := by
    intro i hi
    apply hc.get
    rcases (hroot i).1 hi with hi | hi
    · obtain ⟨j, hj, c, hcr, hci⟩ := (hc.setup.reqs i).1 hi
      exact ⟨c.key, c, rfl, hci⟩
    · exact hc.hI i hi
  have hinc : ∀ l ∈ included, l ∈ included ∧ ∃ p ∈ allPackages rs, pool.idToPkg l.natAbs = .ok p ∧
      Justified (allPackages rs) (InstalledKeys s) jobs I p := by
    refine hp.least (fun l => l ∈ included ∧ ∃ p ∈ allPackages rs, pool.idToPkg l.natAbs = .ok p ∧
      Justified (allPackages rs) (InstalledKeys s) jobs I p) ?_ ?_
    · intro i hi r hr n hn l hl
      obtain ⟨p, hpa, hpl, hpid, hpn, h0⟩ := sel n l hl
      obtain ⟨r', hra, hr', hri⟩ := rootPkg i hi
      rw [hr] at hr'
      cases hr'
      have hin := hp.roots i hi r hr n hn l hl
      exact ⟨hin, p, hpa, hpl, share p r i (inI l hin h0 p hpid) hpa hra hri hi ⟨n, hpn, hn⟩⟩
    · rintro l ⟨hin, p, hpa, hpl, hrel⟩ p' hp' t ht l' hl'
      rw [hpl] at hp'
      cases hp'
      obtain ⟨q, hqa, hql, hqid, hqn, h0⟩ := sel t.1 l' hl'
      obtain ⟨-, p1, hp1, hcl⟩ := hp.closed l hin
      rw [hpl] at hp1
      cases hp1
      obtain ⟨l'', h1, h2⟩ := hcl t ht
      rw [hl'] at h1
      cases h1
      exact ⟨h2, q, hqa, hql, .dep (inI l' h2 h0 q hqid) hrel ht hqa hqn⟩
  obtain ⟨i, hid, hi⟩ := hk
  obtain ⟨p, hpa, hkey, hpl, hpi⟩ := IdOf.get hc.built.ok hid
  rcases (hp.decided (i : Int)).1 hi with hi' | ⟨-, hi'⟩
  · obtain ⟨-, p', hp'a, hp'l, hrel⟩ := hinc _ hi'
    rw [Int.natAbs_natCast, hpl] at hp'l
    cases hp'l
    exact ⟨p, hpa, hkey, hrel⟩
  · rw [Int.natAbs_natCast] at hi'
    exact ⟨p, hpa, hkey, share p p i (hI _ ⟨i, ⟨p, rfl, hpi⟩, hi⟩) hpa hpa hpi hi' ⟨p.name, Or.inl rfl, Or.inl rfl⟩⟩

/-- C42: with pruning, there is a reason for every package that the transaction installs, within what is there afterwards: it shares a
provided name with an installed or a requested package, or a package for which there is a reason, and which is there afterwards (in
this version), depends on a name that it provides. -/
theorem C42_installs_justified (hs : SolverFor rs s) {o : Orders} {q : Request N U} {t : Transaction N S U}
    (h : s.solve o q = .ok t) (hu : s.usePruning = true) {k : PKey N S U} (hk : InstalledBy t.operations k) :
    ∃ p ∈ allPackages rs, p.key = k ∧
      Justified (allPackages rs) (InstalledKeys s) (effectiveJobs s q) (HasVersion (Result s t)) p := by
  obtain ⟨pool, st, a, installed, D, hc, -, ht⟩ := solve_ok hs h
  obtain ⟨rem, ins, he, -, h2, -⟩ := C44_operations_well_formed hc.built hc.decisions hc.hI ht
  rw [he, installedBy_iff] at hk
  obtain ⟨p, hp, rfl⟩ := hk
  exact Completed.justified hc hu (fun k hk => Completed.result_of_decided hc ht hk) (h2 p hp).2

/-! ### a concrete case -/
namespace PrunedExample
open Verif.Pkg.Example Verif.Solve.Example Verif.Solve.Check SolveExample

example : ∃ t, (solver inst remote).solve insertionOrder (request [install (req 3), remove (req 4)]) = .ok t ∧
    ∀ k, InstalledBy t.operations k → ∃ p ∈ allPackages (repos inst remote), p.key = k ∧
      Justified (allPackages (repos inst remote)) (InstalledKeys (solver inst remote)) [install (req 3), remove (req 4)]
        (HasVersion (Result (solver inst remote) t)) p := by
  obtain ⟨t, ht, -⟩ := solved_ok example_install
  exact ⟨t, ht, fun k hk => C42_installs_justified forExample ht rfl hk⟩

end PrunedExample
end Verif.Props
