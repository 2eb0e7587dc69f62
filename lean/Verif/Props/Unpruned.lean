import Verif.Props.Solve
/-
Property C41 without pruning: what the transaction leads to is a valid installation and, besides, packages that the request says
nothing about.
-/
namespace Verif.Props
open Verif Verif.Pkg Verif.Graph Verif.Solve Verif.Rules Verif.Sat

variable {N S U : Type} [LinearOrder N] [DecidableEq S] [LinearOrder U] [Syntax S U]
variable {rs : List (Repository N S U)} {s : DependencySolver N S U}

section
variable {m : Option (Modifiers N)} {jobs : List (Job N U)} {pool : Pool N S U} {st : Setup N S U} {a : ASet} {installed : List Nat}
  {D : List Int} (hc : Completed rs s m jobs pool st a installed D)

/-- the assignment of the solution, where installed packages without a value count as true -/
def mInst (installed : List Nat) (a : ASet) (i : Nat) : Bool := truth a i || (decide (a.value i = none) && decide (i ∈ installed))

theorem mInst_of_true {i : Nat} (h : a.value i = some true) : mInst installed a i = true := by unfold mInst truth; simp [h]

theorem mInst_cases {i : Nat} (h : mInst installed a i = true) : a.value i = some true ∨ (a.value i = none ∧ i ∈ installed) := by
  unfold mInst truth at h
  simpa using h

/-- the packages that are true, or installed and not mentioned, among those whose rules were generated -/
def Core (rs : List (Repository N S U)) (pool : Pool N S U) (st : Setup N S U) (a : ASet) (installed : List Nat) (k : PKey N S U) : Prop :=
  ∃ p ∈ allPackages rs, p.key = k ∧ ∃ i ∈ st.gen.added, pool.packageId p = .ok i ∧ mInst installed a i = true

include hc

theorem core_sat : Sat (mInst installed a) st.clauses := by
  intro c hcc
  obtain ⟨l, hl, ht⟩ := hc.found.sat c hcc
  refine ⟨l, hl, ?_⟩
  have hv : ((l.natAbs : Nat) : Int) ∈ varsOf st.clauses := by
    rw [mem_varsOf]
    exact ⟨c, hcc, l, hl, by unfold iabs; omega⟩
  have hn := hc.found.vars _ hv
  unfold litTrue at ht ⊢
  unfold mInst
  rw [ht]
  simp [hn]

theorem core_valid : ValidInstall (allPackages rs) m (InstalledKeys s) jobs (Core rs pool st a installed) := by
  have h1 := C37_rules_are_complete hc.built hc.setup.ids hc.setup.gen (mInst installed a) (core_sat hc)
  have : InstalledSet st.installedDict = InstalledKeys s := by funext k; exact propext (hc.setup.inst k)
  rw [this] at h1
  exact h1

theorem core_iff {p : Package N S U} {i : Nat} (hi : pool.packageId p = .ok i) :
    Core rs pool st a installed p.key ↔ i ∈ st.gen.added ∧ mInst installed a i = true := by
  constructor
  · rintro ⟨q, -, h2, j, h3, h4, h5⟩
    rw [pool.packageId_congr h2, hi] at h4
    cases h4
    exact ⟨h3, h5⟩
  · rintro ⟨h1, h2⟩
    obtain ⟨-, -, q, -, hk, hq, hid⟩ := hc.built.ok.ids.packageId_spec hi
    exact ⟨q, hq, hc.built.ok.ids.packageId_inj hid hi, i, h1, hid, h2⟩

theorem core_wanted (hD : D = solutionToIds a) {k : PKey N S U} (hk : Core rs pool st a installed k) :
    Wanted pool D installed k := by
  obtain ⟨p, -, rfl, i, -, hi, hm⟩ := hk
  rcases mInst_cases hm with hv | ⟨hv, hin⟩
  · right; exact ⟨i, ⟨p, rfl, hi⟩, by rw [hD]; exact (hc.found.pos i).2 hv⟩
  · left
    refine ⟨⟨i, ⟨p, rfl, hi⟩, hin⟩, ?_⟩
    rintro ⟨j, hj, hjD⟩
    rw [hD, hc.found.neg j, IdOf.fn hj ⟨p, rfl, hi⟩, hv] at hjD
    cases hjD

/-- a package of the core and another package that is true do not have the same name, and the first one declares no conflict with
the second; if the second one meets a dependency of the first one, its rules were generated -/
theorem core_other {p q : Package N S U} (hp : p ∈ allPackages rs) (hq : q ∈ allPackages rs) (hcore : Core rs pool st a installed p.key)
    {j : Nat} (hj : pool.packageId q = .ok j) (hm : mInst installed a j = true) :
    (q.key ≠ p.key → q.name ≠ p.name ∧ ∀ t ∈ p.conflicts, ¬ MeetsConflict m t q) ∧
    ∀ t ∈ p.installRequires, MeetsDep m t q → j ∈ st.gen.added := by
  obtain ⟨i, hi⟩ := hc.built.ok.ids.packageId_ok ⟨p, hp, rfl⟩
  obtain ⟨hadd, hmi⟩ := (core_iff hc hi).1 hcore
  obtain ⟨hcl, -, -⟩ := iterRules_spec hc.setup.gen
  obtain ⟨p', hp', hdep, hname, hconf⟩ := hcl i hadd
  have hk : p'.key = p.key := hc.built.ok.ids.packageId_inj hp' hi
  have hf := key_fields hk
  have hmod := hc.built.modifiers
  have hs := core_sat hc
  subst hmod
  refine ⟨fun hne => ⟨fun e => ?_, fun t ht hmeet => ?_⟩, fun t ht hmeet => ?_⟩
  · obtain ⟨cands, h1, h2⟩ := hname
    rw [hf.1] at h1
    obtain ⟨j', hj', hhas⟩ := h2 q (Run.name_cands (R := ⟨pool, allPackages rs, [], []⟩) hc.built.ok h1 hq e)
      (by rw [hk]; exact hne) (by rw [hf.1]; exact e)
    rw [hj] at hj'; cases hj'
    exact Run.not_both hs hhas hmi hm
  · rw [← hf.2.2.2] at ht
    obtain ⟨req, cands, h1, h2, h3⟩ := hconf t ht
    obtain ⟨j', hj', hhas⟩ := h3 q
      ((Run.meetsConflict_iff (R := ⟨pool, allPackages rs, [], []⟩) hc.built.ok h1 h2 hq).2 hmeet)
      (by rw [hk]; exact hne)
    rw [hj] at hj'; cases hj'
    exact Run.not_both hs hhas hmi hm
  · rw [← hf.2.2.1] at ht
    rcases hdep with hhas | hdep
    · obtain ⟨l, a1, a2⟩ := Run.sat_has hs hhas
      rw [List.mem_singleton] at a1; subst a1
      rw [Run.litTrue_negId, hmi] at a2
      cases a2
    · obtain ⟨req, cands, ids, h1, h2, -, -, h5⟩ := hdep t ht
      rcases h5 q ((Run.meetsDep_iff (R := ⟨pool, allPackages rs, [], []⟩) hc.built.ok h1 h2 hq).2 hmeet) with ⟨j', hj', hadd'⟩ | ⟨e, he, -⟩
      · rw [hj] at hj'; cases hj'
        exact hadd'
      · cases he

end

/-- C41 (partial) without pruning: what is installed after the transaction contains a valid installation `I` for the request. A package
that is there besides is not installed now, does not provide the name of an installed package, is not asked for by any job
and does not meet any dependency of a package of `I`; and it does not disturb the packages of `I`: it has none of their names, and none
of them declares a conflict with it. What is missing: such packages are there at all, and neither their own
dependencies and conflicts nor their names are respected among them, see `C41_violated_without_pruning`. -/
theorem C41_without_pruning_partial (hs : SolverFor rs s) {o : Orders} {q : Request N U} {t : Transaction N S U}
    (h : s.solve o q = .ok t) (hu : s.usePruning = false) (hM : SameMetadata (allPackages rs) (InstalledKeys s)) :
    ∃ I : PKey N S U → Prop, Solves rs s q I ∧ (∀ k, I k → Result s t k) ∧
      ∀ p ∈ allPackages rs, Result s t p.key → ¬ I p.key →
        ¬ InstalledKeys s p.key ∧ ¬ NearInstalled (InstalledKeys s) p ∧
        (∀ j ∈ effectiveJobs s q, ¬ Requested (allPackages rs) (InstalledKeys s) j p) ∧
        ∀ c ∈ allPackages rs, I c.key → p.name ≠ c.name ∧
          (∀ d ∈ c.installRequires, ¬ MeetsDep (some q.modifiers) d p) ∧
          ∀ d ∈ c.conflicts, ¬ MeetsConflict (some q.modifiers) d p := by
  obtain ⟨pool, st, a, installed, D, hc, -, ht⟩ := solve_ok hs h
  have hD : D = solutionToIds a := by
    have := hc.decided
    rw [hu] at this
    simpa using this
  have key := fun k => C45_decisions_realised hc.built hc.decisions hc.hI ht k
  have hno := fun k k' => C45_no_reinstallation hc.built hc.decisions hc.hI ht k k'
  simp only [hc.installed_eq] at key hno
  have hV := core_valid hc
  let C := Core rs pool st a installed
  let I : PKey N S U → Prop := fun k => Result s t k ∧
    (C k ∨ (InstalledKeys s k ∧ ∃ k', C k' ∧ ¬ InstalledKeys s k' ∧ SameNameVersion k k'))
  have hinst : ∀ k, InstalledKeys s k → ∃ p ∈ allPackages rs, p.key = k := by
    intro k hk
    obtain ⟨i, ⟨p, rfl, hp⟩, -⟩ := (hc.installed_iff k).2 hk
    obtain ⟨-, -, p', -, hk', hp', -⟩ := hc.built.ok.ids.packageId_spec hp
    exact ⟨p', hp', hk'⟩
  have hI : ValidInstall (allPackages rs) (activeModifiers q.modifiers) (InstalledKeys s) (effectiveJobs s q) I := by
    refine twin_valid hM hV hinst ?_ ?_ ?_
    · rintro k ⟨-, hk | ⟨hk, k', h1, h2, h3⟩⟩ hn
      · exact absurd hk hn
      · exact ⟨hk, k', h1, h2, h3⟩
    · intro k hk hn
      have hR : ¬ Result s t k := fun hR => hn ⟨hR, Or.inl hk⟩
      obtain ⟨-, h1, k', h2, h3, h4⟩ := (key k).2 (core_wanted hc hD hk) hR
      exact ⟨h1, k', h2, h3, h4, Or.inr ⟨h2, k, hk, h1, h3⟩⟩
    · rintro k k' ⟨hR, -⟩ hk hk'
      rcases hR with ⟨h1, -⟩ | h1
      · exact absurd h1 hk
      · exact hno k k' h1 hk'
  refine ⟨I, (solves_active ..).2 hI, fun k hk => hk.1, ?_⟩
  intro p hp hR hnI
  obtain ⟨i, hi⟩ := hc.built.ok.ids.packageId_ok ⟨p, hp, rfl⟩
  -- the package is true, and its rules were not generated
  have hfacts : i ∉ st.gen.added ∧ a.value i = some true := by
    have hnC : ¬ C p.key := fun hC => hnI ⟨hR, Or.inl hC⟩
    by_cases hW : Wanted pool D installed p.key
    · rcases hW with ⟨hin, hout⟩ | ⟨j, hj, hjD⟩
      · exfalso
        apply hnC
        refine (core_iff hc hi).2 ⟨hc.installed_added ((hc.installed_iff _).1 hin) hi, ?_⟩
        obtain ⟨j, hj, hjin⟩ := hin
        rw [IdOf.fn hj ⟨p, rfl, hi⟩] at hjin
        have hnf : a.value i ≠ some false := by
          intro hf
          exact hout ⟨i, ⟨p, rfl, hi⟩, by rw [hD]; exact (hc.found.neg i).2 hf⟩
        unfold mInst truth
        cases hv : a.value i with
        | none => simp [hjin]
        | some b => cases b with
          | true => simp
          | false => exact absurd hv hnf
      · rw [hD, hc.found.pos j, IdOf.fn hj ⟨p, rfl, hi⟩] at hjD
        exact ⟨fun hadd => hnC ((core_iff hc hi).2 ⟨hadd, mInst_of_true hjD⟩), hjD⟩
    · exfalso
      obtain ⟨h1, -, k', ⟨j, hj, hjD⟩, h3, h4⟩ := (key p.key).1 hR hW
      obtain ⟨p', hp', hk', -, hi'⟩ := IdOf.get hc.built.ok hj
      subst hk'
      have hadd : j ∈ st.gen.added := hc.near_added hp' ⟨p.key, h1, Or.inl h4.1⟩ hi'
      rw [hD, hc.found.pos j] at hjD
      exact hnI ⟨hR, Or.inr ⟨h1, p'.key, (core_iff hc hi').2 ⟨hadd, mInst_of_true hjD⟩, h3, h4⟩⟩
  obtain ⟨hnadd, htrue⟩ := hfacts
  have hnC : ¬ C p.key := fun hC => hnadd ((core_iff hc hi).1 hC).1
  refine ⟨fun hin => hnadd (hc.installed_added hin hi), fun hn => hnadd (hc.near_added hp hn hi), ?_, ?_⟩
  · intro j hj hreq
    have := hc.requested hj hreq hi
    split at this
    · rw [htrue] at this; cases this.2
    · exact hnadd this
  · intro c hcm hcI
    -- a package of the core with the same metadata
    obtain ⟨e, he, heC, e1, e2, e3⟩ : ∃ e ∈ allPackages rs, C e.key ∧ e.name = c.name ∧ e.installRequires = c.installRequires ∧
        e.conflicts = c.conflicts := by
      rcases hcI.2 with hC | ⟨hin, k', hk', -, hsn⟩
      · exact ⟨c, hcm, hC, rfl, rfl, rfl⟩
      · obtain ⟨e, he, rfl⟩ := hV.consistent.available k' hk'
        have hsn' : SameNameVersion e.key c.key := ⟨hsn.1.symm, hsn.2.symm⟩
        obtain ⟨h1, h2, -⟩ := hM.same e he c hcm hin hsn'
        exact ⟨e, he, hk', hsn'.1, h1, h2⟩
    have hne : p.key ≠ e.key := fun e' => hnC (by rw [e']; exact heC)
    obtain ⟨k1, k2⟩ := core_other hc he hp heC hi (mInst_of_true htrue)
    obtain ⟨k3, k4⟩ := k1 hne
    refine ⟨by rw [← e1]; exact k3, ?_, ?_⟩
    · intro d hd hmeet
      rw [← e2] at hd
      exact hnadd (k2 d hd ((meetsDep_active ..).2 hmeet))
    · intro d hd hmeet
      rw [← e3] at hd
      exact k4 d hd ((meetsConflict_active ..).2 hmeet)

/-! ## A concrete case -/

namespace UnprunedExample
open Verif.Pkg.Example Verif.Solve.Example Verif.Solve.Check SolveExample

/-- installed is 1-1; 3-1 conflicts with 2 and 3-2 depends on 1 -/
def inst : List P := [pkg 9 1 1]
def remote : List P := [pkg 0 2 1, pkg 0 2 2, pkg 0 3 1 [] [dep 2], pkg 0 3 2 [dep 1]]

/-- the hypotheses are met by the request to install 3: the transaction installs 3-2 and, besides, both versions of 2; the valid
installation that the theorem speaks of contains 1-1 and 3-2 but none of the two versions of 2, which have the same name -/
example : ∃ t, (solver inst remote false).solve insertionOrder (request [install (req 3)]) = .ok t ∧
    SolverFor (repos inst remote) (solver inst remote false) ∧ (solver inst remote false).usePruning = false ∧
    SameMetadata (allPackages (repos inst remote)) (InstalledKeys (solver inst remote false)) ∧
    Result (solver inst remote false) t (pkg 0 2 1).key ∧ Result (solver inst remote false) t (pkg 0 2 2).key ∧
    Result (solver inst remote false) t (pkg 0 3 2 [dep 1]).key := by
  have h3 : solved ((solver inst remote false).solve insertionOrder (request [install (req 3)])) =
    some (.ok ([.install (pkg 0 2 1), .install (pkg 0 2 2), .install (pkg 0 3 2 [dep 1])], [.update (pkg 0 2 2) (pkg 0 2 1), .install (pkg 0 3 2 [dep 1])])) := by
    decide +kernel
  obtain ⟨t, ht, hops⟩ := solved_ok h3
  refine ⟨t, ht, solverFor (by decide +kernel) (by decide +kernel), rfl, by decide +kernel, ?_⟩
  rw [result_eq, hops]
  decide +kernel

end UnprunedExample

end Verif.Props
