import Verif.Solve.SolveSpec
/-
A valid installation stays valid when packages are replaced by installed ones of the same name and version, if these have
the same metadata.
-/
set_option linter.unusedSectionVars false
namespace Verif.Solve
open Verif Verif.Pkg Verif.Props

variable {N S U : Type} [LinearOrder N] [DecidableEq S] [LinearOrder U] [Syntax S U]

/-- `p` and `q` have the same metadata -/
def Twin (p q : Package N S U) : Prop :=
  p.name = q.name ∧ p.version = q.version ∧ p.installRequires = q.installRequires ∧ p.conflicts = q.conflicts ∧
    ∀ n, Provides p n ↔ Provides q n

theorem Twin.refl (p : Package N S U) : Twin p p := ⟨rfl, rfl, rfl, rfl, fun _ => Iff.rfl⟩

theorem Twin.meets {p q : Package N S U} (h : Twin p q) {mods : Option (Modifiers N)} {b : Bool} {r : Requirement N U}
    (hm : Meets mods b r p) : Meets mods b r q := by
  obtain ⟨h1, r', h2, h3⟩ := hm
  exact ⟨(h.2.2.2.2 _).1 h1, r', h2, by rw [← h.2.1]; exact h3⟩

theorem Twin.symm {p q : Package N S U} (h : Twin p q) : Twin q p :=
  ⟨h.1.symm, h.2.1.symm, h.2.2.1.symm, h.2.2.2.1.symm, fun n => (h.2.2.2.2 n).symm⟩

theorem _root_.Verif.Props.SameMetadata.twin {avail : List (Package N S U)} {installed : PKey N S U → Prop}
    (hM : SameMetadata avail installed) {p q : Package N S U} (hp : p ∈ avail) (hq : q ∈ avail) (hi : installed q.key)
    (hs : SameNameVersion p.key q.key) : Twin p q := by
  obtain ⟨h1, h2, h3⟩ := hM.same p hp q hq hi hs
  exact ⟨hs.1, hs.2, h1, h2, h3⟩

/-- the jobs stay satisfied -/
theorem twin_jobs {avail : List (Package N S U)} {installed : PKey N S U → Prop}
    {jobs : List (Job N U)} (hM : SameMetadata avail installed) {W R : PKey N S U → Prop}
    (hWa : ∀ k, W k → ∃ p ∈ avail, p.key = k)
    (hW : ∀ j ∈ jobs, JobSatisfied avail installed W j) (hinst : ∀ k, installed k → ∃ p ∈ avail, p.key = k)
    (hRW : ∀ k, R k → ¬ W k → installed k ∧ ∃ k', W k' ∧ ¬ installed k' ∧ SameNameVersion k k')
    (hWR : ∀ k, W k → ¬ R k → ¬ installed k ∧ ∃ k', installed k' ∧ SameNameVersion k' k ∧ R k') :
    ∀ j ∈ jobs, JobSatisfied avail installed R j := by
  have toW : ∀ p ∈ avail, R p.key → ∃ w ∈ avail, W w.key ∧ Twin p w := by
    intro p hp hR
    by_cases hw : W p.key
    · exact ⟨p, hp, hw, Twin.refl p⟩
    · obtain ⟨hi, k', hk', -, hs⟩ := hRW _ hR hw
      obtain ⟨w, hwa, rfl⟩ := hWa k' hk'
      exact ⟨w, hwa, hk', (hM.twin hwa hp hi ⟨hs.1.symm, hs.2.symm⟩).symm⟩
  have toR : ∀ p ∈ avail, W p.key → ∃ q ∈ avail, R q.key ∧ Twin p q := by
    intro p hp hw
    by_cases hR : R p.key
    · exact ⟨p, hp, hR, Twin.refl p⟩
    · obtain ⟨-, k', hi, hs, hk'⟩ := hWR _ hw hR
      obtain ⟨q, hq, rfl⟩ := hinst k' hi
      exact ⟨q, hq, hk', hM.twin hp hq hi ⟨hs.1.symm, hs.2.symm⟩⟩
  intro j hj
  obtain ⟨r, hr, hs⟩ := hW j hj
  refine ⟨r, hr, ?_⟩
  have inst : (∃ q ∈ avail, W q.key ∧ MeetsJob r q) → ∃ q ∈ avail, R q.key ∧ MeetsJob r q := by
    rintro ⟨q, hq, hqW, hm⟩
    obtain ⟨e, he, heR, hqe⟩ := toR q hq hqW
    exact ⟨e, he, heR, hqe.meets hm⟩
  cases hkind : j.kind with
  | install => rw [hkind] at hs; exact inst hs
  | softUpdate => rw [hkind] at hs; exact inst hs
  | remove =>
    rw [hkind] at hs
    intro q hq hqR hm
    obtain ⟨w, hwa, hww, hqw⟩ := toW q hq hqR
    exact hs w hwa hww (hqw.meets hm)
  | upgrade => rw [hkind] at hs; exact hs.elim
  | hardUpdate =>
    rw [hkind] at hs
    intro q ht
    apply Classical.byContradiction
    intro hR
    obtain ⟨hni, k', hi, hsn, -⟩ := hWR _ (hs q ht) hR
    obtain ⟨e, he, rfl⟩ := hinst k' hi
    obtain ⟨b, c, heq, hm, hbef, haft⟩ := ht
    have hq : q ∈ avail := by rw [heq]; simp
    have htw := hM.twin hq he hi ⟨hsn.1.symm, hsn.2.symm⟩
    have hme : MeetsJob r e := htw.meets hm
    rw [heq] at he
    rcases List.mem_append.1 he with he | he
    · rcases hbef e he hme with h1 | ⟨-, h1, -⟩
      · rw [htw.2.1] at h1; exact lt_irrefl _ h1
      · exact h1 hi
    · rcases List.mem_cons.1 he with rfl | he
      · exact hni hi
      · exact haft e he hme (Or.inr ⟨htw.2.1, hni, hi⟩)

theorem twin_valid {avail : List (Package N S U)} {mods : Option (Modifiers N)} {installed : PKey N S U → Prop}
    {jobs : List (Job N U)} (hM : SameMetadata avail installed) {W R : PKey N S U → Prop}
    (hW : ValidInstall avail mods installed jobs W) (hinst : ∀ k, installed k → ∃ p ∈ avail, p.key = k)
    (hRW : ∀ k, R k → ¬ W k → installed k ∧ ∃ k', W k' ∧ ¬ installed k' ∧ SameNameVersion k k')
    (hWR : ∀ k, W k → ¬ R k → ¬ installed k ∧ ∃ k', installed k' ∧ SameNameVersion k' k ∧ R k')
    (hRI : ∀ k k', R k → ¬ installed k → installed k' → ¬ SameNameVersion k' k) :
    ValidInstall avail mods installed jobs R := by
  have hWa := hW.consistent.available
  have twin : ∀ p ∈ avail, ∀ q ∈ avail, installed q.key → SameNameVersion p.key q.key → Twin p q := by
    intro p hp q hq hi hs
    obtain ⟨h1, h2, h3⟩ := hM.same p hp q hq hi hs
    exact ⟨hs.1, hs.2, h1, h2, h3⟩
  have twin' : ∀ p q : Package N S U, Twin p q → Twin q p := fun p q h =>
    ⟨h.1.symm, h.2.1.symm, h.2.2.1.symm, h.2.2.2.1.symm, fun n => (h.2.2.2.2 n).symm⟩
  -- every package of the one set has a twin in the other one
  have toW : ∀ p ∈ avail, R p.key → ∃ w ∈ avail, W w.key ∧ Twin p w ∧ (W p.key → w = p) := by
    intro p hp hR
    by_cases hw : W p.key
    · exact ⟨p, hp, hw, Twin.refl p, fun _ => rfl⟩
    · obtain ⟨hi, k', hk', -, hs⟩ := hRW _ hR hw
      obtain ⟨w, hwa, rfl⟩ := hWa k' hk'
      exact ⟨w, hwa, hk', twin' _ _ (twin w hwa p hp hi ⟨hs.1.symm, hs.2.symm⟩), fun h => absurd h hw⟩
  have toR : ∀ p ∈ avail, W p.key → ∃ q ∈ avail, R q.key ∧ Twin p q := by
    intro p hp hw
    by_cases hR : R p.key
    · exact ⟨p, hp, hR, Twin.refl p⟩
    · obtain ⟨-, k', hi, hs, hk'⟩ := hWR _ hw hR
      obtain ⟨q, hq, rfl⟩ := hinst k' hi
      exact ⟨q, hq, hk', twin p hp q hq hi ⟨hs.1.symm, hs.2.symm⟩⟩
  have havail : ∀ k, R k → ∃ p ∈ avail, p.key = k := by
    intro k hk
    by_cases hw : W k
    · exact hWa k hw
    · exact hinst k (hRW k hk hw).1
  have hnames : ∀ k k', R k → R k' → k.name = k'.name → k = k' := by
    intro k k' hk hk' hn
    -- a package that replaces another one, and one that replaces none, have different names
    have mixed : ∀ k k', R k → R k' → k.name = k'.name → W k → ¬ W k' → False := by
      intro k k' hk hk' hn hw hw'
      obtain ⟨hi, w, hww, hni, hs⟩ := hRW k' hk' hw'
      have e : k = w := hW.consistent.names k w hw hww (hn.trans hs.1)
      subst e
      exact hRI k k' hk hni hi hs
    by_cases hw : W k <;> by_cases hw' : W k'
    · exact hW.consistent.names k k' hw hw' hn
    · exact (mixed k k' hk hk' hn hw hw').elim
    · exact (mixed k' k hk' hk hn.symm hw' hw).elim
    · obtain ⟨hi, w, hww, -, hs⟩ := hRW k hk hw
      obtain ⟨hi', w', hww', -, hs'⟩ := hRW k' hk' hw'
      have e : w = w' := hW.consistent.names w w' hww hww' (by rw [← hs.1, ← hs'.1]; exact hn)
      subst e
      exact hM.unique k k' hi hi' ⟨hn, hs.2.trans hs'.2.symm⟩
  refine ⟨⟨havail, ?_, hnames, ?_⟩, ?_⟩
  · intro k hk t ht
    obtain ⟨p, hp, rfl⟩ := havail k hk
    obtain ⟨w, hwa, hww, hpw, -⟩ := toW p hp hk
    obtain ⟨d, hd, hdW, hne, req, h1, h2⟩ := hW.consistent.deps w.key hww t (by
      have : w.key.installRequires = p.key.installRequires := hpw.2.2.1.symm
      rw [this]; exact ht)
    obtain ⟨e, he, heR, hde⟩ := toR d hd hdW
    refine ⟨e, he, heR, ?_, req, h1, hde.meets h2⟩
    intro hep
    apply hne
    refine hW.consistent.names _ _ hdW hww ?_
    have h3 : e.name = p.name := congrArg PKey.name hep
    show d.name = w.name
    rw [hde.1, h3, hpw.1]
  · intro k hk t ht q hq hqR hne ⟨req, h1, h2⟩
    obtain ⟨p, hp, rfl⟩ := havail k hk
    obtain ⟨w, hwa, hww, hpw, -⟩ := toW p hp hk
    obtain ⟨v, hva, hvW, hqv, -⟩ := toW q hq hqR
    refine hW.consistent.conflicts w.key hww t ?_ v hva hvW ?_ ⟨req, h1, hqv.meets h2⟩
    · have : w.key.conflicts = p.key.conflicts := hpw.2.2.2.1.symm
      rw [this]; exact ht
    · intro e
      apply hne
      refine hnames _ _ hqR hk ?_
      have h3 : v.name = w.name := congrArg PKey.name e
      show q.name = p.name
      rw [hqv.1, h3, hpw.1]
  · exact twin_jobs hM hWa hW.jobs hinst hRW hWR

end Verif.Solve
