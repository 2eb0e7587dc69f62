import Verif.Rules.Update
import Verif.Sat.Spec
/-
The rules and the valid installations: every valid installation satisfies the rules, and every assignment that satisfies
the rules gives a valid installation.
-/
set_option linter.unusedSectionVars false
namespace Verif.Rules
open Verif Verif.Pkg Verif.Props Verif.Sat

variable {N S U : Type} [LinearOrder N] [DecidableEq S] [LinearOrder U] [Syntax S U]

namespace Run
variable {R : Run N S U} (hok : R.pool.OK R.avail)

/-- the packages that were selected and whose rules were generated -/
def Selected (R : Run N S U) (added : List Nat) (m : Nat → Bool) (k : PKey N S U) : Prop :=
  ∃ p ∈ R.avail, p.key = k ∧ ∃ i ∈ added, R.pool.packageId p = .ok i ∧ m i = true

theorem litTrue_pos {m : Nat → Bool} {i : Nat} (h : 0 < i) : litTrue m (i : Int) ↔ m i = true := by
  unfold litTrue; simp [h]

theorem litTrue_negId {m : Nat → Bool} {i : Nat} : litTrue m (-(i : Int)) ↔ m i = false := by
  unfold litTrue
  have : decide (0 < -(i : Int)) = false := by simp
  rw [this]; simp

include hok

theorem id_pos {p : Package N S U} {i : Nat} (h : R.pool.packageId p = .ok i) : 0 < i :=
  (hok.ids.packageId_spec h).1

/-- a package that has an id is, up to equality, available -/
theorem id_avail {p : Package N S U} {i : Nat} (h : R.pool.packageId p = .ok i) : ∃ q ∈ R.avail, q.key = p.key := by
  obtain ⟨-, -, q, -, h1, h2, -⟩ := hok.ids.packageId_spec h
  exact ⟨q, h2, h1⟩

theorem avail_id {p : Package N S U} (h : p ∈ R.avail) : ∃ i, R.pool.packageId p = .ok i :=
  hok.ids.packageId_ok ⟨p, h, rfl⟩

theorem meetsDep_iff {t : CTuple N S} {req : Requirement N U} (hreq : fromConstraints .install t = .ok req)
    {cands : List (Package N S U)} (hc : R.pool.whatProvides req = .ok cands) {q : Package N S U} (hq : q ∈ R.avail) :
    q ∈ cands ↔ MeetsDep R.pool.modifiers t q := by
  rw [mem_whatProvides hok hc]
  unfold MeetsDep
  rw [hreq]
  simp [hq]

theorem meetsConflict_iff {t : CTuple N S} {req : Requirement N U} (hreq : fromConstraints .conflict t = .ok req)
    {cands : List (Package N S U)} (hc : R.pool.whatProvides req = .ok cands) {q : Package N S U} (hq : q ∈ R.avail) :
    q ∈ cands ↔ MeetsConflict R.pool.modifiers t q := by
  rw [mem_whatProvides hok hc]
  unfold MeetsConflict
  rw [hreq]
  simp [hq]

omit hok in
theorem satC_sort {m : Nat → Bool} {lits : List Int} {reason : Reason} {reqs : Reqs N U} :
    SatC m (mkRule lits reason reqs).literals ↔ SatC m lits := by
  unfold SatC mkRule
  simp

theorem rule_sound (hinst : ∀ e ∈ R.installed, R.pool.packageId e.2 = .ok e.1) {I : PKey N S U → Prop}
    (hI : ValidInstall R.avail R.pool.modifiers R.isInst R.jobs I) {m : Nat → Bool}
    (hm : ∀ p i, R.pool.packageId p = .ok i → (m i = true ↔ I p.key)) {rule : Rule N U} (h : R.Just rule) :
    SatC m rule.literals := by
  cases h with
  | @requires p reqs t req cands i ids ho ht hreq hc hne hi hids =>
    rw [satC_sort]
    by_cases hp : I p.key
    · obtain ⟨q, hq, hIq, hk, hmeet⟩ := hI.consistent.deps _ hp t ht
      obtain ⟨j, hj⟩ := avail_id hok hq
      refine ⟨(j : Int), List.mem_cons_of_mem _ ?_, ?_⟩
      · rw [candidateIds_spec hids]
        exact ⟨q, (meetsDep_iff hok hreq hc hq).2 hmeet, hk, j, hj, rfl⟩
      · rw [litTrue_pos (id_pos hok hj), hm q j hj]; exact hIq
    · refine ⟨-(i : Int), by simp, ?_⟩
      rw [litTrue_negId, ← Bool.not_eq_true, hm p i hi]; exact hp
  | @broken p reqs t req i ho ht hreq hc hi =>
    rw [satC_sort]
    refine ⟨-(i : Int), by simp, ?_⟩
    rw [litTrue_negId, ← Bool.not_eq_true, hm p i hi]
    intro hp
    obtain ⟨q, hq, hIq, hk, hmeet⟩ := hI.consistent.deps _ hp t ht
    have := (meetsDep_iff hok hreq hc hq).2 hmeet
    simp at this
  | @sameName p reqs q i j ho hname hk hi hj =>
    rw [satC_sort]
    by_cases hp : I p.key
    · refine ⟨-(j : Int), by simp, ?_⟩
      rw [litTrue_negId, ← Bool.not_eq_true, hm q j hj]
      intro hq
      exact hk (hI.consistent.names _ _ hq hp hname)
    · refine ⟨-(i : Int), by simp, ?_⟩
      rw [litTrue_negId, ← Bool.not_eq_true, hm p i hi]; exact hp
  | @conflict p reqs t req cands q i j ho ht hreq hc hq hk hi hj =>
    rw [satC_sort]
    by_cases hp : I p.key
    · refine ⟨-(j : Int), by simp, ?_⟩
      rw [litTrue_negId, ← Bool.not_eq_true, hm q j hj]
      intro hIq
      have hqa := ((mem_whatProvides hok hc q).1 hq).1
      exact hI.consistent.conflicts _ hp t ht q hqa hIq hk ((meetsConflict_iff hok hreq hc hqa).1 hq)
    · refine ⟨-(i : Int), by simp, ?_⟩
      rw [litTrue_negId, ← Bool.not_eq_true, hm p i hi]; exact hp
  | @jobInstall j r ps ids hj hk hr hps hne hids =>
    rw [satC_sort]
    obtain ⟨r', hr', hs⟩ := hI.jobs j hj
    rw [hr] at hr'
    cases hr'
    have : ∃ q ∈ R.avail, I q.key ∧ MeetsJob r q := by
      rcases hk with hk | hk <;> rw [hk] at hs <;> exact hs
    obtain ⟨q, hq, hIq, hmeet⟩ := this
    obtain ⟨i, hi⟩ := avail_id hok hq
    refine ⟨(i : Int), ?_, ?_⟩
    · rw [idsOfAll_spec hids]
      exact ⟨q, (mem_jobProviders hok hps q).2 ⟨hq, hmeet⟩, i, hi, rfl⟩
    · rw [litTrue_pos (id_pos hok hi), hm q i hi]; exact hIq
  | @jobRemove j r ps p i hj hk hr hps hp hi =>
    rw [satC_sort]
    obtain ⟨r', hr', hs⟩ := hI.jobs j hj
    rw [hr] at hr'
    cases hr'
    rw [hk] at hs
    refine ⟨-(i : Int), by simp, ?_⟩
    rw [litTrue_negId, ← Bool.not_eq_true, hm p i hi]
    intro hIp
    obtain ⟨h1, h2⟩ := (mem_jobProviders hok hps p).1 hp
    exact hs p h1 hIp h2
  | @jobUpdate j r ps p i hj hk hr hps hp hi =>
    rw [satC_sort]
    obtain ⟨r', hr', hs⟩ := hI.jobs j hj
    rw [hr] at hr'
    cases hr'
    rw [hk] at hs
    refine ⟨(i : Int), by simp, ?_⟩
    rw [litTrue_pos (id_pos hok hi), hm p i hi]
    exact hs p (maxPkg_target hok hinst hps hp)

theorem rules_sound (hinst : ∀ e ∈ R.installed, R.pool.packageId e.2 = .ok e.1) {I : PKey N S U → Prop}
    (hI : ValidInstall R.avail R.pool.modifiers R.isInst R.jobs I) {m : Nat → Bool}
    (hm : ∀ p i, R.pool.packageId p = .ok i → (m i = true ↔ I p.key)) {strict : Bool} {g : Gen N U}
    (h : iterRules strict R.pool R.jobs R.installed = .ok g) : Sat m (g.rules.map Rule.literals) := by
  intro c hc
  obtain ⟨rule, h1, rfl⟩ := List.mem_map.1 hc
  exact rule_sound hok hinst hI hm ((iterRules_good hok h).just rule h1)

omit hok in
theorem sat_has {m : Nat → Bool} {rules : List (Rule N U)} (hs : Sat m (rules.map Rule.literals)) {lits : List Int}
    (h : Has rules lits) : SatC m lits := by
  obtain ⟨r, h1, h2⟩ := h
  obtain ⟨l, h3, h4⟩ := hs _ (List.mem_map.2 ⟨r, h1, rfl⟩)
  rw [h2, mem_sortBy] at h3
  exact ⟨l, h3, h4⟩

omit hok in
theorem not_both {m : Nat → Bool} {rules : List (Rule N U)} (hs : Sat m (rules.map Rule.literals)) {i j : Nat}
    (h : Has rules [-(i : Int), -(j : Int)]) (hi : m i = true) (hj : m j = true) : False := by
  obtain ⟨l, h1, h2⟩ := sat_has hs h
  rw [List.mem_cons, List.mem_singleton] at h1
  rcases h1 with rfl | rfl
  · rw [litTrue_negId, hi] at h2; cases h2
  · rw [litTrue_negId, hj] at h2; cases h2

/-- the same-name requirement has as candidates all providers of the name -/
theorem name_cands {n : N} {cands : List (Package N S U)}
    (hc : R.pool.whatProvides (Requirement.ofName .conflict n) = .ok cands) {q : Package N S U} (hq : q ∈ R.avail)
    (hn : q.name = n) : q ∈ cands := by
  rw [mem_whatProvides hok hc]
  refine ⟨hq, Or.inl hn.symm, Requirement.ofName .conflict n, ?_, ?_⟩
  · unfold Looked
    split
    · rfl
    · rfl
  · intro c hc
    simp only [Requirement.ofName, List.mem_singleton] at hc
    subst hc
    trivial

theorem selected_id {added : List Nat} {m : Nat → Bool} {p : Package N S U} {i : Nat}
    (hi : R.pool.packageId p = .ok i) (ha : i ∈ added) (hm : m i = true) : R.Selected added m p.key := by
  obtain ⟨q, h1, h2⟩ := id_avail hok hi
  exact ⟨q, h1, h2, i, ha, by rw [R.pool.packageId_congr h2]; exact hi, hm⟩

omit hok in
theorem id_of_selected {added : List Nat} {m : Nat → Bool} {p : Package N S U} {i : Nat}
    (h : R.Selected added m p.key) (hi : R.pool.packageId p = .ok i) : i ∈ added ∧ m i = true := by
  obtain ⟨q, -, h2, j, h3, h4, h5⟩ := h
  rw [R.pool.packageId_congr h2, hi] at h4
  cases h4
  exact ⟨h3, h5⟩

theorem selected_consistent {g : Gen N U} (hcl : Closed R.pool g []) {m : Nat → Bool}
    (hs : Sat m (g.rules.map Rule.literals)) : Consistent R.avail R.pool.modifiers (R.Selected g.added m) := by
  -- what the generator knows about a selected package
  have key : ∀ p, R.Selected g.added m p.key → ∃ i, R.pool.packageId p = .ok i ∧ i ∈ g.added ∧ m i = true ∧
      ∃ p', p'.key = p.key ∧
        (∀ t ∈ p.installRequires, DepDone R.pool g.rules (Pushed R.pool g.added []) p' i t) ∧
        NameDone R.pool g.rules p' i ∧ ∀ t ∈ p.conflicts, ConfDone R.pool g.rules p' i t := by
    intro p hp
    obtain ⟨q, h1, h2, i, h3, h4, h5⟩ := hp
    obtain ⟨p', k1, k2, k3, k4⟩ := hcl i h3
    have hk : p'.key = p.key := by rw [← h2]; exact hok.ids.packageId_inj k1 h4
    have hf := key_fields hk
    refine ⟨i, by rw [← R.pool.packageId_congr h2]; exact h4, h3, h5, p', hk, ?_, k3, ?_⟩
    · rcases k2 with k2 | k2
      · obtain ⟨l, a, b⟩ := sat_has hs k2
        rw [List.mem_singleton] at a
        subst a
        rw [litTrue_negId, h5] at b; cases b
      · intro t ht
        apply k2
        have : p'.installRequires = p.installRequires := congrArg PKey.installRequires hk
        rw [this]; exact ht
    · intro t ht
      apply k4
      have : p'.conflicts = p.conflicts := congrArg PKey.conflicts hk
      rw [this]; exact ht
  have rep : ∀ k, R.Selected g.added m k → ∃ p ∈ R.avail, p.key = k := by
    rintro k ⟨p, h1, h2, -⟩
    exact ⟨p, h1, h2⟩
  refine ⟨rep, ?_, ?_, ?_⟩
  · intro k hk t ht
    obtain ⟨p, hp, rfl⟩ := rep k hk
    obtain ⟨i, -, -, hmi, p', hk', hdep, -, -⟩ := key p hk
    obtain ⟨req, cands, ids, h1, h2, h3, h4, h5⟩ := hdep t ht
    obtain ⟨l, h6, h7⟩ := sat_has hs h4
    rcases List.mem_cons.1 h6 with rfl | h6
    · rw [litTrue_negId, hmi] at h7; cases h7
    · rw [candidateIds_spec h3] at h6
      obtain ⟨d, hd, hdk, j, hj, rfl⟩ := h6
      rw [litTrue_pos (id_pos hok hj)] at h7
      have hda := ((mem_whatProvides hok h2 d).1 hd).1
      refine ⟨d, hda, ?_, ?_, (meetsDep_iff hok h1 h2 hda).1 hd⟩
      · rcases h5 d hd with ⟨j', hj', ha⟩ | ⟨e, he, -⟩
        · rw [hj] at hj'
          cases hj'
          exact selected_id hok hj ha h7
        · simp at he
      · rw [← hk']; exact hdk
  · intro k k' hk hk' hn
    obtain ⟨p, hp, rfl⟩ := rep k hk
    obtain ⟨q, hq, rfl⟩ := rep k' hk'
    apply Classical.byContradiction
    intro hne
    obtain ⟨i, -, -, hmi, p', hkp, -, hnd, -⟩ := key p hk
    obtain ⟨cands, h1, h2⟩ := hnd
    have hname : p'.name = p.name := congrArg PKey.name hkp
    obtain ⟨j, hj, hhas⟩ := h2 q (name_cands hok h1 hq (by rw [hname]; exact hn.symm))
      (by rw [hkp]; exact fun e => hne e.symm) (by rw [hname]; exact hn.symm)
    exact not_both hs hhas hmi (id_of_selected hk' hj).2
  · intro k hk t ht q hq hIq hne hmeet
    obtain ⟨p, hp, rfl⟩ := rep k hk
    obtain ⟨i, -, -, hmi, p', hkp, -, -, hcd⟩ := key p hk
    obtain ⟨req, cands, h1, h2, h3⟩ := hcd t ht
    obtain ⟨j, hj, hhas⟩ := h3 q ((meetsConflict_iff hok h1 h2 hq).2 hmeet) (by rw [hkp]; exact hne)
    exact not_both hs hhas hmi (id_of_selected hIq hj).2

theorem rules_complete (hinst : ∀ e ∈ R.installed, R.pool.packageId e.2 = .ok e.1) {strict : Bool} {g : Gen N U}
    (h : iterRules strict R.pool R.jobs R.installed = .ok g) {m : Nat → Bool}
    (hs : Sat m (g.rules.map Rule.literals)) :
    ValidInstall R.avail R.pool.modifiers R.isInst R.jobs (R.Selected g.added m) := by
  obtain ⟨hcl, hjobs, hins⟩ := iterRules_spec h
  refine ⟨selected_consistent hok hcl hs, ?_⟩
  have install : ∀ r, (∃ ps ids, R.pool.whatProvides r false = .ok ps ∧ ps ≠ [] ∧ idsOfAll R.pool ps = .ok ids ∧
      Has g.rules ids ∧ ∀ p ∈ ps, ∃ j, R.pool.packageId p = .ok j ∧ (j ∈ dkeys R.installed ∨ j ∈ g.added)) →
      ∃ q ∈ R.avail, R.Selected g.added m q.key ∧ MeetsJob r q := by
    rintro r ⟨ps, ids, h1, h2, h3, h4, h5⟩
    obtain ⟨l, h6, h7⟩ := sat_has hs h4
    rw [idsOfAll_spec h3] at h6
    obtain ⟨d, hd, j, hj, rfl⟩ := h6
    rw [litTrue_pos (id_pos hok hj)] at h7
    obtain ⟨ha, hmeet⟩ := (mem_jobProviders hok h1 d).1 hd
    refine ⟨d, ha, ?_, hmeet⟩
    obtain ⟨j', hj', hadd⟩ := h5 d hd
    rw [hj] at hj'
    cases hj'
    refine selected_id hok hj ?_ h7
    rcases hadd with hadd | hadd
    · unfold dkeys at hadd
      obtain ⟨e, he, rfl⟩ := List.mem_map.1 hadd
      obtain ⟨⟨j', hj', hadd⟩, -⟩ := hins e.2 (List.mem_map.2 ⟨e, he, rfl⟩)
      rw [hinst e he] at hj'
      cases hj'
      exact hadd
    · exact hadd
  intro j hj
  have hd := hjobs j hj
  unfold JobDone at hd
  split at hd
  · next r hk hr => exact ⟨r, hr, by rw [hk]; exact install r hd⟩
  · next r hk hr => exact ⟨r, hr, by rw [hk]; exact install r hd⟩
  · next r hk hr =>
    refine ⟨r, hr, ?_⟩
    rw [hk]
    obtain ⟨ps, h1, h2⟩ := hd
    intro q hq hI hmeet
    obtain ⟨i, hi, hhas⟩ := h2 q ((mem_jobProviders hok h1 q).2 ⟨hq, hmeet⟩)
    obtain ⟨l, h3, h4⟩ := sat_has hs hhas
    rw [List.mem_singleton] at h3
    subst h3
    rw [litTrue_negId, (id_of_selected hI hi).2] at h4; cases h4
  · next r hk hr =>
    refine ⟨r, hr, ?_⟩
    rw [hk]
    intro q hq
    obtain ⟨ps, h1, h2⟩ := hd
    rcases h2 with rfl | ⟨p, hp, i, hi, hhas, hadd⟩
    · obtain ⟨b, a, e, hmeet, -⟩ := hq
      have := (mem_jobProviders hok h1 q).2 ⟨by rw [e]; simp, hmeet⟩
      simp at this
    · have ht := maxPkg_target hok hinst h1 hp
      rw [updateTarget_unique hq ht]
      obtain ⟨l, h3, h4⟩ := sat_has hs hhas
      rw [List.mem_singleton] at h3
      subst h3
      rw [litTrue_pos (id_pos hok hi)] at h4
      exact selected_id hok hi hadd h4
  · exact hd.elim

end Run
end Verif.Rules
