import Verif.Solve.ResultLemmas
import Verif.Rules.Total
/-
Which exceptions the stages of `solve` can raise on well-formed input.
-/
set_option linter.unusedSectionVars false
namespace Verif.Solve
open Verif Verif.Pkg Verif.Graph Verif.Rules Verif.Props Verif.Sat
open Relation

variable {N S U : Type} [LinearOrder N] [DecidableEq S] [LinearOrder U] [Syntax S U]

section
variable {pool : Pool N S U} {avail : List (Package N S U)} (hok : pool.OK avail)
include hok

theorem jobIds_total (inst : Repository N S U) {js : List (Job N U)} (hj : ∀ j ∈ js, JobPossible avail j) (ids : List Nat)
    (soft : List (Package N S U)) : ∃ x, jobIds pool inst js ids soft = .ok x := by
  induction js generalizing ids soft with
  | nil => exact ⟨_, rfl⟩
  | cons j js ih =>
    obtain ⟨hk, r, hr, p, hp, hm⟩ := hj j (by simp)
    obtain ⟨ps, h1⟩ := whatProvides_false pool r
    have hmem := (Run.mem_jobProviders (R := ⟨pool, avail, [], []⟩) hok h1 p).2 ⟨hp, hm⟩
    have hne : ps.isEmpty = false := by
      cases ps with
      | nil => simp at hmem
      | cons a t => rfl
    have ih' := fun ids soft => ih (fun j hj' => hj j (by simp [hj'])) ids soft
    simp only [jobIds, if_neg hk, hr, h1, hne, bind, Except.bind, Bool.false_eq_true, if_false]
    split
    · obtain ⟨q, hq, h2⟩ := maxPkg_total (key := hardKey inst) (ps := ps) (by rintro rfl; simp at hmem)
        (fun x _ => ⟨_, rfl⟩)
      obtain ⟨i, h3⟩ := id_of_mem hok (provider_mem hok h1 q hq)
      simp only [h2, Except.map, mapE, h3]
      exact ih' _ _
    · obtain ⟨more, h3⟩ := mapE_ok_of (f := pool.packageId) (xs := ps)
        (fun x hx => id_of_mem hok (provider_mem hok h1 x hx))
      simp only [h3]
      exact ih' _ _

/-- a job for which there is no package -/
theorem jobIds_noPackage (inst : Repository N S U) {js : List (Job N U)}
    (hp : ∀ j ∈ js, j.kind ≠ .upgrade ∧ ∃ r, j.requirement = some r) (hn : ∃ j ∈ js, ¬ JobPossible avail j) (ids : List Nat)
    (soft : List (Package N S U)) : jobIds pool inst js ids soft = .error .noPackageFound := by
  induction js generalizing ids soft with
  | nil => simp at hn
  | cons j js ih =>
    obtain ⟨hk, r, hr⟩ := hp j (by simp)
    obtain ⟨ps, h1⟩ := whatProvides_false pool r
    have hmem := Run.mem_jobProviders (R := ⟨pool, avail, [], []⟩) hok h1
    simp only [jobIds, if_neg hk, hr, h1, bind, Except.bind]
    cases ps with
    | nil => simp
    | cons p ps =>
      have hposs : JobPossible avail j := ⟨hk, r, hr, p, ((hmem p).1 (by simp)).1, ((hmem p).1 (by simp)).2⟩
      have hn' : ∃ j ∈ js, ¬ JobPossible avail j := by
        obtain ⟨j', h2, h3⟩ := hn
        rcases List.mem_cons.1 h2 with rfl | h2
        · exact absurd hposs h3
        · exact ⟨j', h2, h3⟩
      have ih' := fun ids soft => ih (fun j hj' => hp j (by simp [hj'])) hn' ids soft
      simp only [List.isEmpty_cons, Bool.false_eq_true, if_false]
      split
      · obtain ⟨q, hq, h2⟩ := maxPkg_total (key := hardKey inst) (ps := p :: ps) (by simp) (fun x _ => ⟨_, rfl⟩)
        obtain ⟨i, h3⟩ := id_of_mem hok (provider_mem hok h1 q hq)
        simp only [h2, Except.map, mapE, h3]
        exact ih' _ _
      · obtain ⟨more, h3⟩ := mapE_ok_of (f := pool.packageId) (xs := p :: ps)
          (fun x hx => id_of_mem hok (provider_mem hok h1 x hx))
        simp only [h3]
        exact ih' _ _

theorem installedDict_total {ps : List (Package N S U)} (hp : ∀ p ∈ ps, ∃ i, pool.packageId p = .ok i)
    (d : Dict Nat (Package N S U)) : ∃ d', installedDict pool ps d = .ok d' := by
  induction ps generalizing d with
  | nil => exact ⟨d, rfl⟩
  | cons p ps ih =>
    obtain ⟨i, hi⟩ := hp p (by simp)
    simp only [installedDict, hi, bind, Except.bind]
    exact ih (fun x hx => hp x (by simp [hx])) _

theorem preferIds_total {order : List Nat → List Nat} (ho : ∀ l, (order l).Perm l) {inst : List (Package N S U)}
    (hp : ∀ p ∈ inst, ∃ i, pool.packageId p = .ok i) (soft : List (Package N S U)) :
    ∃ l, preferIds pool order inst soft = .ok l := by
  obtain ⟨ids, h1⟩ := mapE_ok_of (f := pool.packageId) (xs := inst.filter (fun p => !(soft.any (fun q => p.same q))))
    (fun x hx => hp x (List.mem_filter.1 hx).1)
  unfold preferIds
  simp only [h1, bind, Except.bind]
  split
  · next e he =>
    obtain ⟨i, hi, hfi⟩ := mapE_error he
    rw [(ho _).mem_iff, mem_fromkeys, mem_mapE h1] at hi
    obtain ⟨p, -, hpi⟩ := hi
    obtain ⟨-, -, q, hq, -⟩ := hok.ids.packageId_spec hpi
    simp only [hq] at hfi
    simp at hfi
  · exact ⟨_, rfl⟩

end

section
variable {rs : List (Repository N S U)} {s : DependencySolver N S U} (hs : SolverFor rs s)

/-- on well-formed input the rules can be made -/
theorem createRules_total {m : Option (Modifiers N)} {pool : Pool N S U} (hb : Built rs m pool) (hstrict : s.strict = false)
    (hr : ∀ p ∈ allPackages rs, Readable m p) (hi : ∀ k, InstalledKeys s k → ∃ q ∈ allPackages rs, q.key = k)
    (o : Orders) {q : Request N U} (hj : ∀ j ∈ q.jobs, JobPossible (allPackages rs) j) :
    ∃ st, createRules s o pool q = .ok st := by
  have hi' : ∀ p ∈ s.installed.iter, ∃ q ∈ allPackages rs, q.key = p.key := fun p hp => hi p.key ⟨p, hp, rfl⟩
  have hid : ∀ p ∈ s.installed.iter, ∃ i, pool.packageId p = .ok i := fun p hp => hb.ok.ids.packageId_ok (hi' p hp)
  obtain ⟨⟨ids, soft⟩, h1⟩ := jobIds_total hb.ok s.installed hj [] []
  obtain ⟨d, h2⟩ := installedDict_total hb.ok hid []
  obtain ⟨pr, h3⟩ := preferIds_total hb.ok o.preferPerm hid soft
  obtain ⟨d1, -, -⟩ := installedDict_spec h2 (by intro e he; simp at he)
  obtain ⟨g, h4⟩ := iterRules_total hb.ok (by rw [hb.modifiers]; exact hr) (jobs := q.jobs) (installed := d) hj (by
    intro kv hkv
    have : InstalledSet d kv.2.key := ⟨kv, hkv, rfl⟩
    rw [installedSet_iff hb.ok h2] at this
    obtain ⟨p, hp, hk⟩ := this
    obtain ⟨q, hq, hqk⟩ := hi' p hp
    exact ⟨q, hq, hqk.trans hk⟩)
  unfold createRules
  simp only [h1, h2, h3, h4, hstrict, bind, Except.bind]
  exact ⟨_, rfl⟩

end

/-! ### pruning -/

theorem includeAll_total {pop : PopOrder Int} {f : Int → Except PErr (List Int)} {V : List Int}
    (hV : ∀ x ∈ V, ∀ y, Step f x y → y ∈ V) {fuel : Nat} (hf : V.length + 1 < fuel) {rs visited : List Int}
    (hr : ∀ r ∈ rs, r ∈ V) (hok : ∀ r ∈ rs, ∀ x, ReflTransGen (Step f) r x → ∃ nb, f x = .ok nb) :
    ∃ l, includeAll pop f fuel rs visited = .ok l := by
  induction rs generalizing visited with
  | nil => exact ⟨visited, rfl⟩
  | cons r rs ih =>
    simp only [includeAll]
    have hreach : ∀ x, ReflTransGen (Step f) r x → x ∈ V := by
      intro x hx
      induction hx with
      | refl => exact hr r (by simp)
      | tail _ hs ih => exact hV _ ih _ hs
    rcases connectedNodes_spec pop f (V0 := visited) hreach hf with ⟨l', h1, h2⟩ | ⟨x, e, h1, h2, h3⟩
    · simp only [h1]
      exact ih (fun x hx => hr x (by simp [hx])) (fun x hx => hok x (by simp [hx]))
    · obtain ⟨nb, hnb⟩ := hok r (by simp) x h2
      rw [h3] at hnb; simp at hnb

section
variable {rs : List (Repository N S U)} {s : DependencySolver N S U} {m : Option (Modifiers N)} {jobs : List (Job N U)}
  {pool : Pool N S U} {st : Setup N S U} {a : ASet} {installed : List Nat} {D : List Int}
  (h : Completed rs s m jobs pool st a installed D)
include h

/-- the dependencies of a chosen package are met by packages that the solution selects -/
theorem Completed.dep_selected
    (hP : ∀ p ∈ allPackages rs, ∀ q ∈ allPackages rs, p.key = q.key → ∀ n, Provides p n → Provides q n) {l : Int} (hl : ChosenLit rs pool st a l) {p : Package N S U}
    (hpg : pool.idToPkg l.natAbs = .ok p) {t : CTuple N S} (ht : t ∈ p.installRequires) :
    ∃ j : Nat, (j : Int) ∈ solutionToIds a ∧ 0 < j ∧ ∃ d, pool.idToPkg j = .ok d ∧ Provides d t.1 := by
  obtain ⟨h0, hv, hch⟩ := hl
  obtain ⟨q, hq, hqi⟩ := h.found.known l (by rw [hv]; simp)
  obtain ⟨p1, hpa, h2, hpi⟩ := h.get ⟨q.key, q, rfl, hqi⟩
  rw [hpg] at h2; cases h2
  have hc := hch p hpa hpi
  obtain ⟨hadd, hm⟩ := (h.chosen_iff hpi).1 hc
  obtain ⟨d, hd, hdI, hne, req, hreq, hdm⟩ := h.chosen_valid.consistent.deps p.key hc t ht
  have hdn : Provides d t.1 := by
    have := hdm.1
    rwa [(fromConstraints_name hreq).1] at this
  obtain ⟨hcl, -, -⟩ := iterRules_spec h.setup.gen
  obtain ⟨p', hp', hdeps, -⟩ := hcl _ hadd
  have hkey : p'.key = p.key := h.built.ok.ids.packageId_inj hp' hpi
  obtain ⟨j, hj⟩ := h.built.ok.ids.packageId_ok ⟨d, hd, rfl⟩
  have hmd := ((h.chosen_iff hj).1 hdI).2
  have hvar : (j : Int) ∈ varsOf st.clauses := by
    rcases hdeps with hb | hb
    · exfalso
      have := h.sat' _ (by
        obtain ⟨rule, h3, h4⟩ := hb
        exact List.mem_map.2 ⟨rule, h3, h4⟩)
      obtain ⟨x, hx1, hx2⟩ := this
      rw [mem_sortBy, List.mem_singleton] at hx1
      subst hx1
      rw [Run.litTrue_negId, hm] at hx2
      simp at hx2
    · obtain ⟨req', cands, ids, h3, h4, h5, h6, -⟩ := hb t (by rw [(key_fields hkey).2.2.1]; exact ht)
      obtain ⟨rule, h7, h8⟩ := h6
      have hmod := h.built.modifiers
      have hdc : d ∈ cands := by
        rw [mem_whatProvides h.built.ok h4]
        rw [hreq] at h3
        cases h3
        exact ⟨hd, by rw [hmod]; exact hdm⟩
      rw [mem_varsOf]
      refine ⟨rule.literals, List.mem_map.2 ⟨rule, h7, rfl⟩, (j : Int), ?_, ?_⟩
      · rw [h8, mem_sortBy]
        right
        exact (candidateIds_spec h5 _).2 ⟨d, hdc, by rw [hkey]; exact hne, j, hj, rfl⟩
      · unfold iabs; omega
  have hval := h.m'_true hmd hvar
  obtain ⟨d', hda, hdg, hdi⟩ := h.get ⟨d.key, d, rfl, hj⟩
  exact ⟨j, (h.found.pos j).2 hval, (h.built.ok.ids.packageId_spec hj).1, d', hdg,
    hP d hd d' hda (h.built.ok.ids.packageId_inj hj hdi) _ hdn⟩

/-- under the conditions, pruning raises nothing -/
theorem Completed.prune_total (hE : Exclusive (allPackages rs) m) (hT : Tidy (allPackages rs) (InstalledKeys s) jobs)
    (hP : ∀ p ∈ allPackages rs, ∀ q ∈ allPackages rs, p.key = q.key → ∀ n, Provides p n → Provides q n) (o : Orders)
    {rootIds : List Nat} (hroot : ∀ i, i ∈ rootIds ↔ i ∈ st.requirementIds ∨ i ∈ installed) :
    ∃ D', connectedPackages o pool (solutionToIds a) rootIds = .ok D' := by
  have hget : ∀ i : Nat, (∃ k, IdOf pool k i) → ∃ p, pool.idToPkg i = .ok p := fun i hi => by
    obtain ⟨p, -, h1, -⟩ := h.get hi
    exact ⟨p, h1⟩
  have hsol : ∀ l ∈ solutionToIds a, ∃ p, pool.idToPkg l.natAbs = .ok p := by
    intro l hl
    have : a.value l ≠ none := by
      rcases h.found.lits l hl with ⟨-, h1⟩ | ⟨-, h1⟩
      · rw [h1]; simp
      · rw [h.found.opp] at h1
        intro h2
        rw [h2] at h1; simp at h1
    obtain ⟨q, -, hqi⟩ := h.found.known l this
    exact hget _ ⟨q.key, q, rfl, hqi⟩
  obtain ⟨rootNames, hrn⟩ := mapE_ok_of (f := fun (i : Nat) => getNames pool (i : Int)) (xs := rootIds) (by
    intro i hi
    have hknown : ∃ k, IdOf pool k i := by
      rcases (hroot i).1 hi with hi | hi
      · obtain ⟨j, -, p, -, hp⟩ := (h.setup.reqs i).1 hi
        exact ⟨p.key, p, rfl, hp⟩
      · exact h.hI i hi
    obtain ⟨p, hp⟩ := hget i hknown
    unfold getNames
    rw [Int.natAbs_natCast, hp]
    exact ⟨_, rfl⟩)
  obtain ⟨items, hit⟩ := mapE_ok_of (f := nameItems pool) (xs := solutionToIds a) (by
    intro l hl
    obtain ⟨p, hp⟩ := hsol l hl
    unfold nameItems getNames
    simp only [hp]
    exact ⟨_, rfl⟩)
  have hsound := fun n l => @nameToId_sound _ _ _ _ _ _ _ _ _ _ hit n l
  have hset := fun l => @rootSet_iff _ _ _ _ _ _ _ pool items rootIds rootNames hrn l
  unfold connectedPackages
  simp only [hrn, hit]
  generalize fromkeys (((dictOf items.flatten).filter
      (fun nl => decide (nl.1 ∈ rootNames.flatten))).map Prod.snd) = roots at hset ⊢
  have hrootc : ∀ r ∈ roots, ChosenLit rs pool st a r := by
    intro r hr
    rw [hset] at hr
    obtain ⟨n, h1, i, hi, p, hp, hn⟩ := hr
    exact h.prune_root hE hT hsound ((hroot i).1 hi) hp hn h1
  have hstep : ∀ x y, ChosenLit rs pool st a x → Step (neighborFunc pool (dictOf items.flatten)) x y →
      ChosenLit rs pool st a y := by
    rintro x y hx ⟨nb, h1, h2⟩
    obtain ⟨-, p, hp, -, h3⟩ := neighborFunc_ok h1
    obtain ⟨t, ht, h4⟩ := h3 y h2
    exact h.prune_step hE hsound hx hp ht h4
  have hok : ∀ x, ChosenLit rs pool st a x → ∃ nb, neighborFunc pool (dictOf items.flatten) x = .ok nb := by
    intro x hx
    obtain ⟨q, hq, hqi⟩ := h.found.known x (by rw [hx.2.1]; simp)
    obtain ⟨p, hp⟩ := hget _ ⟨q.key, q, rfl, hqi⟩
    obtain ⟨ls, hls⟩ := mapE_ok_of (f := depNeighbors (dictOf items.flatten)) (xs := p.installRequires) (by
      intro t ht
      obtain ⟨j, h1, h2, d, h3, h4⟩ := h.dep_selected hP hx hp ht
      obtain ⟨l', h5⟩ := nameToId_complete hit h1 (by omega) (by rw [Int.natAbs_natCast]; exact h3) h4
      exact ⟨l', (depNeighbors_iff t l').2 h5⟩)
    unfold neighborFunc
    simp only [if_pos hx.1, hp, hls]
    exact ⟨_, rfl⟩
  have hV : ∀ x ∈ solutionToIds a, ∀ y, Step (neighborFunc pool (dictOf items.flatten)) x y → y ∈ solutionToIds a := by
    rintro x - y ⟨nb, h1, h2⟩
    obtain ⟨-, p, -, -, h3⟩ := neighborFunc_ok h1
    obtain ⟨t, -, h4⟩ := h3 y h2
    exact (hsound _ _ h4).1
  have hrV : ∀ r ∈ roots, r ∈ solutionToIds a := by
    intro r hr
    rw [hset] at hr
    obtain ⟨n, h1, -⟩ := hr
    exact (hsound _ _ h1).1
  obtain ⟨inc, hinc⟩ := includeAll_total (pop := o.pop) hV (fuel := (solutionToIds a).length + 2) (by omega)
    (rs := o.roots roots) (visited := [])
    (fun r hr => hrV r ((o.rootsPerm _).mem_iff.1 hr)) (by
      intro r hr x hx
      have hr' := hrootc r ((o.rootsPerm _).mem_iff.1 hr)
      apply hok
      induction hx with
      | refl => exact hr'
      | tail _ hs ih => exact hstep _ _ ih hs)
  have hI := includeAll_spec hV (done := []) (by omega) (fun r hr => hrV r ((o.rootsPerm _).mem_iff.1 hr))
    ⟨by simp, by simp, by simp⟩ hinc
  simp only [hinc]
  rw [if_pos]
  · exact ⟨_, rfl⟩
  · rw [List.all_eq_true]
    intro r hr
    rw [decide_eq_true_eq]
    exact hI.start r (by simpa using (o.rootsPerm _).mem_iff.2 hr)

end

end Verif.Solve
