import Verif.Solve.Model
import Verif.Solve.SolveSpec
import Verif.Props.RulesGen
import Verif.Props.Policies
import Verif.Props.SatCore
import Verif.Props.Repositories
import Verif.Props.Transactions
/-
What `_create_rules_and_initialize_policy` prepares, and what the search makes of it.
-/
set_option linter.unusedSectionVars false
namespace Verif.Solve
open Verif Verif.Pkg Verif.Graph Verif.Rules Verif.Props Verif.Sat

variable {N S U : Type} [LinearOrder N] [DecidableEq S] [LinearOrder U] [Syntax S U]

/-! ### the installed packages -/

theorem installedDict_spec {pool : Pool N S U} {ps : List (Package N S U)} {d d' : Dict Nat (Package N S U)}
    (h : installedDict pool ps d = .ok d') (hd : InstalledIds pool d) :
    InstalledIds pool d' ∧ (∀ i, i ∈ dkeys d' ↔ i ∈ dkeys d ∨ ∃ p ∈ ps, pool.packageId p = .ok i) ∧
      ∀ p ∈ ps, ∃ i, pool.packageId p = .ok i := by
  induction ps generalizing d with
  | nil =>
    simp only [installedDict, Except.ok.injEq] at h; subst h
    exact ⟨hd, by simp, by simp⟩
  | cons p ps ih =>
    simp only [installedDict, bind_ok] at h
    obtain ⟨i, hi, h⟩ := h
    have hd' : InstalledIds pool (dset d i p) := by
      rintro ⟨k, v⟩ he
      rcases mem_dset he with ⟨rfl, rfl⟩ | he
      · exact hi
      · exact hd _ he
    obtain ⟨h1, h2, h3⟩ := ih h hd'
    refine ⟨h1, fun j => ?_, ?_⟩
    · have e : j ∈ dkeys (dset d i p) ↔ j = i ∨ j ∈ dkeys d := by
        rw [dkeys_dset]; split
        · constructor
          · exact Or.inr
          · rintro (rfl | hj) <;> assumption
        · simp [or_comm]
      rw [h2, e]
      constructor
      · rintro ((rfl | hj) | ⟨q, hq, hj⟩)
        · exact Or.inr ⟨p, by simp, hi⟩
        · exact Or.inl hj
        · exact Or.inr ⟨q, by simp [hq], hj⟩
      · rintro (hj | ⟨q, hq, hj⟩)
        · exact Or.inl (Or.inr hj)
        · rcases List.mem_cons.1 hq with rfl | hq
          · rw [hi] at hj; cases hj; exact Or.inl (Or.inl rfl)
          · exact Or.inr ⟨q, hq, hj⟩
    · intro q hq
      rcases List.mem_cons.1 hq with rfl | hq
      · exact ⟨i, hi⟩
      · exact h3 q hq

theorem installedSet_iff {pool : Pool N S U} {avail : List (Package N S U)} (hok : pool.OK avail)
    {ps : List (Package N S U)} {d : Dict Nat (Package N S U)} (h : installedDict pool ps [] = .ok d)
    (k : PKey N S U) : InstalledSet d k ↔ ∃ p ∈ ps, p.key = k := by
  obtain ⟨h1, h2, h3⟩ := installedDict_spec h (by intro e he; simp at he)
  constructor
  · rintro ⟨e, he, rfl⟩
    have : e.1 ∈ dkeys d := List.mem_map.2 ⟨e, he, rfl⟩
    rw [h2] at this
    rcases this with h | ⟨p, hp, hi⟩
    · simp [dkeys] at h
    · exact ⟨p, hp, hok.ids.packageId_inj hi (h1 e he)⟩
  · rintro ⟨p, hp, rfl⟩
    obtain ⟨i, hi⟩ := h3 p hp
    have : i ∈ dkeys d := (h2 i).2 (Or.inr ⟨p, hp, hi⟩)
    obtain ⟨e, he, rfl⟩ := List.mem_map.1 this
    exact ⟨e, he, hok.ids.packageId_inj (h1 e he) hi⟩

/-! ### the jobs -/

theorem maxPkgFrom_congr {key key' : Package N S U → Except PErr (Version U × Bool)} {l : List (Package N S U)}
    (h : ∀ x ∈ l, key x = key' x) (b : Package N S U × (Version U × Bool)) :
    maxPkgFrom key l b = maxPkgFrom key' l b := by
  induction l generalizing b with
  | nil => rfl
  | cons x l ih =>
    have ih := fun b => ih (fun y hy => h y (by simp [hy])) b
    simp only [maxPkgFrom]
    rw [h x (by simp)]
    congr 1
    funext k
    split <;> exact ih _

theorem maxPkg_congr {key key' : Package N S U → Except PErr (Version U × Bool)} {l : List (Package N S U)}
    (h : ∀ x ∈ l, key x = key' x) : maxPkg key l = maxPkg key' l := by
  cases l with
  | nil => rfl
  | cons x l =>
    simp only [maxPkg]
    rw [h x (by simp)]
    congr 1
    funext k
    exact maxPkgFrom_congr (fun y hy => h y (by simp [hy])) _

section
variable {pool : Pool N S U} {avail : List (Package N S U)} (hok : pool.OK avail)
  {inst : Repository N S U} {d : Dict Nat (Package N S U)} (hd : InstalledIds pool d)
  (hc : ∀ p, inst.contains p = true ↔ InstalledSet d p.key)
include hok hd hc

theorem jobIds_spec {js : List (Job N U)} {ids ids' : List Nat} {soft soft' : List (Package N S U)}
    (h : jobIds pool inst js ids soft = .ok (ids', soft')) :
    (∀ j ∈ js, JobPossible avail j) ∧
    (∀ i, i ∈ ids' ↔ i ∈ ids ∨ ∃ j ∈ js, ∃ p, Requested avail (InstalledSet d) j p ∧ pool.packageId p = .ok i) ∧
    (∀ k, (∃ p ∈ soft', p.key = k) ↔ (∃ p ∈ soft, p.key = k) ∨ ∃ j ∈ js, SoftlyUpdated avail (InstalledSet d) j k) := by
  induction js generalizing ids soft with
  | nil =>
    simp only [jobIds, Except.ok.injEq, Prod.mk.injEq] at h
    obtain ⟨rfl, rfl⟩ := h
    simp
  | cons j js ih =>
    simp only [jobIds] at h
    split at h
    · simp at h
    next hk =>
    cases hr : j.requirement with
    | none => simp only [hr] at h; simp at h
    | some r =>
    simp only [hr, bind_ok] at h
    obtain ⟨ps, hps, h⟩ := h
    split at h
    · simp at h
    next hne =>
    have hm := Run.mem_jobProviders (R := ⟨pool, avail, [], d⟩) hok hps
    have h' : ∃ kept, (if j.kind = .hardUpdate then (maxPkg (hardKey inst) ps).map (fun p => [p]) else .ok ps) = .ok kept ∧
        ∃ more, mapE pool.packageId kept = .ok more ∧ jobIds pool inst js (ids ++ more)
          (if j.kind = .softUpdate then soft ++ ps.filter inst.contains else soft) = .ok (ids', soft') := by
      split at h
      · simp only [bind_ok] at h; simpa [*] using h
      · simp only [bind_ok] at h; simpa [*] using h
    clear h
    obtain ⟨kept, hkept, more, hmore, h⟩ := h'
    obtain ⟨i1, i2, i3⟩ := ih h
    have hposs : JobPossible avail j := by
      refine ⟨hk, r, hr, ?_⟩
      cases ps with
      | nil => simp at hne
      | cons p t => exact ⟨p, ((hm p).1 (by simp)).1, ((hm p).1 (by simp)).2⟩
    have hkept' : ∀ p, p ∈ kept ↔ Requested avail (InstalledSet d) j p := by
      intro p
      unfold Requested
      by_cases hu : j.kind = .hardUpdate
      · rw [if_pos hu] at hkept
        simp only [hr, Option.some.injEq, exists_eq_left', hu, if_true]
        cases hmx : maxPkg (hardKey inst) ps with
        | error e => rw [hmx] at hkept; simp [Except.map] at hkept
        | ok q =>
          rw [hmx] at hkept
          simp only [Except.map, Except.ok.injEq] at hkept
          subst hkept
          have hkeys : ∀ x ∈ ps, hardKey inst x = updateKey pool d x := by
            intro x hx
            obtain ⟨i, hi⟩ := hok.ids.packageId_ok ⟨x, ((hm x).1 hx).1, rfl⟩
            unfold hardKey updateKey
            rw [hi]
            simp only [bind, Except.bind, Except.ok.injEq, Prod.mk.injEq, true_and]
            have h2 := Run.mem_installed_iff (R := ⟨pool, avail, [], d⟩) hok hd hi
            simp only at h2
            rw [Bool.eq_iff_iff, hc, decide_eq_true_eq, h2]
            rfl
          rw [maxPkg_congr hkeys] at hmx
          have ht := Run.maxPkg_target (R := ⟨pool, avail, [], d⟩) hok hd hps hmx
          rw [List.mem_singleton]
          constructor
          · rintro rfl; exact ht
          · intro h2; exact updateTarget_unique h2 ht
      · rw [if_neg hu] at hkept
        simp only [Except.ok.injEq] at hkept
        subst hkept
        simp only [hr, Option.some.injEq, exists_eq_left', if_neg hu]
        exact hm p
    refine ⟨?_, ?_, ?_⟩
    · intro j' hj'
      rcases List.mem_cons.1 hj' with rfl | hj'
      · exact hposs
      · exact i1 j' hj'
    · intro i
      rw [i2, List.mem_append, mem_mapE hmore]
      simp only [hkept', List.mem_cons, exists_eq_or_imp]
      exact or_assoc
    · intro k
      rw [i3]
      by_cases hs : j.kind = .softUpdate
      · simp only [hs, if_true, List.mem_append, List.mem_filter, hm, hc, List.mem_cons, exists_eq_or_imp]
        have : (∃ p, (p ∈ soft ∨ (p ∈ avail ∧ MeetsJob r p) ∧ InstalledSet d p.key) ∧ p.key = k) ↔
            (∃ p ∈ soft, p.key = k) ∨ SoftlyUpdated avail (InstalledSet d) j k := by
          unfold SoftlyUpdated
          simp only [hs, true_and, hr, Option.some.injEq, exists_eq_left']
          constructor
          · rintro ⟨p, hp | ⟨⟨h1, h2⟩, h3⟩, rfl⟩
            · exact Or.inl ⟨p, hp, rfl⟩
            · exact Or.inr ⟨h3, p, h1, rfl, h2⟩
          · rintro (⟨p, hp, rfl⟩ | ⟨h3, p, h1, rfl, h2⟩)
            · exact ⟨p, Or.inl hp, rfl⟩
            · exact ⟨p, Or.inr ⟨⟨h1, h2⟩, h3⟩, rfl⟩
        rw [this]; exact or_assoc
      · simp only [if_neg hs, List.mem_cons, exists_eq_or_imp]
        have : ¬ SoftlyUpdated avail (InstalledSet d) j k := fun h => hs h.1
        simp only [this, false_or]

end

/-! ### the preferred packages -/

theorem idVersion_of {pool : Pool N S U} {i : Nat} {p : Package N S U} (h0 : 0 < i) (h : pool.idToPkg i = .ok p) :
    idVersion pool (i : Int) = some p.version := by
  unfold idVersion
  rw [if_pos (by omega), Int.natAbs_natCast]
  unfold Pool.idToPkg at h
  split at h
  · next q hq => cases h; rw [hq]; rfl
  · simp at h

theorem preferIds_spec {pool : Pool N S U} {avail : List (Package N S U)} (hok : pool.OK avail)
    {order : List Nat → List Nat} (hord : ∀ l, (order l).Perm l) {installed soft : List (Package N S U)} {ids : List Int}
    (h : preferIds pool order installed soft = .ok ids) :
    ids.Nodup ∧ (∀ x, x ∈ ids ↔ ∃ p ∈ installed, (¬ ∃ q ∈ soft, q.key = p.key) ∧
      ∃ i : Nat, pool.packageId p = .ok i ∧ x = i) ∧
    ids.Pairwise (fun x y => ∀ vx vy, idVersion pool x = some vx → idVersion pool y = some vy → vx ≤ vy) := by
  unfold preferIds at h
  simp only [bind_ok] at h
  obtain ⟨l, hl, pairs, hp, h⟩ := h
  cases h
  have hnd : (order (fromkeys l)).Nodup := (hord _).nodup_iff.2 (nodup_fromkeys l)
  have hpair : ∀ i v, (i, v) ∈ pairs ↔ i ∈ l ∧ ∃ p, pool.idToPkg i = .ok p ∧ p.version = v := by
    intro i v
    rw [mem_mapE hp]
    constructor
    · rintro ⟨j, hj, e⟩
      rw [(hord _).mem_iff, mem_fromkeys] at hj
      cases hg : pool.idToPkg j with
      | error e' => simp only [hg] at e; simp at e
      | ok p =>
        simp only [hg, Except.ok.injEq, Prod.mk.injEq] at e
        obtain ⟨rfl, rfl⟩ := e
        exact ⟨hj, p, hg, rfl⟩
    · rintro ⟨hi, p, hg, rfl⟩
      exact ⟨i, by rw [(hord _).mem_iff, mem_fromkeys]; exact hi, by simp only [hg]⟩
  have hl' : ∀ i, i ∈ l ↔ ∃ p ∈ installed, (¬ ∃ q ∈ soft, q.key = p.key) ∧ pool.packageId p = .ok i := by
    intro i
    rw [mem_mapE hl]
    simp only [List.mem_filter, Bool.not_eq_true', List.any_eq_false, same_iff]
    constructor
    · rintro ⟨p, ⟨h1, h2⟩, h3⟩
      exact ⟨p, h1, by rintro ⟨q, hq, e⟩; exact h2 q hq e.symm, h3⟩
    · rintro ⟨p, h1, h2, h3⟩
      exact ⟨p, ⟨h1, fun q hq e => h2 ⟨q, hq, e.symm⟩⟩, h3⟩
  have hmem : ∀ x, x ∈ (sortBy Prod.snd pairs).map (fun iv => (iv.1 : Int)) ↔ ∃ i : Nat, i ∈ l ∧ x = i := by
    intro x
    simp only [List.mem_map, mem_sortBy, Prod.exists]
    constructor
    · rintro ⟨i, v, h1, rfl⟩
      exact ⟨i, ((hpair i v).1 h1).1, rfl⟩
    · rintro ⟨i, hi, rfl⟩
      obtain ⟨p, -, -, hid⟩ := (hl' i).1 hi
      obtain ⟨-, -, q, h3, -⟩ := hok.ids.packageId_spec hid
      exact ⟨i, q.version, (hpair _ _).2 ⟨hi, q, h3, rfl⟩, rfl⟩
  refine ⟨?_, ?_, ?_⟩
  · have h1 : (pairs.map Prod.fst).Nodup := by
      refine mapE_nodup hp hnd ?_
      intro a _ b _ a' b' ha hb e
      cases hga : pool.idToPkg a with
      | error e' => simp only [hga] at ha; simp at ha
      | ok p =>
      cases hgb : pool.idToPkg b with
      | error e' => simp only [hgb] at hb; simp at hb
      | ok q =>
        simp only [hga, Except.ok.injEq] at ha
        simp only [hgb, Except.ok.injEq] at hb
        subst ha; subst hb
        exact e
    have h2 : ((sortBy Prod.snd pairs).map Prod.fst).Nodup := ((sortBy_perm _ _).map _).nodup_iff.2 h1
    rw [show (fun iv : Nat × Version U => (iv.1 : Int)) = (fun n : Nat => (n : Int)) ∘ Prod.fst from rfl, ← List.map_map]
    rw [List.Nodup, List.pairwise_map]
    exact h2.imp (fun hne e => hne (by exact_mod_cast e))
  · intro x
    rw [hmem]
    constructor
    · rintro ⟨i, hi, rfl⟩
      obtain ⟨p, h1, h2, h3⟩ := (hl' i).1 hi
      exact ⟨p, h1, h2, i, h3, rfl⟩
    · rintro ⟨p, h1, h2, i, h3, rfl⟩
      exact ⟨i, (hl' i).2 ⟨p, h1, h2, h3⟩, rfl⟩
  · rw [List.pairwise_map]
    refine List.Pairwise.imp_of_mem ?_ (sortBy_sorted Prod.snd pairs)
    rintro ⟨i, vi⟩ ⟨j, vj⟩ hi hj hle vx vy hx hy
    rw [mem_sortBy, hpair] at hi hj
    have pos : ∀ i, i ∈ l → 0 < i := by
      intro i hi
      obtain ⟨p, -, -, hid⟩ := (hl' i).1 hi
      exact (hok.ids.packageId_spec hid).1
    obtain ⟨hi, p, hp1, rfl⟩ := hi
    obtain ⟨hj, q, hq1, rfl⟩ := hj
    rw [idVersion_of (pos i hi) hp1] at hx
    rw [idVersion_of (pos j hj) hq1] at hy
    cases hx; cases hy
    exact hle

/-! ### everything that is prepared -/

theorem _root_.Verif.Props.SolverFor.contains {rs : List (Repository N S U)} {s : DependencySolver N S U} (h : SolverFor rs s)
    (p : Package N S U) : s.installed.contains p = true ↔ InstalledKeys s p.key := by
  obtain ⟨l, hl⟩ := h.installed
  unfold InstalledKeys
  rw [hl, C30_membership]
  simp only [samePackage_iff]

theorem _root_.Verif.Props.SolverFor.solvePool {rs : List (Repository N S U)} {s : DependencySolver N S U} (h : SolverFor rs s)
    (q : Request N U) : Built rs (activeModifiers q.modifiers) (s.solvePool q) := by
  obtain ⟨m, m0, pool0, h1, h2⟩ := h.pool
  refine ⟨m0, pool0, h1, ?_⟩
  unfold DependencySolver.solvePool
  rw [h2]

/-- what `_create_rules_and_initialize_policy` returns -/
structure SetupSpec (rs : List (Repository N S U)) (s : DependencySolver N S U) (pool : Pool N S U) (jobs : List (Job N U))
    (st : Setup N S U) : Prop where
  ids : InstalledIds pool st.installedDict
  inst : ∀ k, InstalledSet st.installedDict k ↔ InstalledKeys s k
  known : ∀ p ∈ s.installed.iter, ∃ i, pool.packageId p = .ok i
  gen : iterRules s.strict pool jobs st.installedDict = .ok st.gen
  possible : ∀ j ∈ jobs, JobPossible (allPackages rs) j
  reqs : ∀ i, i ∈ st.requirementIds ↔
    ∃ j ∈ jobs, ∃ p, Requested (allPackages rs) (InstalledKeys s) j p ∧ pool.packageId p = .ok i
  preferNodup : st.prefer.Nodup
  prefer : ∀ x, x ∈ st.prefer ↔ ∃ p ∈ s.installed.iter,
    (¬ ∃ j ∈ jobs, SoftlyUpdated (allPackages rs) (InstalledKeys s) j p.key) ∧ ∃ i : Nat, pool.packageId p = .ok i ∧ x = i
  preferSorted : st.prefer.Pairwise (fun x y => ∀ vx vy, idVersion pool x = some vx → idVersion pool y = some vy → vx ≤ vy)

theorem createRules_spec {rs : List (Repository N S U)} {m : Option (Modifiers N)} {pool : Pool N S U}
    (hb : Built rs m pool) {s : DependencySolver N S U} (hs : SolverFor rs s) {o : Orders} {q : Request N U}
    {st : Setup N S U} (h : createRules s o pool q = .ok st) : SetupSpec rs s pool q.jobs st := by
  unfold createRules at h
  simp only [bind_ok] at h
  obtain ⟨⟨ids, soft⟩, hj, d, hd, prefer, hp, g, hg, h⟩ := h
  cases h
  obtain ⟨d1, -, d3⟩ := installedDict_spec hd (by intro e he; simp at he)
  have hset : ∀ k, InstalledSet d k ↔ InstalledKeys s k := installedSet_iff hb.ok hd
  obtain ⟨j1, j2, j3⟩ := jobIds_spec hb.ok d1 (fun p => by rw [hset]; exact hs.contains p) hj
  obtain ⟨p1, p2, p3⟩ := preferIds_spec hb.ok o.preferPerm hp
  have hset' : InstalledSet d = InstalledKeys s := by funext k; exact propext (hset k)
  refine ⟨d1, hset, d3, hg, j1, ?_, p1, ?_, p3⟩
  · intro i
    rw [j2, hset']; simp
  · intro x
    rw [p2]
    simp only [j3, hset']
    simp

section
variable {rs : List (Repository N S U)} {m : Option (Modifiers N)} {pool : Pool N S U} (hb : Built rs m pool)
  {s : DependencySolver N S U} {jobs : List (Job N U)} {st : Setup N S U} (h : SetupSpec rs s pool jobs st)
include hb h

/-- the clauses given to the SAT solver -/
def Setup.clauses (st : Setup N S U) : List (List Int) := st.gen.rules.map Rule.literals
/-- the requirement ids given to the policy -/
def Setup.reqs (st : Setup N S U) : List Int := st.requirementIds.map (fun (i : Nat) => (i : Int))

theorem SetupSpec.ids_known : ∀ x ∈ idsOf st.clauses st.prefer st.reqs,
    ∃ i : Nat, x = i ∧ ∃ p ∈ allPackages rs, pool.packageId p = .ok i := by
  have key : ∀ (p : Package N S U) (i : Nat), pool.packageId p = .ok i → ∃ p ∈ allPackages rs, pool.packageId p = .ok i := by
    intro p i hi
    obtain ⟨-, -, q, -, -, h1, h2⟩ := hb.ok.ids.packageId_spec hi
    exact ⟨q, h1, h2⟩
  intro x hx
  simp only [idsOf, List.mem_append] at hx
  rcases hx with hx | hx | hx
  · obtain ⟨c, hc, l, hl, rfl⟩ := (mem_varsOf _ _).1 hx
    obtain ⟨rule, hr, rfl⟩ := List.mem_map.1 hc
    obtain ⟨-, -, h3⟩ := C38_literals hb h.gen rule hr
    obtain ⟨-, p, hp⟩ := h3 l hl
    exact ⟨l.natAbs, by unfold iabs; omega, p, hp⟩
  · obtain ⟨p, -, -, i, hi, rfl⟩ := (h.prefer x).1 hx
    exact ⟨i, rfl, key p i hi⟩
  · obtain ⟨i, hi, rfl⟩ := List.mem_map.1 hx
    obtain ⟨j, -, p, -, hid⟩ := (h.reqs i).1 hi
    exact ⟨i, rfl, key p i hid⟩

theorem SetupSpec.hids : ∀ x ∈ idsOf st.clauses st.prefer st.reqs, 0 < x ∧ (idVersion pool x).isSome := by
  intro x hx
  obtain ⟨i, rfl, p, -, hi⟩ := h.ids_known hb x hx
  obtain ⟨h0, -, q, hq, -⟩ := hb.ok.ids.packageId_spec hi
  refine ⟨by omega, ?_⟩
  rw [idVersion_of h0 hq]; rfl

theorem SetupSpec.hnz : ∀ c ∈ st.clauses, ∀ l ∈ c, l ≠ 0 := by
  intro c hc l hl
  obtain ⟨rule, hr, rfl⟩ := List.mem_map.1 hc
  exact ((C38_literals hb h.gen rule hr).2.2 l hl).1

theorem SetupSpec.hne : ∀ c ∈ st.clauses, c ≠ [] := by
  intro c hc
  obtain ⟨rule, hr, rfl⟩ := List.mem_map.1 hc
  exact (C38_literals hb h.gen rule hr).1

/-- the search decides whether the rules can be satisfied -/
theorem SetupSpec.decides (o : Orders) :
    ((∃ a, search o pool st = .ok a) ↔ Satisfiable st.clauses) ∧
    ((∃ u, search o pool st = .error (.satisfiability u)) ↔ ¬ Satisfiable st.clauses) :=
  C05_decides_satisfiability (packagePolicy_contract o.policyPerm (h.hids hb)) (fun v hv => by simp [idsOf, hv])
    (h.hnz hb) (start_inv _ _ _) (h.hne hb) (Nat.le_refl _)

theorem SetupSpec.only_unsat (o : Orders) {e : Sat.Err} (he : search o pool st = .error e) :
    ∃ u, e = .satisfiability u := by
  rcases C04_no_internal_failure (packagePolicy_contract o.policyPerm (h.hids hb)) (fun v hv => by simp [idsOf, hv])
    (h.hnz hb) (start_inv _ _ _) (Nat.le_refl (enoughFuel (idsOf st.clauses st.prefer st.reqs).length)) with ⟨a, ha⟩ | ⟨u, hu⟩
  · have : search o pool st = .ok a := ha
    rw [this] at he; simp at he
  · have : search o pool st = .error (.satisfiability u) := hu
    rw [this] at he; cases he; exact ⟨u, rfl⟩

/-- the truth assignment found -/
def truth (a : ASet) (i : Nat) : Bool := decide (a.value (i : Int) = some true)

omit hb h in
theorem isort_perm (l : List Int) : (ASet.isort l).Perm l := by
  have ins : ∀ (x : Int) (l : List Int), (ASet.insertSorted x l).Perm (x :: l) := by
    intro x l
    induction l with
    | nil => exact List.Perm.refl _
    | cons y t ih =>
      unfold ASet.insertSorted
      split
      · exact List.Perm.refl _
      · exact (List.Perm.cons y ih).trans (List.Perm.swap _ _ _)
  induction l with
  | nil => exact List.Perm.refl _
  | cons x t ih =>
    unfold ASet.isort
    rw [List.foldr_cons]
    exact (ins x _).trans (List.Perm.cons x ih)

/-- what is known about a solution -/
structure FoundSpec (rs : List (Repository N S U)) (pool : Pool N S U) (st : Setup N S U) (a : ASet) : Prop where
  /-- it satisfies the rules -/
  sat : Sat (truth a) st.clauses
  /-- what has a value is a package, and occurs in the solution -/
  known : ∀ v, a.value v ≠ none → ∃ p ∈ allPackages rs, pool.packageId p = .ok v.natAbs
  pos : ∀ i : Nat, (i : Int) ∈ solutionToIds a ↔ a.value i = some true
  neg : ∀ i : Nat, -(i : Int) ∈ solutionToIds a ↔ a.value i = some false
  vars : ∀ v ∈ varsOf st.clauses, a.value v ≠ none
  lits : ∀ l ∈ solutionToIds a, (0 < l ∧ a.value l = some true) ∨ (l < 0 ∧ a.value (-l) = some false)
  nodup : (solutionToIds a).Nodup
  opp : ∀ l, a.value (-l) = (a.value l).map (!·)

theorem SetupSpec.found {o : Orders} {a : ASet} (ha : search o pool st = .ok a) : FoundSpec rs pool st a := by
  have hpol := packagePolicy_contract o.policyPerm (h.hids hb)
  have hU : ∀ v ∈ varsOf st.clauses, v ∈ idsOf st.clauses st.prefer st.reqs := fun v hv => by simp [idsOf, hv]
  obtain ⟨c1, c2⟩ := C01_solution_satisfies_every_rule hpol hU (h.hnz hb) (start_inv _ _ _) ha
  rcases solveRules_spec st.clauses hpol hU (h.hnz hb) (start_inv _ _ _)
    (searchFuel st.clauses st.prefer st.reqs) with ⟨sv, h1, h2, h3⟩ | ⟨u, h1, -⟩ | ⟨h1, -⟩
  rotate_left
  · have : search o pool st = .error (.satisfiability u) := h1
    rw [this] at ha; simp at ha
  · have : search o pool st = .error .outOfFuel := h1
    rw [this] at ha; simp at ha
  have hh : search o pool st = .ok sv.assignments.copy := h1
  rw [hh] at ha
  cases ha
  have wf := h2.inv.base.aset
  have hval : ∀ l, sv.assignments.copy.value l = sv.assignments.data l := fun l => rfl
  have hseen : ∀ v, v ∈ sv.assignments.seen ↔ 0 < v ∧ sv.assignments.data v ≠ none := by
    intro v
    constructor
    · intro hv; exact ⟨wf.spos v hv, h2.all v hv⟩
    · rintro ⟨h0, hv⟩
      have := wf.seen_of_data hv
      rwa [iabs_of_pos h0] at this
  have hmem : ∀ l, l ∈ solutionToIds sv.assignments.copy ↔
      ∃ k, 0 < k ∧ sv.assignments.data k ≠ none ∧ l = if sv.assignments.data k = some true then k else -k := by
    intro l
    unfold solutionToIds ASet.items
    rw [mem_sortBy, List.mem_map]
    simp only [List.mem_map, isort_mem]
    constructor
    · rintro ⟨_, ⟨k, hk, rfl⟩, rfl⟩
      obtain ⟨k1, k2⟩ := (hseen k).1 hk
      exact ⟨k, k1, k2, rfl⟩
    · rintro ⟨k, k1, k2, rfl⟩
      exact ⟨_, ⟨k, (hseen k).2 ⟨k1, k2⟩, rfl⟩, rfl⟩
  have hU' : ∀ v, sv.assignments.data v ≠ none → iabs v ∈ idsOf st.clauses st.prefer st.reqs := fun v hv =>
    h2.inv.base.seenU _ (wf.seen_of_data hv)
  refine ⟨?_, ?_, ?_, ?_, ?_, ?_, ?_, fun l => wf.neg l⟩
  · intro c hc
    obtain ⟨l, hl, hv⟩ := c1 c hc (h.hne hb c hc)
    refine ⟨l, hl, ?_⟩
    have hl0 := h.hnz hb c hc l hl
    show decide (sv.assignments.copy.value ((l.natAbs : Nat) : Int) = some true) = decide (0 < l)
    obtain ⟨b, hb1, hb2⟩ := c2 c hc l hl
    rw [hv] at hb1; cases hb1
    by_cases hp : 0 < l
    · have e : ((l.natAbs : Nat) : Int) = l := by omega
      rw [e, hv]; simp [hp]
    · have e : ((l.natAbs : Nat) : Int) = -l := by omega
      rw [e, hb2]; simp [hp]
  · intro v hv
    obtain ⟨i, hi, p, hp, hid⟩ := h.ids_known hb _ (hU' v hv)
    have : v.natAbs = i := by unfold iabs at hi; omega
    rw [this]
    exact ⟨p, hp, hid⟩
  · intro i
    rw [hmem, hval]
    constructor
    · rintro ⟨k, k1, k2, e⟩
      split at e
      · next ht => rw [e]; exact ht
      · omega
    · intro ht
      refine ⟨i, ?_, by rw [ht]; simp, by rw [if_pos ht]⟩
      rcases Nat.eq_zero_or_pos i with rfl | h0
      · have := wf.zero
        simp only [Int.natCast_zero] at ht
        rw [this] at ht; simp at ht
      · omega
  · intro i
    rw [hmem, hval]
    constructor
    · rintro ⟨k, k1, k2, e⟩
      split at e
      · omega
      · next ht =>
        have : (i : Int) = k := by omega
        rw [this]
        cases hd : sv.assignments.data k with
        | none => exact absurd hd k2
        | some b => cases b with
          | true => exact absurd hd ht
          | false => rfl
    · intro hf
      refine ⟨i, ?_, by rw [hf]; simp, by rw [hf]; simp⟩
      rcases Nat.eq_zero_or_pos i with rfl | h0
      · have := wf.zero
        simp only [Int.natCast_zero] at hf
        rw [this] at hf; simp at hf
      · omega
  · intro v hv
    obtain ⟨c, hc, l, hl, rfl⟩ := (mem_varsOf _ _).1 hv
    obtain ⟨b, hb1, -⟩ := c2 c hc l hl
    rw [hval, ne_eq, wf.iabs_none]
    rw [hval] at hb1
    rw [hb1]; simp
  · intro l hl
    obtain ⟨k, k1, k2, rfl⟩ := (hmem l).1 hl
    split
    · next ht => left; exact ⟨k1, ht⟩
    · next ht =>
      right
      refine ⟨by omega, ?_⟩
      rw [Int.neg_neg, hval]
      cases hd : sv.assignments.data k with
      | none => exact absurd hd k2
      | some b => cases b with
        | true => exact absurd hd ht
        | false => rfl
  · unfold solutionToIds
    rw [(sortBy_perm _ _).nodup_iff]
    unfold ASet.items
    rw [List.map_map, List.Nodup, List.pairwise_map]
    have hsnd : (ASet.isort sv.assignments.copy.seen).Nodup := by
      rw [(isort_perm _).nodup_iff]; exact wf.snd
    refine List.Pairwise.imp_of_mem ?_ hsnd
    intro x y hx hy hne
    rw [isort_mem] at hx hy
    have hx0 := ((hseen x).1 hx).1
    have hy0 := ((hseen y).1 hy).1
    simp only [Function.comp]
    split <;> split <;> omega

end

end Verif.Solve
