import Verif.Props.Monotone
/-
Properties C103-C106: asking for less, more modifiers, packages that nobody asks for, and strict mode.
-/
set_option linter.unusedSectionVars false
namespace Verif.Props
open Verif Verif.Pkg Verif.Solve Verif.Rules

variable {N S U : Type} [LinearOrder N] [DecidableEq S] [LinearOrder U] [Syntax S U]

/-! ### Specification -/

/-- the kinds of jobs that ask for some package that meets their requirement -/
def WantsOne (k : JobKind) : Prop := k = .install ∨ k = .softUpdate

/-- the second job asks for less than the first one: it is the same; it asks for one of more packages; it asks for fewer
packages to be removed; or it asks for one of some packages, where the first one asks for the newest one of these -/
inductive AsksLess (avail : List (Package N S U)) : Job N U → Job N U → Prop where
  | same (j : Job N U) : AsksLess avail j j
  | wider {r r' : Requirement N U} {k k' : JobKind} : WantsOne k → WantsOne k' →
      (∀ p ∈ avail, MeetsJob r p → MeetsJob r' p) → AsksLess avail ⟨some r, k⟩ ⟨some r', k'⟩
  | fewer {r r' : Requirement N U} : (∀ p ∈ avail, MeetsJob r' p → MeetsJob r p) →
      AsksLess avail ⟨some r, .remove⟩ ⟨some r', .remove⟩
  | anyVersion {r r' : Requirement N U} {k' : JobKind} : WantsOne k' → (∀ p ∈ avail, MeetsJob r p → MeetsJob r' p) →
      AsksLess avail ⟨some r, .hardUpdate⟩ ⟨some r', k'⟩

/-- `m'` allows at least what `m` allows -/
structure MoreModifiers (m m' : Modifiers N) : Prop where
  newer : ∀ x ∈ m.allowNewer, x ∈ m'.allowNewer
  any : ∀ x ∈ m.allowAny, x ∈ m'.allowAny
  older : ∀ x ∈ m.allowOlder, x ∈ m'.allowOlder

/-- for a `^= w` constraint in a dependency on a package that `m'` targets: the packages that provide it have build numbers
between that of `w` and MAX_BUILD -/
def PlainBuilds (avail : List (Package N S U)) (m' : Modifiers N) : Prop :=
  ∀ p ∈ avail, ∀ t ∈ p.installRequires, t.1 ∈ m'.targets → ∀ r : Requirement N U, fromConstraints .install t = .ok r →
    ∀ w, Constraint.upstream w ∈ r.constraints → ∀ q ∈ avail, Provides q t.1 →
      w.build ≤ q.version.build ∧ q.version.build ≤ 999999999

/-- `rs'` offers what `rs` offers, in the same order, and the packages that satisfy `extra`, which are different ones and
which nobody asks for: no other package depends on a name that they provide, and no job, unless it is a removal, asks for
them -/
structure OnlyExtra (rs rs' : List (Repository N S U)) (extra : Package N S U → Bool) (jobs : List (Job N U)) : Prop where
  rest : allPackages rs = (allPackages rs').filter (fun p => !extra p)
  new : ∀ p ∈ allPackages rs, ∀ x ∈ allPackages rs', extra x → p.key ≠ x.key
  deps : ∀ p ∈ allPackages rs, ∀ t ∈ p.installRequires, ∀ x ∈ allPackages rs', extra x → ¬ Provides x t.1
  jobs : ∀ j ∈ jobs, j.kind ≠ .remove → ∀ r, j.requirement = some r → ∀ x ∈ allPackages rs', extra x → ¬ MeetsJob r x

/-! ### Proofs -/

variable {rs rs' : List (Repository N S U)} {s s' : DependencySolver N S U}

/-- if `solve` returns, some package meets the requirement of each job -/
theorem possible_of_ok (hs : SolverFor rs s) {o : Orders} {q : Request N U} {t : Transaction N S U} (ht : s.solve o q = .ok t) :
    ∀ j ∈ effectiveJobs s q, JobPossible (allPackages rs) j := by
  rw [solve_stages] at ht
  cases hc : createRules s o (s.solvePool q) (convertUpgrade q s.remote s.installed) with
  | error e => rw [hc] at ht; simp at ht
  | ok st => exact (createRules_spec (hs.solvePool q) hs hc).possible

theorem UpdateTarget.mem {avail : List (Package N S U)} {inst : PKey N S U → Prop} {r : Requirement N U} {q : Package N S U}
    (h : UpdateTarget avail inst r q) : q ∈ avail ∧ MeetsJob r q := by
  obtain ⟨b, a, e, h1, -⟩ := h
  exact ⟨by rw [e]; simp, h1⟩

theorem jobSatisfied_less {avail : List (Package N S U)} {inst I : PKey N S U → Prop} {j j' : Job N U} (h : AsksLess avail j j')
    (hp : JobPossible avail j) (hj : JobSatisfied avail inst I j) : JobSatisfied avail inst I j' := by
  cases h with
  | same => exact hj
  | @wider r r' k k' hk hk' hr =>
    obtain ⟨r0, e, h1⟩ := hj
    cases e
    refine ⟨r', rfl, ?_⟩
    have h2 : ∃ q ∈ avail, I q.key ∧ MeetsJob r q := by
      rcases hk with rfl | rfl <;> exact h1
    obtain ⟨q, hq, h3, h4⟩ := h2
    rcases hk' with rfl | rfl <;> exact ⟨q, hq, h3, hr q hq h4⟩
  | @fewer r r' hr =>
    obtain ⟨r0, e, h1⟩ := hj
    cases e
    exact ⟨r', rfl, fun q hq hI hm => h1 q hq hI (hr q hq hm)⟩
  | @anyVersion r r' k' hk' hr =>
    obtain ⟨r0, e, h1⟩ := hj
    cases e
    refine ⟨r', rfl, ?_⟩
    obtain ⟨-, r1, e1, h2⟩ := hp
    cases e1
    obtain ⟨q, hq⟩ := updateTarget_exists (inst := inst) h2
    have h3 := hq.mem
    rcases hk' with rfl | rfl <;> exact ⟨q, h3.1, h1 q hq, hr q h3.1 h3.2⟩

/-! ### C103 -/

/-- C103: if a request can be solved, a request that asks for less, job by job, is not unsatisfiable. -/
theorem C103_asking_for_less (hs : SolverFor rs s) {o o' : Orders} {q q' : Request N U} (hm : q'.modifiers = q.modifiers)
    (hless : ∀ j' ∈ effectiveJobs s q', ∃ j ∈ effectiveJobs s q, AsksLess (allPackages rs) j j') {t : Transaction N S U}
    (h : s.solve o q = .ok t) (u : Sat.UnsatInfo) : s.solve o' q' ≠ .error (.sat (.satisfiability u)) := by
  intro hu
  have hposs := possible_of_ok hs h
  have h2 := C40_decides hs o' q'
  rw [hu] at h2
  obtain ⟨I, hI⟩ := solvable_of_ok hs h
  refine h2 ⟨I, ?_⟩
  unfold Solves at *
  rw [hm]
  refine ⟨hI.consistent, fun j' hj' => ?_⟩
  obtain ⟨j, hj, hl⟩ := hless j' hj'
  exact jobSatisfied_less hl (hposs j hj) (hI.jobs j hj)

theorem meetsJob_mono {r r' : Requirement N U} (hn : r.name = r'.name) (ha : ∀ v, ReqAccepts r v → ReqAccepts r' v)
    {p : Package N S U} (h : MeetsJob r p) : MeetsJob r' p := by
  obtain ⟨h1, r1, h2, h3⟩ := h
  simp only [Looked] at h2
  subst h2
  exact ⟨hn ▸ h1, r', rfl, ha _ h3⟩

/-- C103, in terms of versions: `solve` is not unsatisfiable for a request in which the requirement of an install or a soft
update is replaced by one on the same name that accepts more versions, that of a removal by one that accepts fewer, or a hard
update by an install. -/
theorem C103_wider_versions (hs : SolverFor rs s) {o o' : Orders} {q q' : Request N U} (hm : q'.modifiers = q.modifiers)
    (hp : ∀ j ∈ q.jobs, j.kind ≠ .upgrade)
    (hless : ∀ j' ∈ q'.jobs, j' ∈ q.jobs ∨ ∃ r r', r.name = r'.name ∧
      ((∃ k k', WantsOne k' ∧ (WantsOne k ∨ k = .hardUpdate) ∧ ⟨some r, k⟩ ∈ q.jobs ∧ j' = ⟨some r', k'⟩ ∧
        ∀ v, ReqAccepts r v → ReqAccepts r' v) ∨
       (⟨some r, .remove⟩ ∈ q.jobs ∧ j' = ⟨some r', .remove⟩ ∧ ∀ v, ReqAccepts r' v → ReqAccepts r v)))
    {t : Transaction N S U} (h : s.solve o q = .ok t) (u : Sat.UnsatInfo) :
    s.solve o' q' ≠ .error (.sat (.satisfiability u)) := by
  have hp' : ∀ j ∈ q'.jobs, j.kind ≠ .upgrade := by
    intro j' hj'
    rcases hless j' hj' with h1 | ⟨r, r', -, ⟨k, k', hk', -, -, rfl, -⟩ | ⟨-, rfl, -⟩⟩
    · exact hp j' h1
    · rcases hk' with rfl | rfl <;> simp
    · simp
  refine C103_asking_for_less hs hm ?_ h u
  rw [effectiveJobs_plain s hp, effectiveJobs_plain s hp']
  intro j' hj'
  rcases hless j' hj' with h1 | ⟨r, r', hn, ⟨k, k', hk', hk, h1, rfl, ha⟩ | ⟨h1, rfl, ha⟩⟩
  · exact ⟨j', h1, .same j'⟩
  · refine ⟨_, h1, ?_⟩
    rcases hk with hk | rfl
    · exact .wider hk hk' (fun p _ => meetsJob_mono hn ha)
    · exact .anyVersion hk' (fun p _ => meetsJob_mono hn ha)
  · exact ⟨_, h1, .fewer (fun p _ => meetsJob_mono hn.symm ha)⟩

/-! ### C104 -/

theorem modMap_mono {m m' : Modifiers N} (hm : MoreModifiers m m') (x : N) (c : Constraint U) (v : Version U)
    (hb : ∀ w, c = .upstream w → x ∈ m'.targets → w.build ≤ v.build ∧ v.build ≤ 999999999)
    (h : (modMap m x c).matches v = true) : (modMap m' x c).matches v = true := by
  have h1 := hm.newer x
  have h2 := hm.any x
  have h3 := hm.older x
  have ht : x ∈ m'.allowNewer ∨ x ∈ m'.allowAny ∨ x ∈ m'.allowOlder → x ∈ m'.targets := by
    intro h
    unfold Modifiers.targets
    simp only [mem_supdate]
    tauto
  unfold modMap at *
  cases c with
  | upstream w =>
    by_cases hx : x ∈ m'.targets
    · obtain ⟨b1, b2⟩ := hb w rfl hx
      have g : ∀ e : v.upstream = w.upstream, w ≤ v ∧ v ≤ (⟨w.upstream, MAX_BUILD⟩ : Version U) :=
        fun e => ⟨Or.inr ⟨e.symm, b1⟩, Or.inr ⟨e, b2⟩⟩
      by_cases a1 : x ∈ m.allowNewer <;> by_cases a2 : x ∈ m.allowAny <;> by_cases a3 : x ∈ m.allowOlder <;>
      by_cases a1' : x ∈ m'.allowNewer <;> by_cases a2' : x ∈ m'.allowAny <;> by_cases a3' : x ∈ m'.allowOlder <;>
      simp_all [allowOlderMap, allowNewerMap, allowAnyMap, leqLeastUpperBound, Constraint.matches]
    · have n1 : x ∉ m'.allowNewer := fun h => hx (ht (Or.inl h))
      have n2 : x ∉ m'.allowAny := fun h => hx (ht (Or.inr (Or.inl h)))
      have n3 : x ∉ m'.allowOlder := fun h => hx (ht (Or.inr (Or.inr h)))
      simp_all
  | _ =>
    clear hb ht
    by_cases a1 : x ∈ m.allowNewer <;> by_cases a2 : x ∈ m.allowAny <;> by_cases a3 : x ∈ m.allowOlder <;>
    by_cases a1' : x ∈ m'.allowNewer <;> by_cases a2' : x ∈ m'.allowAny <;> by_cases a3' : x ∈ m'.allowOlder <;>
    simp_all [allowOlderMap, allowNewerMap, allowAnyMap, Constraint.matches]

theorem modMap_fixed {m m' : Modifiers N} (hm : MoreModifiers m m') (x : N) (c : Constraint U) (h : modMap m' x c = c) :
    modMap m x c = c := by
  have h1 := hm.newer x
  have h2 := hm.any x
  have h3 := hm.older x
  unfold modMap at *
  cases c <;>
    by_cases a1 : x ∈ m.allowNewer <;> by_cases a2 : x ∈ m.allowAny <;> by_cases a3 : x ∈ m.allowOlder <;>
    by_cases a1' : x ∈ m'.allowNewer <;> by_cases a2' : x ∈ m'.allowAny <;> by_cases a3' : x ∈ m'.allowOlder <;>
    simp_all [allowOlderMap, allowNewerMap, allowAnyMap, leqLeastUpperBound]

theorem modifyInstall_none_iff (r : Requirement N U) (m : Modifiers N) :
    modifyInstall r m = none ↔ ∀ c ∈ r.constraints, modMap m r.name c = c := by
  rw [modifyInstall_eq]
  split
  · next h =>
    simp only [reduceCtorEq, false_iff]
    intro h'
    exact h ((List.map_congr_left h').trans (List.map_id _))
  · next h =>
    simp only [true_iff]
    have e := Classical.not_not.1 h
    intro c hc
    exact List.map_inj_left.1 (e.trans (List.map_id _).symm) c hc

/-- a conflict that is accepted under more modifiers is the same under fewer -/
theorem conflict_unchanged {m m' : Modifiers N} (hm : MoreModifiers m m') {r r' : Requirement N U} (hc : r.cls = .conflict)
    (h : modifyRequirement r m' = .ok r') : r' = r ∧ modifyRequirement r m = .ok r := by
  unfold modifyRequirement at *
  rw [hc] at *
  simp only at *
  split at h
  · next ha =>
    split at h
    · simp at h
    · next hn =>
      cases h
      refine ⟨rfl, ?_⟩
      rw [if_pos ha, (modifyInstall_none_iff r m).2 fun c hc' => modMap_fixed hm _ _ ((modifyInstall_none_iff r m').1 hn c hc')]
  · next ha =>
    cases h
    exact ⟨rfl, by rw [if_neg ha]⟩

/-- more modifiers keep an installation valid -/
theorem consistent_moreModifiers {avail : List (Package N S U)} {m m' : Modifiers N} (hm : MoreModifiers m m')
    (hb : PlainBuilds avail m') {I : PKey N S U → Prop} (h : Consistent avail (some m) I) : Consistent avail (some m') I := by
  refine ⟨h.available, ?_, h.names, ?_⟩
  · intro k hk t ht
    obtain ⟨q, hq, h1, h2, r, h3, h4, r', h5, h6⟩ := h.deps k hk t ht
    refine ⟨q, hq, h1, h2, r, h3, h4, ?_⟩
    obtain ⟨r'', h7, -⟩ := C60_install_requirements_never_fail r m' (fromConstraints_cls h3)
    refine ⟨r'', h7, ?_⟩
    rw [← C24_matches_meaning, modifyRequirement_matches h7]
    rw [← C24_matches_meaning, modifyRequirement_matches h5] at h6
    intro c hc
    have hn := (fromConstraints_name h3).1
    refine modMap_mono hm _ c _ (fun w e hx => ?_) (h6 c hc)
    subst e
    obtain ⟨p, hp, e⟩ := h.available k hk
    refine hb p hp t ?_ (hn ▸ hx) r h3 w hc q hq (hn ▸ h4)
    rw [← e] at ht
    exact ht
  · rintro k hk t ht q hq hI hne ⟨r, h3, h4, r', h5, h6⟩
    obtain ⟨rfl, h7⟩ := conflict_unchanged hm (fromConstraints_cls h3) h5
    exact h.conflicts k hk t ht q hq hI hne ⟨r', h3, h4, r', h7, h6⟩

/-- C104 (partial): if a request can be solved, it is not unsatisfiable when more constraint modifiers are added to it, provided
that for each `^= w` constraint in a dependency on one of the names they target, the packages that provide it have build numbers
between that of `w` and 999999999. Without this it fails: see `C104_violated`. -/
theorem C104_more_modifiers_partial (hs : SolverFor rs s) {o o' : Orders} {q q' : Request N U} (hj : q'.jobs = q.jobs)
    (hm : MoreModifiers q.modifiers q'.modifiers) (hb : PlainBuilds (allPackages rs) q'.modifiers) {t : Transaction N S U}
    (h : s.solve o q = .ok t) (u : Sat.UnsatInfo) : s.solve o' q' ≠ .error (.sat (.satisfiability u)) := by
  intro hu
  have h2 := C40_decides hs o' q'
  rw [hu] at h2
  obtain ⟨I, hI⟩ := solvable_of_ok hs h
  refine h2 ⟨I, ?_⟩
  have he : effectiveJobs s q' = effectiveJobs s q := by
    unfold effectiveJobs convertUpgrade
    rw [hj]
    split
    · split <;> simp [hj]
    · exact hj
  unfold Solves at *
  rw [he]
  exact ⟨consistent_moreModifiers hm hb hI.consistent, hI.jobs⟩

/-! ### C105 -/

theorem updateTarget_filter {l : List (Package N S U)} {P : Package N S U → Bool} {inst inst' : PKey N S U → Prop}
    (hi : ∀ p ∈ l.filter P, inst p.key ↔ inst' p.key) {r : Requirement N U} (h : ∀ x ∈ l, MeetsJob r x → P x = true)
    (q : Package N S U) : UpdateTarget (l.filter P) inst r q ↔ UpdateTarget l inst' r q := by
  have below : ∀ p q : Package N S U, p ∈ l.filter P → q ∈ l.filter P → (Below inst p q ↔ Below inst' p q) := by
    intro p q hp hq
    unfold Below
    rw [hi p hp, hi q hq]
  constructor
  · rintro ⟨b, a, e, h1, h2, h3⟩
    have hq : q ∈ l.filter P := by rw [e]; simp
    obtain ⟨l1, l2, e1, e2, e3⟩ := List.filter_eq_append_iff.1 e
    obtain ⟨l3, l4, e4, e5, e6, e7⟩ := List.filter_eq_cons_iff.1 e3
    subst e1 e4
    refine ⟨l1 ++ l3, l4, by simp, h1, ?_, ?_⟩
    · intro p hp hm
      have hP : P p = true := h p (by simp at hp ⊢; tauto) hm
      have hpb : p ∈ b := by
        rcases List.mem_append.1 hp with hp | hp
        · rw [← e2]; exact List.mem_filter.2 ⟨hp, hP⟩
        · exact absurd hP (e5 p hp)
      refine (below p q ?_ hq).1 (h2 p hpb hm)
      rw [e]; exact List.mem_append_left _ hpb
    · intro p hp hm
      have hP : P p = true := h p (by simp; tauto) hm
      have hpa : p ∈ a := by rw [← e7]; exact List.mem_filter.2 ⟨hp, hP⟩
      intro hbel
      refine h3 p hpa hm ((below q p hq ?_).2 hbel)
      rw [e]; simp [hpa]
  · rintro ⟨b, a, e, h1, h2, h3⟩
    have hPq : P q = true := h q (by rw [e]; simp) h1
    have hq : q ∈ l.filter P := List.mem_filter.2 ⟨by rw [e]; simp, hPq⟩
    refine ⟨b.filter P, a.filter P, by rw [e]; simp [hPq], h1, ?_, ?_⟩
    · intro p hp hm
      obtain ⟨hp1, hp2⟩ := List.mem_filter.1 hp
      exact (below p q (List.mem_filter.2 ⟨by rw [e]; simp [hp1], hp2⟩) hq).2 (h2 p hp1 hm)
    · intro p hp hm hbel
      obtain ⟨hp1, hp2⟩ := List.mem_filter.1 hp
      exact h3 p hp1 hm ((below q p hq (List.mem_filter.2 ⟨by rw [e]; simp [hp1], hp2⟩)).1 hbel)

variable {extra : Package N S U → Bool} {jobs : List (Job N U)}

theorem OnlyExtra.mem (h : OnlyExtra rs rs' extra jobs) {p : Package N S U} :
    p ∈ allPackages rs ↔ p ∈ allPackages rs' ∧ ¬ extra p = true := by
  rw [h.rest, List.mem_filter]
  simp

/-- an installation without the extra packages is still valid when they are there -/
theorem OnlyExtra.forth (h : OnlyExtra rs rs' extra jobs) {mods : Option (Modifiers N)} {inst inst' I : PKey N S U → Prop}
    (hi : ∀ p ∈ allPackages rs, inst p.key ↔ inst' p.key) (hv : ValidInstall (allPackages rs) mods inst jobs I) :
    ValidInstall (allPackages rs') mods inst' jobs I := by
  have back : ∀ q ∈ allPackages rs', I q.key → q ∈ allPackages rs := by
    intro q hq hI
    obtain ⟨p, hp, hk⟩ := hv.consistent.available _ hI
    exact h.mem.2 ⟨hq, fun hx => h.new p hp q hq hx hk⟩
  have sub : ∀ q ∈ allPackages rs, q ∈ allPackages rs' := fun q hq => (h.mem.1 hq).1
  refine ⟨⟨?_, ?_, hv.consistent.names, ?_⟩, ?_⟩
  · intro k hk
    obtain ⟨p, hp, e⟩ := hv.consistent.available k hk
    exact ⟨p, sub p hp, e⟩
  · intro k hk t ht
    obtain ⟨q, hq, h1⟩ := hv.consistent.deps k hk t ht
    exact ⟨q, sub q hq, h1⟩
  · intro k hk t ht q hq hI
    exact hv.consistent.conflicts k hk t ht q (back q hq hI) hI
  · intro j hj
    obtain ⟨r, hr, h1⟩ := hv.jobs j hj
    refine ⟨r, hr, ?_⟩
    cases hkind : j.kind with
    | install =>
      rw [hkind] at h1
      obtain ⟨q, hq, h2⟩ := h1
      exact ⟨q, sub q hq, h2⟩
    | softUpdate =>
      rw [hkind] at h1
      obtain ⟨q, hq, h2⟩ := h1
      exact ⟨q, sub q hq, h2⟩
    | remove =>
      rw [hkind] at h1
      exact fun q hq hI => h1 q (back q hq hI) hI
    | upgrade => rw [hkind] at h1; exact h1
    | hardUpdate =>
      rw [hkind] at h1
      intro q hq
      refine h1 q ?_
      have hx : ∀ x ∈ allPackages rs', MeetsJob r x → (!extra x) = true := by
        intro x hx hm
        simp only [Bool.not_eq_true', Bool.eq_false_iff]
        exact fun he => h.jobs j hj (by rw [hkind]; simp) r hr x hx he hm
      rw [h.rest] at hi ⊢
      exact (updateTarget_filter hi hx q).2 hq

/-- the packages of a valid installation that are not extra form a valid installation -/
theorem OnlyExtra.back (h : OnlyExtra rs rs' extra jobs) {mods : Option (Modifiers N)} {inst inst' I : PKey N S U → Prop}
    (hi : ∀ p ∈ allPackages rs, inst p.key ↔ inst' p.key) (hv : ValidInstall (allPackages rs') mods inst' jobs I) :
    ValidInstall (allPackages rs) mods inst jobs (fun k => I k ∧ ∃ p ∈ allPackages rs, p.key = k) := by
  have sub : ∀ q ∈ allPackages rs, q ∈ allPackages rs' := fun q hq => (h.mem.1 hq).1
  refine ⟨⟨?_, ?_, ?_, ?_⟩, ?_⟩
  · exact fun k hk => hk.2
  · rintro k ⟨hk, p, hp, rfl⟩ t ht
    obtain ⟨q, hq, h1, h2, r, h3, h4⟩ := hv.consistent.deps _ hk t ht
    have hq' : q ∈ allPackages rs :=
      h.mem.2 ⟨hq, fun hx => h.deps p hp t ht q hq hx ((fromConstraints_name h3).1 ▸ h4.1)⟩
    exact ⟨q, hq', ⟨h1, q, hq', rfl⟩, h2, r, h3, h4⟩
  · exact fun k k' hk hk' => hv.consistent.names k k' hk.1 hk'.1
  · exact fun k hk t ht q hq hI => hv.consistent.conflicts k hk.1 t ht q (sub q hq) hI.1
  · intro j hj
    obtain ⟨r, hr, h1⟩ := hv.jobs j hj
    refine ⟨r, hr, ?_⟩
    have one : j.kind ≠ .remove → (∃ q ∈ allPackages rs', I q.key ∧ MeetsJob r q) →
        ∃ q ∈ allPackages rs, (I q.key ∧ ∃ p ∈ allPackages rs, p.key = q.key) ∧ MeetsJob r q := by
      rintro hk ⟨q, hq, h2, h3⟩
      have hq' : q ∈ allPackages rs := h.mem.2 ⟨hq, fun hx => h.jobs j hj hk r hr q hq hx h3⟩
      exact ⟨q, hq', ⟨h2, q, hq', rfl⟩, h3⟩
    cases hkind : j.kind with
    | install => rw [hkind] at h1 one; exact one (by simp) h1
    | softUpdate => rw [hkind] at h1 one; exact one (by simp) h1
    | remove =>
      rw [hkind] at h1
      exact fun q hq hI => h1 q (sub q hq) hI.1
    | upgrade => rw [hkind] at h1; exact h1
    | hardUpdate =>
      rw [hkind] at h1
      intro q hq
      have hqm := hq.mem.1
      have hx : ∀ x ∈ allPackages rs', MeetsJob r x → (!extra x) = true := by
        intro x hx hm
        simp only [Bool.not_eq_true', Bool.eq_false_iff]
        exact fun he => h.jobs j hj (by rw [hkind]; simp) r hr x hx he hm
      refine ⟨h1 q ?_, q, hqm, rfl⟩
      rw [h.rest] at hi hq
      exact (updateTarget_filter hi hx q).1 hq

/-- C105: packages that nobody asks for do not change whether a request can be satisfied: if it can be solved without them, it is
not unsatisfiable with them, and the other way round. They may be installed or not; they may conflict with other packages. -/
theorem C105_unasked_packages (hs : SolverFor rs s) (hs' : SolverFor rs' s') {o o' : Orders} {q : Request N U}
    (he : effectiveJobs s' q = effectiveJobs s q) (hx : OnlyExtra rs rs' extra (effectiveJobs s q))
    (hi : ∀ p ∈ allPackages rs, InstalledKeys s p.key ↔ InstalledKeys s' p.key) :
    (∀ t, s.solve o q = .ok t → ∀ u, s'.solve o' q ≠ .error (.sat (.satisfiability u))) ∧
    (∀ t, s'.solve o' q = .ok t → ∀ u, s.solve o q ≠ .error (.sat (.satisfiability u))) := by
  constructor
  · intro t h u hu
    have h2 := C40_decides hs' o' q
    rw [hu] at h2
    obtain ⟨I, hI⟩ := solvable_of_ok hs h
    refine h2 ⟨I, ?_⟩
    unfold Solves at *
    rw [he]
    exact hx.forth hi hI
  · intro t h u hu
    have h2 := C40_decides hs o q
    rw [hu] at h2
    obtain ⟨I, hI⟩ := solvable_of_ok hs' h
    unfold Solves at *
    rw [he] at hI
    exact h2 ⟨_, hx.back hi hI⟩

/-- C105 for requests without an upgrade -/
theorem C105_unasked_packages_plain (hs : SolverFor rs s) (hs' : SolverFor rs' s') {o o' : Orders} {q : Request N U}
    (hp : ∀ j ∈ q.jobs, j.kind ≠ .upgrade) (hx : OnlyExtra rs rs' extra q.jobs)
    (hi : ∀ p ∈ allPackages rs, InstalledKeys s p.key ↔ InstalledKeys s' p.key) :
    (∀ t, s.solve o q = .ok t → ∀ u, s'.solve o' q ≠ .error (.sat (.satisfiability u))) ∧
    (∀ t, s'.solve o' q = .ok t → ∀ u, s.solve o q ≠ .error (.sat (.satisfiability u))) := by
  have e := effectiveJobs_plain s hp
  have e' := effectiveJobs_plain s' hp
  exact C105_unasked_packages hs hs' (by rw [e, e']) (by rw [e]; exact hx) hi

/-! ### C106 -/

/-- C106: a solver in strict mode either does exactly what the same solver does in the default mode, or raises an exception:
MissingInstallRequires, MissingConflicts, or (undocumented, see C56) TypeError. -/
theorem C106_strict_or_refused (hs : SolverFor rs s) (o : Orders) (q : Request N U) :
    { s with strict := true }.solve o q = { s with strict := false }.solve o q ∨
    ∃ e, { s with strict := true }.solve o q = .error (.pkg e) ∧
      (e = .missingInstallRequires ∨ e = .missingConflicts ∨ e = .typeError) := by
  rw [solve_stages, solve_stages]
  have hp : DependencySolver.solvePool { s with strict := true } q = DependencySolver.solvePool { s with strict := false } q := rfl
  rw [hp]
  have hb : Built rs (activeModifiers q.modifiers) (DependencySolver.solvePool { s with strict := false } q) :=
    (hs.solvePool q)
  unfold createRules
  simp only
  cases jobIds (DependencySolver.solvePool { s with strict := false } q) s.installed
      (convertUpgrade q s.remote s.installed).jobs [] [] with
  | error e => exact Or.inl rfl
  | ok x =>
    cases hd : installedDict (DependencySolver.solvePool { s with strict := false } q) s.installed.iter [] with
    | error e => exact Or.inl (by simp only [bind, Except.bind])
    | ok d =>
      cases hpr : preferIds (DependencySolver.solvePool { s with strict := false } q) o.prefer s.installed.iter x.2 with
      | error e => exact Or.inl (by simp only [bind, Except.bind, hpr])
      | ok pr =>
        simp only [bind, Except.bind, hpr]
        rcases C56_strict_mode_partial hb (jobs := (convertUpgrade q s.remote s.installed).jobs) (installed := d) with h | ⟨e, h, hw⟩
        · left
          rw [h]
          rfl
        · right
          refine ⟨e, by rw [h], ?_⟩
          rcases hw with ⟨rfl, -⟩ | ⟨rfl, -⟩ | ⟨rfl, -⟩
          · exact Or.inl rfl
          · exact Or.inr (Or.inl rfl)
          · exact Or.inr (Or.inr rfl)

/-- C106: what a strict solver returns, or finds to be unsatisfiable, the default one does too. -/
theorem C106_same_answers (hs : SolverFor rs s) (o : Orders) (q : Request N U) :
    (∀ t, { s with strict := true }.solve o q = .ok t → { s with strict := false }.solve o q = .ok t) ∧
    (∀ e, { s with strict := true }.solve o q = .error (.sat e) → { s with strict := false }.solve o q = .error (.sat e)) := by
  rcases C106_strict_or_refused hs o q with h | ⟨e, h, -⟩ <;> rw [h]
  · exact ⟨fun _ => id, fun _ => id⟩
  · exact ⟨fun _ h => by simp at h, fun _ h => by simp at h⟩

/-! ### concrete cases -/
namespace MetamorphicExample
open Verif.Pkg.Example Verif.Solve.Example Verif.Solve.Check SolveExample

/-- C103: a hard update of 1 to a version `>= 1` can be solved, so installing any 1 is not unsatisfiable; and removing 4 in all
versions can be solved, so removing it in version 1 is not unsatisfiable -/
theorem less_solved : solved ((solver inst remote).solve insertionOrder
    (request [hardUpdate (req 1 [.geq (v 1)]), remove (req 4)])) =
    some (.ok ([.remove (pkg 9 4 1), .remove (pkg 9 1 1), .install (pkg 0 1 2)],
      [.remove (pkg 9 4 1), .update (pkg 0 1 2) (pkg 9 1 1)])) := by
  decide +kernel

example (o' : Orders) (u : Sat.UnsatInfo) : (solver inst remote).solve o'
    (request [install (req 1), remove (req 4 [.equal (v 1)])]) ≠ .error (.sat (.satisfiability u)) := by
  obtain ⟨t, ht, -⟩ := solved_ok less_solved
  refine C103_wider_versions (q := request [hardUpdate (req 1 [.geq (v 1)]), remove (req 4)])
    (q' := request [install (req 1), remove (req 4 [.equal (v 1)])]) forExample rfl (by decide +kernel) ?_ ht u
  intro j hj
  simp only [request, List.mem_cons, List.not_mem_nil, or_false] at hj
  right
  rcases hj with rfl | rfl
  · refine ⟨req 1 [.geq (v 1)], req 1, rfl, Or.inl ⟨.hardUpdate, .install, Or.inl rfl, Or.inr rfl, by decide +kernel, rfl, ?_⟩⟩
    intro w _ c hc
    simp only [req, List.mem_singleton] at hc
    subst hc
    trivial
  · refine ⟨req 4, req 4 [.equal (v 1)], rfl, Or.inr ⟨by decide +kernel, rfl, ?_⟩⟩
    intro w _ c hc
    simp only [req, List.mem_singleton] at hc
    subst hc
    trivial

/-- an exception of `solve` that is not one of the package layer is SatisfiabilityError -/
theorem unsat_of_solved {rs : List (Repository Nat Str Nat)} {s : DependencySolver Nat Str Nat} (hs : SolverFor rs s) {o : Orders}
    {q : Request Nat Nat} (h : solved (s.solve o q) = none) : ∃ u, s.solve o q = .error (.sat (.satisfiability u)) := by
  have hd := C40_decides hs o q
  cases hr : s.solve o q with
  | ok t => rw [hr] at h; simp [solved] at h
  | error e =>
    rw [hr] at h hd
    match e with
    | .pkg e => simp [solved] at h
    | .sat (.satisfiability u) => exact ⟨u, rfl⟩
    | .sat .assertion => exact hd.elim
    | .sat .indexError => exact hd.elim
    | .sat .keyError => exact hd.elim
    | .sat .typeError => exact hd.elim
    | .sat .stopIteration => exact hd.elim
    | .sat .outOfFuel => exact hd.elim
    | .hint _ _ => exact hd.elim
    | .unexpectedlySatisfiable => exact hd.elim

/-- C104: 1-1 depends on 2 in version 1 exactly and on some 3 of the upstream version 1; with the modifiers a newer 2 and an
older 3 would do -/
def modRemote : List P := [pkg 0 1 1 [depc 2 (.equal (v 1)), depc 3 (.upstream (v 1))], pkg 0 2 1, pkg 0 2 2, pkg 0 3 1]

theorem mod_solved : solved ((solver [] modRemote).solve insertionOrder (request [install (req 1)])) =
    some (.ok ([.install (pkg 0 2 1), .install (pkg 0 3 1),
        .install (pkg 0 1 1 [depc 2 (.equal (v 1)), depc 3 (.upstream (v 1))])],
      [.install (pkg 0 2 1), .install (pkg 0 3 1),
        .install (pkg 0 1 1 [depc 2 (.equal (v 1)), depc 3 (.upstream (v 1))])])) := by
  decide +kernel

theorem mod_builds : PlainBuilds (allPackages (repos [] modRemote)) (⟨[2], [], [3]⟩ : Modifiers Nat) := by
  have h : ∀ p ∈ allPackages (repos [] modRemote), p.version.build = 0 := by decide +kernel
  have h' : ∀ p ∈ allPackages (repos [] modRemote), ∀ t ∈ p.installRequires,
      ∀ r ∈ (fromConstraints (U := Nat) .install t).toOption, ∀ c ∈ r.constraints, c ≠ .upstream (v 1) → c = .equal (v 1) := by
    decide +kernel
  intro p hp t ht _ r hr w hw q hq _
  rw [h q hq]
  refine ⟨?_, by omega⟩
  by_cases e : Constraint.upstream w = .upstream (v 1)
  · cases e; exact Nat.le_refl _
  · have := h' p hp t ht r (by rw [hr]; rfl) _ hw e
    cases this

example (o' : Orders) (u : Sat.UnsatInfo) : (solver [] modRemote).solve o' ⟨⟨[2], [], [3]⟩, [install (req 1)]⟩ ≠
    .error (.sat (.satisfiability u)) := by
  obtain ⟨t, ht, -⟩ := solved_ok mod_solved
  exact C104_more_modifiers_partial (q := request [install (req 1)]) (q' := ⟨⟨[2], [], [3]⟩, [install (req 1)]⟩)
    (solverFor (by decide +kernel) (by decide +kernel)) rfl
    ⟨by simp [request, Modifiers.empty], by simp [request, Modifiers.empty], by simp [request, Modifiers.empty]⟩ mod_builds ht u

/-- C104 without the proviso is false of the code: 1-1 depends on `2 ^= 1-3`, and the only 2 has version 1-1. The request to
install 1 can be solved; if newer versions of 2 are allowed too, it is unsatisfiable. -/
def oldBuild : P := { pkg 0 2 1 with version := ⟨1, 1⟩ }

theorem C104_violated : MoreModifiers Modifiers.empty (⟨[2], [], []⟩ : Modifiers Nat) ∧
    (∃ t, (solver [] [pkg 0 1 1 [depc 2 (.upstream ⟨1, 3⟩)], oldBuild]).solve insertionOrder
      ⟨Modifiers.empty, [install (req 1)]⟩ = .ok t) ∧
    ∃ u, (solver [] [pkg 0 1 1 [depc 2 (.upstream ⟨1, 3⟩)], oldBuild]).solve insertionOrder
      ⟨⟨[2], [], []⟩, [install (req 1)]⟩ = .error (.sat (.satisfiability u)) := by
  refine ⟨⟨by simp [Modifiers.empty], by simp [Modifiers.empty], by simp [Modifiers.empty]⟩, ?_, ?_⟩
  · have : solved ((solver [] [pkg 0 1 1 [depc 2 (.upstream ⟨1, 3⟩)], oldBuild]).solve insertionOrder
        ⟨Modifiers.empty, [install (req 1)]⟩) = some (.ok ([.install oldBuild, .install (pkg 0 1 1 [depc 2 (.upstream ⟨1, 3⟩)])],
          [.install oldBuild, .install (pkg 0 1 1 [depc 2 (.upstream ⟨1, 3⟩)])])) := by decide +kernel
    obtain ⟨t, ht, -⟩ := solved_ok this
    exact ⟨t, ht⟩
  · exact unsat_of_solved (rs := repos [] [pkg 0 1 1 [depc 2 (.upstream ⟨1, 3⟩)], oldBuild])
      (solverFor (by decide +kernel) (by decide +kernel)) (by decide +kernel)

/-- C105: 7-1, which conflicts with 3, is also available, and 8-1, whose dependency nobody provides, is also installed -/
def inst8 : List P := inst ++ [pkg 9 8 1 [dep 77]]
def remote7 : List P := remote ++ [pkg 0 7 1 [] [dep 3]]

theorem extra78 : OnlyExtra (repos inst remote) (repos inst8 remote7) (fun p => decide (p.name = 7 ∨ p.name = 8))
    [install (req 3), remove (req 4)] := by
  have hj : ∀ j ∈ [install (req 3), remove (req 4)], j.kind ≠ .remove → ∀ r ∈ j.requirement,
      ∀ x ∈ allPackages (repos inst8 remote7), decide (x.name = 7 ∨ x.name = 8) = true → r.name ∉ x.provNames := by
    decide +kernel
  refine ⟨by decide +kernel, by decide +kernel, ?_, ?_⟩
  · simp only [provides_iff]
    decide +kernel
  · intro j hj' hk r hr x hx he hm
    exact hj j hj' hk r hr x hx he ((provides_iff x _).1 hm.1)

theorem installed78 : ∀ p ∈ allPackages (repos inst remote),
    InstalledKeys (solver inst remote) p.key ↔ InstalledKeys (solver inst8 remote7) p.key := by
  simp only [installedKeys_eq]
  decide +kernel

example (o' : Orders) (u : Sat.UnsatInfo) : (solver inst8 remote7).solve o'
    (request [install (req 3), remove (req 4)]) ≠ .error (.sat (.satisfiability u)) := by
  obtain ⟨t, ht, -⟩ := solved_ok example_install
  exact (C105_unasked_packages_plain (o := insertionOrder) forExample (solverFor (by decide +kernel) (by decide +kernel))
    (q := request [install (req 3), remove (req 4)]) (by decide +kernel) extra78 installed78).1 t ht u

/-- C106: a strict solver that returns, and one that refuses because nobody provides 77 -/
example : solved ((solver [] modRemote true true).solve insertionOrder (request [install (req 1)])) =
    solved ((solver [] modRemote true false).solve insertionOrder (request [install (req 1)])) := by
  decide +kernel

example : solved ((solver [] [pkg 0 1 1, pkg 0 1 2 [dep 77]] true true).solve insertionOrder (request [install (req 1)])) =
      some (.error .missingInstallRequires) ∧
    solved ((solver [] [pkg 0 1 1, pkg 0 1 2 [dep 77]] true false).solve insertionOrder (request [install (req 1)])) =
      some (.ok ([.install (pkg 0 1 1)], [.install (pkg 0 1 1)])) := by
  constructor <;> decide +kernel

end MetamorphicExample
end Verif.Props
