import Verif.Solve.BlameLemmas
import Verif.Rules.Refuses
import Verif.Solve.Example
import Verif.Props.Solve
/-
C91: what the exceptions of `solve` name. C92: what the strict mode refuses.
-/
set_option linter.unusedSectionVars false
namespace Verif.Props
open Verif Verif.Pkg Verif.Solve Verif.Rules

variable {N S U : Type} [LinearOrder N] [DecidableEq S] [LinearOrder U] [Syntax S U]

/-! ### C91 -/

/-- What an exception says is so. It is a class, an attribute `requirement` and the package named in the message.

`avail` are the packages of the pool, `mods` the modifiers of the request. -/
inductive Explained (avail : List (Package N S U)) (mods : Option (Modifiers N)) (strict : Bool) (jobs : List (Job N U)) :
    Blame N S U → Prop where
  /-- NoPackageFound: `requirement` is that of the first job that no package meets. -/
  | job {before j after r} : jobs = before ++ j :: after → (∀ k ∈ before, JobPossible avail k) → j.kind ≠ .upgrade →
      j.requirement = some r → (∀ p ∈ avail, ¬ MeetsJob r p) →
      Explained avail mods strict jobs ⟨.noPackageFound, some r, none⟩
  /-- MissingInstallRequires (strict mode): all jobs can be met, and `requirement` is a dependency of the named package,
  which a job asks for, and no package meets it. -/
  | dependency {p r t j rj} : strict = true → (∀ k ∈ jobs, JobPossible avail k) → p ∈ avail → t ∈ p.installRequires →
      fromConstraints .install t = .ok r → (∀ q ∈ avail, ¬ Meets mods true r q) → j ∈ jobs → j.kind ≠ .remove →
      j.requirement = some rj → MeetsJob rj p → Explained avail mods strict jobs ⟨.missingInstallRequires, some r, some p⟩
  /-- MissingConflicts (strict mode): the same for a conflict. -/
  | conflict {p r t j rj} : strict = true → (∀ k ∈ jobs, JobPossible avail k) → p ∈ avail → t ∈ p.conflicts →
      fromConstraints .conflict t = .ok r → (∀ q ∈ avail, ¬ Meets mods true r q) → j ∈ jobs → j.kind ≠ .remove →
      j.requirement = some rj → MeetsJob rj p → Explained avail mods strict jobs ⟨.missingConflicts, some r, some p⟩
  /-- the other classes have no such attribute -/
  | other {e} : e ≠ .noPackageFound → e ≠ .missingInstallRequires → e ≠ .missingConflicts →
      Explained avail mods strict jobs ⟨e, none, none⟩

/-! #### Proofs -/

section
variable {pool : Pool N S U} {avail : List (Package N S U)} (hok : pool.OK avail) {inst : Repository N S U}
include hok

theorem jobIdsB_step {j : Job N U} (hj : JobPossible avail j) (js : List (Job N U)) (ids : List Nat) (soft : List (Package N S U)) :
    ∃ ids' soft', jobIdsB pool inst (j :: js) ids soft = jobIdsB pool inst js ids' soft' := by
  obtain ⟨hk, r, hr, p, hp, hm⟩ := hj
  conv in jobIdsB pool inst (j :: js) ids soft => unfold jobIdsB
  rw [if_neg hk]
  simp only [hr]
  cases hps : pool.whatProvides r false with
  | error e => exact absurd (whatProvides_err hps).2 (by simp)
  | ok ps =>
    have hmem := Run.mem_jobProviders (R := ⟨pool, avail, [], []⟩) hok hps
    have hne : ps ≠ [] := by
      rintro rfl
      have := (hmem p).2 ⟨hp, hm⟩
      simp at this
    have hk2 : ∃ kept, (if j.kind = .hardUpdate then (maxPkg (hardKey inst) ps).map (fun p => [p]) else .ok ps) = .ok kept ∧
        ∀ x ∈ kept, x ∈ avail := by
      split
      · cases hx : maxPkg (hardKey inst) ps with
        | error e =>
          exfalso
          cases ps with
          | nil => exact hne rfl
          | cons x xs =>
            have aux : ∀ (l : List (Package N S U)) b e, maxPkgFrom (hardKey inst) l b ≠ .error e := by
              intro l
              induction l with
              | nil => intro b e h; cases h
              | cons y l ih =>
                intro b e h
                simp only [maxPkgFrom, hardKey, bind, Except.bind] at h
                split at h <;> exact ih _ _ h
            simp only [maxPkg, hardKey, bind, Except.bind] at hx
            exact aux _ _ _ hx
        | ok x =>
          refine ⟨[x], rfl, ?_⟩
          intro y hy
          rw [List.mem_singleton] at hy
          subst hy
          exact ((hmem y).1 (Run.addUpdateJob_mem (R := ⟨pool, avail, [], []⟩) hok hx)).1
      · exact ⟨ps, rfl, fun x hx => ((hmem x).1 hx).1⟩
    obtain ⟨kept, hkept, hav⟩ := hk2
    obtain ⟨more, hmore⟩ := mapE_ok_of (f := pool.packageId) (xs := kept)
      (fun x hx => hok.ids.packageId_ok ⟨x, hav x hx, rfl⟩)
    have he : ps.isEmpty = false := by cases ps with
      | nil => exact absurd rfl hne
      | cons _ _ => rfl
    refine ⟨ids ++ more, if j.kind = .softUpdate then soft ++ ps.filter inst.contains else soft, ?_⟩
    simp only [plain, bind, Except.bind, he]
    split at hkept
    · next hu =>
      simp only [if_pos hu] 
      rw [hkept]
      simp only [hmore, Bool.false_eq_true, if_false]
    · next hu =>
      cases hkept
      simp only [if_neg hu, hmore, Bool.false_eq_true, if_false]

theorem jobIdsB_missing {j : Job N U} (hk : j.kind ≠ .upgrade) {r : Requirement N U} (hr : j.requirement = some r)
    (hn : ∀ p ∈ avail, ¬ MeetsJob r p) (js : List (Job N U)) (ids : List Nat) (soft : List (Package N S U)) :
    jobIdsB pool inst (j :: js) ids soft = .error ⟨.noPackageFound, some r, none⟩ := by
  unfold jobIdsB
  rw [if_neg hk]
  simp only [hr]
  cases hps : pool.whatProvides r false with
  | error e => exact absurd (whatProvides_err hps).2 (by simp)
  | ok ps =>
    have hmem := Run.mem_jobProviders (R := ⟨pool, avail, [], []⟩) hok hps
    cases ps with
    | nil => rfl
    | cons p ps =>
      have := (hmem p).1 (by simp)
      exact absurd this.2 (hn p this.1)

theorem jobIdsB_blocked (before : List (Job N U)) {j : Job N U} (after : List (Job N U)) {r : Requirement N U}
    (hb : ∀ k ∈ before, JobPossible avail k) (hk : j.kind ≠ .upgrade) (hr : j.requirement = some r)
    (hn : ∀ p ∈ avail, ¬ MeetsJob r p) (ids : List Nat) (soft : List (Package N S U)) :
    jobIdsB pool inst (before ++ j :: after) ids soft = .error ⟨.noPackageFound, some r, none⟩ := by
  induction before generalizing ids soft with
  | nil => exact jobIdsB_missing hok hk hr hn _ _ _
  | cons k before ih =>
    obtain ⟨ids', soft', h⟩ := jobIdsB_step hok (inst := inst) (hb k (by simp)) (before ++ j :: after) ids soft
    rw [List.cons_append, h]
    exact ih (fun x hx => hb x (by simp [hx])) _ _

theorem jobIdsB_cases (js : List (Job N U)) (ids : List Nat) (soft : List (Package N S U)) :
    (∀ j ∈ js, JobPossible avail j) ∨
    ∃ before j after, js = before ++ j :: after ∧ (∀ k ∈ before, JobPossible avail k) ∧
      ((∃ r, j.kind ≠ .upgrade ∧ j.requirement = some r ∧ (∀ p ∈ avail, ¬ MeetsJob r p) ∧
        jobIdsB pool inst js ids soft = .error ⟨.noPackageFound, some r, none⟩) ∨
      (∃ e, jobIdsB pool inst js ids soft = .error ⟨e, none, none⟩ ∧ ¬ CarriesRequirement e)) := by
  induction js generalizing ids soft with
  | nil => exact Or.inl (by simp)
  | cons j js ih =>
    by_cases hj : JobPossible avail j
    · obtain ⟨ids', soft', h⟩ := jobIdsB_step hok (inst := inst) hj js ids soft
      rw [h]
      rcases ih ids' soft' with k | ⟨before, j', after, rfl, h1, h2⟩
      · exact Or.inl (by simpa using ⟨hj, k⟩)
      · exact Or.inr ⟨j :: before, j', after, rfl, by simpa using ⟨hj, h1⟩, h2⟩
    · refine Or.inr ⟨[], j, js, rfl, by simp, ?_⟩
      by_cases hk : j.kind = .upgrade
      · refine Or.inr ⟨.assertion, ?_, by rintro (k | k | k) <;> cases k⟩
        unfold jobIdsB
        rw [if_pos hk]
        rfl
      · cases hr : j.requirement with
        | none =>
          refine Or.inr ⟨.typeError, ?_, by rintro (k | k | k) <;> cases k⟩
          unfold jobIdsB
          rw [if_neg hk]
          simp only [hr]
          rfl
        | some r =>
          have hn : ∀ p ∈ avail, ¬ MeetsJob r p := fun p hp hm => hj ⟨hk, r, hr, p, hp, hm⟩
          exact Or.inl ⟨r, hk, rfl, hn, jobIdsB_missing hok hk hr hn _ _ _⟩

end

theorem plain_error {α : Type} {x : Except PErr α} {b : Blame N S U} (h : plain x = .error b) :
    ∃ e, x = .error e ∧ b = ⟨e, none, none⟩ := by
  cases x with
  | ok a => cases h
  | error e => cases h; exact ⟨e, rfl, rfl⟩

theorem explained_quiet {α : Type} {avail : List (Package N S U)} {mods : Option (Modifiers N)} {strict : Bool} {jobs : List (Job N U)}
    {x : Except PErr α} (hx : Quiet x) {b : Blame N S U} (h : plain x = .error b) : Explained avail mods strict jobs b := by
  obtain ⟨e, he, rfl⟩ := plain_error h
  have := hx e he
  unfold CarriesRequirement at this
  push Not at this
  exact .other this.1 this.2.1 this.2.2

theorem iterRulesB_explained {rs : List (Repository N S U)} {mods : Option (Modifiers N)} {pool : Pool N S U} (hb : Built rs mods pool)
    {jobs : List (Job N U)} {installed : Dict Nat (Package N S U)} {strict : Bool} (hp : ∀ j ∈ jobs, JobPossible (allPackages rs) j)
    {b : Blame N S U} (h : iterRulesB strict pool jobs installed = .error b) :
    Explained (allPackages rs) mods strict jobs b := by
  have hm := hb.modifiers
  subst hm
  have hstrict : b.err = .missingInstallRequires ∨ b.err = .missingConflicts → strict = true := by
    have ht := C38_terminates hb (jobs := jobs) (installed := installed) (strict := strict) (by
      intro j hj
      obtain ⟨h1, r, h2, -⟩ := hp j hj
      exact ⟨h1, by rw [h2]; simp⟩)
    rw [← forget_iterRules, h] at ht
    simp only [forget] at ht
    rintro (k | k) <;> rw [k] at ht <;> simpa using ht
  rcases Run.iterRules_fine (R := ⟨pool, allPackages rs, jobs, installed⟩) hb.ok strict b h with
    ⟨r, rfl, ⟨j, hj, hr, -⟩, hn⟩ | ⟨r, p, rfl, h1, ⟨j, hj, rj, hr, hk, hmj⟩, ⟨t, ht, hf⟩, hn⟩ |
    ⟨r, p, rfl, h1, ⟨j, hj, rj, hr, hk, hmj⟩, ⟨t, ht, hf⟩, hn⟩ | ⟨e, rfl, he⟩
  · obtain ⟨-, r', hr', p, hp', hm'⟩ := hp j hj
    rw [hr] at hr'
    cases hr'
    exact absurd hm' (hn p hp')
  · exact .dependency (hstrict (Or.inl rfl)) hp h1 ht hf hn hj hk hr hmj
  · exact .conflict (hstrict (Or.inr rfl)) hp h1 ht hf hn hj hk hr hmj
  · unfold CarriesRequirement at he
    push Not at he
    exact .other he.1 he.2.1 he.2.2

theorem Explained.active {avail : List (Package N S U)} {m : Modifiers N} {strict : Bool} {jobs : List (Job N U)} {b : Blame N S U}
    (h : Explained avail (activeModifiers m) strict jobs b) : Explained avail (some m) strict jobs b := by
  cases h with
  | job h1 h2 h3 h4 h5 => exact .job h1 h2 h3 h4 h5
  | dependency h0 h1 h2 h3 h4 h5 h6 h7 h8 h9 =>
    simp only [meets_active] at h5
    exact .dependency h0 h1 h2 h3 h4 h5 h6 h7 h8 h9
  | conflict h0 h1 h2 h3 h4 h5 h6 h7 h8 h9 =>
    simp only [meets_active] at h5
    exact .conflict h0 h1 h2 h3 h4 h5 h6 h7 h8 h9
  | other h1 h2 h3 => exact .other h1 h2 h3

/-! #### Theorems -/

variable {rs : List (Repository N S U)} {s : DependencySolver N S U}

/-- The exceptions with their data are those of `solve`: leaving out the data gives the function of which the other
properties speak. -/
theorem C91_same (s : DependencySolver N S U) (o : Orders) (q : Request N U) : forgetS (s.solveB o q) = s.solve o q :=
  forget_solve s o q

/-- **C91**: every exception of `solve`, except SatisfiabilityError, is explained by the data it carries. -/
theorem C91_explained (hs : SolverFor rs s) (o : Orders) (q : Request N U) {b : Blame N S U}
    (h : s.solveB o q = .error (.pkg b)) :
    Explained (allPackages rs) (some q.modifiers) s.strict (effectiveJobs s q) b := by
  apply Explained.active
  have hb := hs.solvePool q
  unfold DependencySolver.solveB at h
  simp only [solvePool_convert] at h
  unfold effectiveJobs
  generalize convertUpgrade q s.remote s.installed = q' at h ⊢
  split at h
  · next b' hc =>
    cases h
    unfold createRulesB at hc
    rw [bind_err] at hc
    rcases jobIdsB_cases hb.ok (inst := s.installed) q'.jobs [] [] with hp | ⟨before, j, after, hj, hbef, h1 | h1⟩
    · rcases hc with hc | ⟨⟨ids, soft⟩, -, hc⟩
      · exfalso
        have aux : ∀ (js : List (Job N U)) ids soft, (∀ j ∈ js, JobPossible (allPackages rs) j) →
            ∃ x, jobIdsB (s.solvePool q) s.installed js ids soft = .ok x := by
          intro js
          induction js with
          | nil => intro ids soft _; exact ⟨_, rfl⟩
          | cons j js ih =>
            intro ids soft hp
            obtain ⟨ids', soft', h'⟩ := jobIdsB_step hb.ok (inst := s.installed) (hp j (by simp)) js ids soft
            rw [h']
            exact ih _ _ (fun k hk => hp k (by simp [hk]))
        obtain ⟨x, hx⟩ := aux q'.jobs [] [] hp
        rw [hx] at hc
        cases hc
      · simp only [bind_err] at hc
        rcases hc with hc | ⟨d, -, hc | ⟨pr, -, hc | ⟨g, -, hc⟩⟩⟩
        · exact explained_quiet (quiet_installedDict _ _ _) hc
        · exact explained_quiet (quiet_prefer _ _ _ _) hc
        · exact iterRulesB_explained hb hp hc
        · cases hc
    · obtain ⟨r, hk, hr, hn, h2⟩ := h1
      rcases hc with hc | ⟨x, hx, -⟩
      · rw [h2] at hc
        cases hc
        exact .job hj hbef hk hr hn
      · rw [h2] at hx
        cases hx
    · obtain ⟨e, h2, he⟩ := h1
      rcases hc with hc | ⟨x, hx, -⟩
      · rw [h2] at hc
        cases hc
        unfold CarriesRequirement at he
        push Not at he
        exact .other he.1 he.2.1 he.2.2
      · rw [h2] at hx
        cases hx
  · split at h
    · cases h
    · split at h
      · next b' hf =>
        cases h
        exact explained_quiet (quiet_finish _ _ _ _ _) hf
      · cases h

/-- **C91**: if no package meets a job, `solve` raises NoPackageFound for the first such job, whatever the other jobs, the
modes and the iteration orders of sets. -/
theorem C91_first_missing (hs : SolverFor rs s) (o : Orders) (q : Request N U) {before after : List (Job N U)} {j : Job N U}
    (hj : effectiveJobs s q = before ++ j :: after) (hbef : ∀ k ∈ before, JobPossible (allPackages rs) k)
    (hk : j.kind ≠ .upgrade) {r : Requirement N U} (hr : j.requirement = some r)
    (hn : ∀ p ∈ allPackages rs, ¬ MeetsJob r p) :
    s.solveB o q = .error (.pkg ⟨.noPackageFound, some r, none⟩) ∧ s.solve o q = .error (.pkg .noPackageFound) := by
  have hb := hs.solvePool q
  have h1 : s.solveB o q = .error (.pkg ⟨.noPackageFound, some r, none⟩) := by
    unfold DependencySolver.solveB
    simp only [solvePool_convert]
    unfold effectiveJobs at hj
    generalize convertUpgrade q s.remote s.installed = q' at hj ⊢
    have : createRulesB s o (s.solvePool q) q' = .error ⟨.noPackageFound, some r, none⟩ := by
      unfold createRulesB
      rw [hj, jobIdsB_blocked hb.ok before after hbef hk hr hn]
      rfl
    rw [this]
  refine ⟨h1, ?_⟩
  rw [← C91_same, h1]
  rfl

/-! ### C92 -/

/-- a dependency or conflict of `p` is met by no available package -/
def Incomplete (avail : List (Package N S U)) (mods : Option (Modifiers N)) (p : Package N S U) : Prop :=
  (∃ t ∈ p.installRequires, ∃ r : Requirement N U, fromConstraints .install t = .ok r ∧ ∀ q ∈ avail, ¬ Meets mods true r q) ∨
  (∃ t ∈ p.conflicts, ∃ r : Requirement N U, fromConstraints .conflict t = .ok r ∧ ∀ q ∈ avail, ¬ Meets mods true r q)

/-- `k` can serve as a dependency of a package that a job leads to -/
def UsedAsDependency (avail : List (Package N S U)) (mods : Option (Modifiers N)) (jobs : List (Job N U)) (k : PKey N S U) : Prop :=
  ∃ l p, Trail avail mods jobs l p ∧ ∃ t ∈ p.installRequires, ∃ q ∈ avail, q.key = k ∧ MeetsDep mods t q

theorem trail_long {avail : List (Package N S U)} {mods : Option (Modifiers N)} {jobs : List (Job N U)} {l : List (Requirement N U)}
    {p : Package N S U} (h : Trail avail mods jobs l p) (hl : l.length ≠ 1) : UsedAsDependency avail mods jobs p.key := by
  cases h with
  | job => exact absurd rfl hl
  | dep h1 h2 h3 h4 h5 => exact ⟨_, _, h1, _, h2, _, h4, rfl, _, h3, h5⟩

theorem trail_activeModifiers {avail : List (Package N S U)} {m : Modifiers N} {jobs : List (Job N U)} {l : List (Requirement N U)}
    {p : Package N S U} : Trail avail (activeModifiers m) jobs l p ↔ Trail avail (some m) jobs l p := by
  constructor
  · intro h
    induction h with
    | job h1 h2 h3 h4 h5 => exact .job h1 h2 h3 h4 h5
    | dep _ h2 h3 h4 h5 ih => exact .dep ih h2 h3 h4 ((meets_active _ _ _ _).1 h5)
  · intro h
    induction h with
    | job h1 h2 h3 h4 h5 => exact .job h1 h2 h3 h4 h5
    | dep _ h2 h3 h4 h5 ih => exact .dep ih h2 h3 h4 ((meets_active _ _ _ _).2 h5)

/-- the generator in strict mode, for a package whose rules were added -/
theorem strict_added {mods : Option (Modifiers N)} {pool : Pool N S U} (hb : Built rs mods pool) {jobs : List (Job N U)}
    {installed : Dict Nat (Package N S U)} {g : Gen N U} (h : iterRules true pool jobs installed = .ok g) {p : Package N S U} {i : Nat}
    (hi : pool.packageId p = .ok i) (hadd : i ∈ g.added) :
    ¬ Incomplete (allPackages rs) mods p ∨ UsedAsDependency (allPackages rs) mods jobs p.key := by
  have hm := hb.modifiers
  subst hm
  obtain ⟨p', reqs, hp', ho, hc⟩ := Run.iterRules_clean (R := ⟨pool, allPackages rs, jobs, installed⟩) hb.ok h i hadd
  have hk : p'.key = p.key := by
    obtain ⟨_, _, a, ha, ha', -⟩ := hb.ok.ids.packageId_spec hp'
    obtain ⟨_, _, b, hb', hb'', -⟩ := hb.ok.ids.packageId_spec hi
    rw [ha] at hb'
    cases hb'
    exact ha'.symm.trans hb''
  rcases hc with ⟨h1, h2⟩ | ⟨l, rfl, hl⟩
  · left
    have e1 : p'.installRequires = p.installRequires := congrArg PKey.installRequires hk
    have e2 : p'.conflicts = p.conflicts := congrArg PKey.conflicts hk
    rintro (⟨t, ht, r, hr, hn⟩ | ⟨t, ht, r, hr, hn⟩)
    · exact h1 t (e1 ▸ ht) ⟨r, hr, hn⟩
    · exact h2 t (e2 ▸ ht) ⟨r, hr, hn⟩
  · right
    have := trail_long ho hl
    rw [hk] at this
    exact this

/-- **C92** (partial): in strict mode `solve` refuses a request that concerns an incomplete package: one that a job asks to
install or update to, an installed one, or one that provides the name of an installed one. What is missing: this is only so
if the package cannot serve as a dependency of another package that the request leads to; see `C92_violated_dependency`. -/
theorem C92_refused_partial (hs : SolverFor rs s) (o : Orders) (q : Request N U) (hstrict : s.strict = true)
    {p : Package N S U} (hp : p ∈ allPackages rs)
    (hc : (∃ j ∈ effectiveJobs s q, j.kind ≠ .remove ∧ Requested (allPackages rs) (InstalledKeys s) j p) ∨
      InstalledKeys s p.key ∨ NearInstalled (InstalledKeys s) p)
    (hi : Incomplete (allPackages rs) (some q.modifiers) p)
    (hn : ¬ UsedAsDependency (allPackages rs) (some q.modifiers) (effectiveJobs s q) p.key) :
    ∃ e, s.solve o q = .error (.pkg e) := by
  have hb := hs.solvePool q
  rw [solve_stages]
  cases hcr : createRules s o (s.solvePool q) (convertUpgrade q s.remote s.installed) with
  | error e => exact ⟨e, rfl⟩
  | ok st =>
    exfalso
    have hsp := createRules_spec hb hs hcr
    obtain ⟨i, hid⟩ := hb.ok.ids.packageId_ok ⟨p, hp, rfl⟩
    have hadd : i ∈ st.gen.added := by
      obtain ⟨-, hjobs, hins⟩ := iterRules_spec hsp.gen
      have hinst : ∀ k, InstalledKeys s k → ∃ e ∈ st.installedDict, e.2.key = k := fun k hk => (hsp.inst k).2 hk
      have hinstalled : i ∈ dkeys st.installedDict → i ∈ st.gen.added := by
        intro hk
        unfold dkeys at hk
        obtain ⟨e, he, rfl⟩ := List.mem_map.1 hk
        obtain ⟨⟨j', hj', hadd⟩, -⟩ := hins e.2 (List.mem_map.2 ⟨e, he, rfl⟩)
        rw [hsp.ids e he] at hj'
        cases hj'
        exact hadd
      rcases hc with ⟨j, hj, hk, r, hr1, hr2⟩ | hc | ⟨k, hk, hprov⟩
      · have hd := hjobs j hj
        unfold JobDone at hd
        split at hd
        · next r' hk hr' =>
          rw [hr1] at hr'; cases hr'
          rw [hk] at hr2
          simp only [reduceCtorEq, if_false] at hr2
          obtain ⟨ps, ids, h1, -, -, -, h5⟩ := hd
          obtain ⟨j', hj', hadd⟩ := h5 p ((Run.mem_jobProviders (R := ⟨s.solvePool q, allPackages rs, [], []⟩) hb.ok h1 p).2 hr2)
          rw [hid] at hj'; cases hj'
          exact hadd.elim hinstalled id
        · next r' hk hr' =>
          rw [hr1] at hr'; cases hr'
          rw [hk] at hr2
          simp only [reduceCtorEq, if_false] at hr2
          obtain ⟨ps, ids, h1, -, -, -, h5⟩ := hd
          obtain ⟨j', hj', hadd⟩ := h5 p ((Run.mem_jobProviders (R := ⟨s.solvePool q, allPackages rs, [], []⟩) hb.ok h1 p).2 hr2)
          rw [hid] at hj'; cases hj'
          exact hadd.elim hinstalled id
        · next hk' _ => exact absurd hk' hk
        · next r' hk hr' =>
          rw [hr1] at hr'; cases hr'
          rw [hk] at hr2
          simp only [if_true] at hr2
          obtain ⟨ps, h1, h2⟩ := hd
          rcases h2 with rfl | ⟨p', hp', j', hj', -, hadd⟩
          · obtain ⟨b, c, e, hmeet, -⟩ := hr2
            have := (Run.mem_jobProviders (R := ⟨s.solvePool q, allPackages rs, [], []⟩) hb.ok h1 p).2
              ⟨by rw [e]; simp, hmeet⟩
            simp at this
          · have ht := Run.maxPkg_target (R := ⟨s.solvePool q, allPackages rs, [], st.installedDict⟩) hb.ok hsp.ids h1 hp'
            have hset : (Run.mk (s.solvePool q) (allPackages rs) [] st.installedDict : Run N S U).isInst = InstalledKeys s := by
              funext k; exact propext (hsp.inst k)
            rw [hset] at ht
            rw [updateTarget_unique hr2 ht, hj'] at hid
            cases hid
            exact hadd
        · exact hd.elim
      · obtain ⟨e, he, hk⟩ := hinst _ hc
        obtain ⟨⟨j, hj, hadd⟩, -⟩ := hins e.2 (List.mem_map.2 ⟨e, he, rfl⟩)
        rw [(s.solvePool q).packageId_congr hk, hid] at hj
        cases hj
        exact hadd
      · obtain ⟨e, he, rfl⟩ := hinst _ hk
        obtain ⟨-, h2⟩ := hins e.2 (List.mem_map.2 ⟨e, he, rfl⟩)
        obtain ⟨j, hj, hadd⟩ := h2 p ((Run.mem_nameToPackages (R := ⟨s.solvePool q, allPackages rs, [], []⟩) hb.ok e.2.name p).2
          ⟨hp, hprov⟩)
        rw [hid] at hj
        cases hj
        exact hadd
    have hg := hsp.gen
    rw [hstrict] at hg
    rcases strict_added hb hg hid hadd with k | ⟨l, x, hx, t, ht, y, hy, hk, hm⟩
    · refine k ?_
      rcases hi with ⟨t, ht, r, hr, hn⟩ | ⟨t, ht, r, hr, hn⟩
      · exact Or.inl ⟨t, ht, r, hr, fun a ha hm => hn a ha ((meets_active _ _ _ _).1 hm)⟩
      · exact Or.inr ⟨t, ht, r, hr, fun a ha hm => hn a ha ((meets_active _ _ _ _).1 hm)⟩
    · exact hn ⟨l, x, trail_activeModifiers.1 hx, t, ht, y, hy, hk, (meetsDep_active _ _ _).1 hm⟩

/-! ### Concrete cases -/

namespace BlameExample
open Verif.Pkg.Example Verif.Solve.Example Verif.Rules

/-- an outcome that can be compared: the class, the attribute `requirement` and the package of an exception -/
inductive Seen where
  | transaction
  | unsatisfiable
  | raised (e : PErr) (name : Option Nat) (package : Option (Nat × Version Nat))
deriving DecidableEq

def seen : Except (SBlame Nat Str Nat) (Transaction Nat Str Nat) → Seen
  | .ok _ => .transaction
  | .error (.sat _) => .unsatisfiable
  | .error (.pkg b) => .raised b.err (b.requirement.map Requirement.name) (b.package.map fun p => (p.name, p.version))

/-- 1-1 depends on 2; 2-1 depends on 5, which does not exist; 3-1 conflicts with 6, which does not exist; 4-1 -/
def remote : List P := [pkg 0 1 1 [dep 2], pkg 0 2 1 [dep 5], pkg 0 3 1 [] [dep 6], pkg 0 4 1]

theorem solverFor (strict : Bool) : SolverFor [Repository.ofList [], Repository.ofList remote] (solver [] remote true strict) :=
  ⟨⟨none, none, poolOf [Repository.ofList [], Repository.ofList remote], rfl, rfl⟩, [], rfl⟩

/-- the second job is the first that cannot be met -/
example : seen ((solver [] remote).solveB insertionOrder (request [install (req 4), remove (req 7), install (req 8)])) =
    .raised .noPackageFound (some 7) none := by decide +kernel

example : seen ((solver [] remote true true).solveB insertionOrder (request [install (req 2)])) =
    .raised .missingInstallRequires (some 5) (some (2, v 1)) := by decide +kernel

example : seen ((solver [] remote true true).solveB insertionOrder (request [install (req 3)])) =
    .raised .missingConflicts (some 6) (some (3, v 1)) := by decide +kernel

/-- the same requests in the default mode -/
example : seen ((solver [] remote).solveB insertionOrder (request [install (req 2)])) = .unsatisfiable := by decide +kernel
example : seen ((solver [] remote).solveB insertionOrder (request [install (req 3)])) = .transaction := by decide +kernel

theorem nobody (q : P) (hq : q ∈ allPackages [Repository.ofList [], Repository.ofList remote]) : ¬ Provides q 5 := by
  have : ∀ q ∈ allPackages [Repository.ofList [], Repository.ofList remote], ¬ Provides q 5 := by
    simp only [provides_iff]
    decide +kernel
  exact this q hq

theorem incomplete : Incomplete (allPackages [Repository.ofList [], Repository.ofList remote]) (some Modifiers.empty)
    (pkg 0 2 1 [dep 5]) :=
  Or.inl ⟨dep 5, by decide +kernel, Requirement.ofName .install 5, by decide +kernel, fun q hq hm => nobody q hq hm.1⟩

/-- the hypotheses of `C92_refused_partial` are met by the request to install 2 alone -/
example (o : Orders) : ∃ e, (solver [] remote true true).solve o (request [install (req 2)]) = .error (.pkg e) := by
  have two : ∀ q ∈ allPackages [Repository.ofList [], Repository.ofList remote], Provides q 2 → q = pkg 0 2 1 [dep 5] := by
    simp only [provides_iff]
    decide +kernel
  have trails : ∀ l p, Trail (allPackages [Repository.ofList [], Repository.ofList remote]) (some Modifiers.empty)
      [install (req 2)] l p → p = pkg 0 2 1 [dep 5] := by
    intro l p h
    induction h with
    | job h1 h2 h3 h4 h5 =>
      rw [List.mem_singleton] at h1
      subst h1
      cases h2
      exact two _ h4 h5.1
    | dep _ h2 h3 h4 h5 ih =>
      subst ih
      have e : _ = dep 5 := List.mem_singleton.1 h2
      subst e
      have e : fromConstraints (N := Nat) (S := Str) (U := Nat) .install (dep 5) = .ok (Requirement.ofName .install 5) := by
        decide +kernel
      rw [e] at h3
      cases h3
      exact absurd h5.1 (nobody _ h4)
  refine C92_refused_partial (p := pkg 0 2 1 [dep 5]) (solverFor true) o (request [install (req 2)]) rfl (by decide +kernel)
    (Or.inl ⟨install (req 2), by decide +kernel, by decide +kernel, req 2, rfl, ?_⟩) incomplete ?_
  · rw [if_neg (by decide +kernel)]
    refine ⟨by decide +kernel, ?_, req 2, rfl, ?_⟩
    · rw [provides_iff]; decide +kernel
    · intro c hc
      rw [List.mem_singleton.1 hc]
      trivial
  · rintro ⟨l, p, hp, t, ht, q, hq, hk, r, hr, hm⟩
    have e := trails l p hp
    subst e
    have e : t = dep 5 := List.mem_singleton.1 ht
    subst e
    have e : fromConstraints (N := Nat) (S := Str) (U := Nat) .install (dep 5) = .ok (Requirement.ofName .install 5) := by
      decide +kernel
    rw [e] at hr
    cases hr
    exact nobody _ hq hm.1

/-- C92 does not hold without its condition: a request to install 1 and the incomplete 2 is refused or not depending on the
order of its jobs, because in strict mode nothing is said about packages that have been reached as dependencies. -/
theorem C92_violated_dependency :
    SolverFor [Repository.ofList [], Repository.ofList remote] (solver [] remote true true) ∧
    Incomplete (allPackages [Repository.ofList [], Repository.ofList remote]) (some Modifiers.empty) (pkg 0 2 1 [dep 5]) ∧
    seen ((solver [] remote true true).solveB insertionOrder (request [install (req 2), install (req 1)])) =
      .raised .missingInstallRequires (some 5) (some (2, v 1)) ∧
    seen ((solver [] remote true true).solveB insertionOrder (request [install (req 1), install (req 2)])) = .unsatisfiable := by
  exact ⟨solverFor true, incomplete, by decide +kernel, by decide +kernel⟩

end BlameExample

end Verif.Props
