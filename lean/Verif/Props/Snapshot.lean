import Verif.Props.Total
import Verif.Solve.Example
import Verif.Solve.Local
/-
Property C119: a solver works with the packages that its pool knows, not with what the repositories hold later.
-/
set_option linter.unusedSectionVars false
namespace Verif.Props
open Verif Verif.Pkg Verif.Solve

section
variable {N S U : Type} [LinearOrder N] [DecidableEq S] [LinearOrder U] [Syntax S U]

/-! ### Specification -/

/-- `v` is the highest version under which the name `n` occurs in these repositories -/
def NewestIn (repos : List (Repository N S U)) (n : N) (v : Version U) : Prop :=
  (∃ repo ∈ repos, ∃ p ∈ repo.iter, p.name = n ∧ p.version = v) ∧
  ∀ repo ∈ repos, ∀ p ∈ repo.iter, p.name = n → p.version ≤ v

/-! ### Proofs -/

/-- the version of the job that an upgrade makes for a name -/
def newestOf (remote : List (Repository N S U)) (n : N) : Option (Version U) :=
  (((remote.foldl (fun m r => m.update r.iter) Repository.empty : Repository N S U).findPackages n).getLast?).map Package.version

theorem mem_merged (remote : List (Repository N S U)) (n : N) (r : Package N S U) :
    r ∈ (remote.foldl (fun m r => m.update r.iter) Repository.empty : Repository N S U).findPackages n ↔
      (∃ repo ∈ remote, r ∈ repo.iter) ∧ r.name = n := by
  have hinv := merged_inv remote (Repository.Inv.empty (N := N) (S := S) (U := U))
  rw [List.nil_append] at hinv
  have hfp : (remote.foldl (fun m r => m.update r.iter) Repository.empty : Repository N S U).findPackages n =
      sortBy Package.version ((remote.flatMap Repository.iter).filter (fun r => decide (r.name = n))) := hinv.get n
  rw [hfp, (sortBy_perm _ _).mem_iff]
  simp [List.mem_flatMap]

theorem newestOf_iff (remote : List (Repository N S U)) (n : N) (v : Version U) :
    newestOf remote n = some v ↔ NewestIn remote n v := by
  have hmem := mem_merged remote n
  have hinv := merged_inv remote (Repository.Inv.empty (N := N) (S := S) (U := U))
  rw [List.nil_append] at hinv
  have hs : ((remote.foldl (fun m r => m.update r.iter) Repository.empty : Repository N S U).findPackages n).Pairwise
      (fun a b => a.version ≤ b.version) := by
    have hfp : (remote.foldl (fun m r => m.update r.iter) Repository.empty : Repository N S U).findPackages n =
        sortBy Package.version ((remote.flatMap Repository.iter).filter (fun r => decide (r.name = n))) := hinv.get n
    rw [hfp]
    exact sortBy_sorted _ _
  unfold newestOf
  generalize (remote.foldl (fun m r => m.update r.iter) Repository.empty : Repository N S U).findPackages n = l at hmem hs
  have top : ∀ r, l.getLast? = some r → r ∈ l ∧ ∀ r' ∈ l, r'.version ≤ r.version := by
    intro r hl
    refine ⟨List.mem_of_getLast? hl, fun r' h3 => ?_⟩
    obtain ⟨ys, hys⟩ := List.getLast?_eq_some_iff.1 hl
    rw [hys] at h3 hs
    rw [List.pairwise_append] at hs
    rcases List.mem_append.1 h3 with h3 | h3
    · exact hs.2.2 r' h3 r (by simp)
    · rw [List.mem_singleton] at h3; rw [h3]
  constructor
  · intro h
    obtain ⟨r, hr, rfl⟩ := Option.map_eq_some_iff.1 h
    obtain ⟨h1, h2⟩ := top r hr
    obtain ⟨⟨repo, h3, h4⟩, h5⟩ := (hmem r).1 h1
    exact ⟨⟨repo, h3, r, h4, h5, rfl⟩, fun repo h p hp hn => h2 p ((hmem p).2 ⟨⟨repo, h, hp⟩, hn⟩)⟩
  · rintro ⟨⟨repo, h1, p, h2, h3, rfl⟩, h4⟩
    have hp := (hmem p).2 ⟨⟨repo, h1, h2⟩, h3⟩
    cases hl : l.getLast? with
    | none =>
      rw [List.getLast?_eq_none_iff] at hl
      rw [hl] at hp
      simp at hp
    | some r =>
      obtain ⟨h5, h6⟩ := top r hl
      obtain ⟨⟨repo', h7, h8⟩, h9⟩ := (hmem r).1 h5
      simp only [Option.map_some, Option.some.injEq]
      exact le_antisymm (h4 repo' h7 r h8 h9) (h6 p hp)

theorem filterMap_same {α β : Type} {f f' : α → Option β} {l : List α} (h : ∀ a ∈ l, f a = f' a) :
    l.filterMap f = l.filterMap f' := by
  induction l with
  | nil => rfl
  | cons a l ih => rw [List.filterMap_cons, List.filterMap_cons, h a (by simp), ih (fun b hb => h b (by simp [hb]))]

theorem convertUpgrade_congr (q : Request N U) {R R' : List (Repository N S U)} {installed : Repository N S U}
    (h : ∀ p ∈ installed.iter, newestOf R p.name = newestOf R' p.name) :
    convertUpgrade q R installed = convertUpgrade q R' installed := by
  unfold convertUpgrade
  split
  · split
    · simp only [List.map_filterMap]
      congr 1
      apply filterMap_same
      intro p hp
      have e := h p hp
      have hm := mem_merged R p.name
      have hm' := mem_merged R' p.name
      unfold newestOf at e
      generalize (R.foldl (fun m r => m.update r.iter) Repository.empty : Repository N S U).findPackages p.name = l at e hm
      generalize (R'.foldl (fun m r => m.update r.iter) Repository.empty : Repository N S U).findPackages p.name = l' at e hm'
      cases hl : l.getLast? with
      | none =>
        cases hl' : l'.getLast? with
        | none => rfl
        | some r' => rw [hl, hl'] at e; cases e
      | some r =>
        cases hl' : l'.getLast? with
        | none => rw [hl, hl'] at e; cases e
        | some r' =>
          rw [hl, hl'] at e
          simp only [Option.map_some, Option.some.injEq] at e
          have h1 := ((hm r).1 (List.mem_of_getLast? hl)).2
          have h2 := ((hm' r').1 (List.mem_of_getLast? hl')).2
          simp [h1, h2, e]
    · rfl
  · rfl

theorem solve_congr (s : DependencySolver N S U) (R : List (Repository N S U)) (o : Orders) (q : Request N U)
    (h : convertUpgrade q R s.installed = convertUpgrade q s.remote s.installed) :
    ({ s with remote := R } : DependencySolver N S U).solve o q = s.solve o q := by
  unfold DependencySolver.solve
  simp only [h]
  rfl

theorem convertUpgrade_plain (q : Request N U) (R : List (Repository N S U)) (inst : Repository N S U)
    (h : ∀ j ∈ q.jobs, j.kind ≠ .upgrade) : convertUpgrade q R inst = q := by
  unfold convertUpgrade
  split
  · next j hj => rw [if_neg (h j (by rw [hj]; simp))]
  · rfl

theorem solveWithHint_congr (s : DependencySolver N S U) (R : List (Repository N S U)) (o : Orders)
    (o' : List (Job N U) → Orders) (q : Request N U) (P : Job N U → Prop)
    (h : convertUpgrade q R s.installed = convertUpgrade q s.remote s.installed)
    (hj : ∀ j ∈ (convertUpgrade q s.remote s.installed).jobs, P j)
    (hP : ∀ m jobs, (∀ j ∈ jobs, P j) →
      convertUpgrade (⟨m, jobs⟩ : Request N U) R s.installed = convertUpgrade ⟨m, jobs⟩ s.remote s.installed) :
    ({ s with remote := R } : DependencySolver N S U).solveWithHint o o' q = s.solveWithHint o o' q := by
  unfold DependencySolver.solveWithHint
  rw [solve_congr s R o q h]
  split
  · rfl
  · simp only [h]
    rw [minimalUnsatisfiableSubset_congr (P := P) (cb := hintCallback s o' (convertUpgrade q s.remote s.installed).modifiers)
      (fun jobs hjobs => by
        unfold hintCallback
        rw [solve_congr s R _ _ (hP _ jobs hjobs)]) _ _ hj]
  · rfl

/-! ### Theorems -/

/-- C119: for a request that is not an upgrade it does not matter what the remote repositories hold: only the packages that the
pool knows do. So what is added to, or missing from, the remote repositories after the pool was made changes no answer. -/
theorem C119_remote_irrelevant (s : DependencySolver N S U) (R : List (Repository N S U)) (o : Orders)
    (o' : List (Job N U) → Orders) (q : Request N U) (h : ∀ j ∈ q.jobs, j.kind ≠ .upgrade) :
    ({ s with remote := R } : DependencySolver N S U).solve o q = s.solve o q ∧
    ({ s with remote := R } : DependencySolver N S U).solveWithHint o o' q = s.solveWithHint o o' q := by
  have e : convertUpgrade q R s.installed = convertUpgrade q s.remote s.installed := by
    rw [convertUpgrade_plain q _ _ h, convertUpgrade_plain q _ _ h]
  refine ⟨solve_congr s R o q e, solveWithHint_congr s R o o' q (fun j => j.kind ≠ .upgrade) e ?_ ?_⟩
  · rw [convertUpgrade_plain q _ _ h]; exact h
  · intro m jobs hj
    rw [convertUpgrade_plain ⟨m, jobs⟩ _ _ hj, convertUpgrade_plain ⟨m, jobs⟩ _ _ hj]

/-- C119: for an upgrade only the highest versions matter under which the names of the installed packages occur in the remote
repositories: as long as these stay the same, so do all answers. -/
theorem C119_upgrade_newest_only (s : DependencySolver N S U) (R : List (Repository N S U)) (o : Orders)
    (o' : List (Job N U) → Orders) (q : Request N U)
    (h : ∀ p ∈ s.installed.iter, ∀ v, NewestIn R p.name v ↔ NewestIn s.remote p.name v) :
    ({ s with remote := R } : DependencySolver N S U).solve o q = s.solve o q ∧
    ({ s with remote := R } : DependencySolver N S U).solveWithHint o o' q = s.solveWithHint o o' q := by
  have e : ∀ q : Request N U, convertUpgrade q R s.installed = convertUpgrade q s.remote s.installed := by
    intro q
    refine convertUpgrade_congr q (fun p hp => ?_)
    apply Option.ext
    intro v
    rw [newestOf_iff, newestOf_iff]
    exact h p hp v
  exact ⟨solve_congr s R o q (e q), solveWithHint_congr s R o o' q (fun _ => True) (e q) (fun _ _ => trivial) (fun _ _ _ => e _)⟩

/-- C119: an upgrade to a version that the remote repositories hold but no package that the pool knows has (with this name) is
refused with NoPackageFound; nothing is upgraded in part. -/
theorem C119_upgrade_refused {rs : List (Repository N S U)} {s : DependencySolver N S U} (hs : SolverFor rs s) (o : Orders)
    (o' : List (Job N U) → Orders) {q : Request N U} {j : Job N U} (hq : q.jobs = [j]) (hk : j.kind = .upgrade)
    {p : Package N S U} (hp : p ∈ s.installed.iter) {v : Version U} (hv : NewestIn s.remote p.name v)
    (hno : ∀ c ∈ allPackages rs, Provides c p.name → c.version ≠ v) :
    s.solve o q = .error (.pkg .noPackageFound) ∧ s.solveWithHint o o' q = .error (.pkg .noPackageFound) := by
  have key : s.solve o q = .error (.pkg .noPackageFound) := by
    obtain ⟨⟨repo, h1, r0, h2, h3, rfl⟩, h4⟩ := hv
    have h0 : r0 ∈ remotePackages s := List.mem_flatMap.2 ⟨repo, h1, h2⟩
    obtain ⟨r, h5, h6, h7, hj⟩ := upgrade_job s hq hk hp h0 h3
    have hrv : r.version = r0.version := by
      obtain ⟨repo', h8, h9⟩ := List.mem_flatMap.1 h5
      exact le_antisymm (h4 repo' h8 r h9 h6) (h7 r0 h0 h3)
    have hjobs : ∀ j ∈ effectiveJobs s q, j.kind ≠ .upgrade ∧ ∃ r, j.requirement = some r := by
      intro j' hj'
      obtain ⟨e1, p', -, r', -, -, -, e2⟩ := (C49_jobs s q).2.2 j hq hk j' hj'
      exact ⟨by rw [e1]; decide, _, e2⟩
    have hn : ∃ j ∈ effectiveJobs s q, ¬ JobPossible (allPackages rs) j := by
      refine ⟨_, hj, ?_⟩
      rintro ⟨-, req, e1, c, hc, hprov, r', hl, hacc⟩
      cases e1
      cases hl
      refine hno c hc hprov ?_
      rw [← hrv]
      exact (sameVersion_iff _ _).1 (hacc (.equal r.version) (by simp [Requirement.exactly]))
    rw [solve_stages]
    have : createRules s o (s.solvePool q) (convertUpgrade q s.remote s.installed) = .error .noPackageFound := by
      unfold createRules
      have := jobIds_noPackage (hs.solvePool q).ok s.installed (js := effectiveJobs s q) hjobs hn [] []
      unfold effectiveJobs at this
      simp only [this, bind, Except.bind]
    simp only [this]
  refine ⟨key, ?_⟩
  unfold DependencySolver.solveWithHint
  rw [key]

/-- C119: with an installed package that the pool does not know, nothing is ever solved, nor called unsatisfiable: if the jobs can
be looked up, ValueError is raised. -/
theorem C119_unknown_installed {rs : List (Repository N S U)} {s : DependencySolver N S U} (hs : SolverFor rs s) (o : Orders)
    (o' : List (Job N U) → Orders) (q : Request N U) {p : Package N S U} (hp : p ∈ s.installed.iter)
    (hno : ∀ c ∈ allPackages rs, c.key ≠ p.key) :
    (∃ e, s.solve o q = .error (.pkg e) ∧ s.solveWithHint o o' q = .error (.pkg e)) ∧
    ((∀ j ∈ effectiveJobs s q, JobPossible (allPackages rs) j) →
      s.solve o q = .error (.pkg .valueError) ∧ s.solveWithHint o o' q = .error (.pkg .valueError)) := by
  have hok := (hs.solvePool q).ok
  have hd : ∀ (ps : List (Package N S U)) d, p ∈ ps → installedDict (s.solvePool q) ps d = .error .valueError := by
    intro ps
    induction ps with
    | nil => intro d h; simp at h
    | cons a ps ih =>
      intro d h
      rw [installedDict]
      cases ha : (s.solvePool q).packageId a with
      | error e =>
        have : e = .valueError := by
          unfold Pool.packageId at ha
          split at ha
          · cases ha
          · cases ha; rfl
        rw [this]; rfl
      | ok i =>
        simp only [bind, Except.bind]
        rcases List.mem_cons.1 h with rfl | h
        · exfalso
          obtain ⟨-, -, c, -, h2, h3, -⟩ := hok.ids.packageId_spec ha
          exact hno c h3 h2
        · exact ih _ h
  have hint : ∀ e, s.solve o q = .error (.pkg e) → s.solveWithHint o o' q = .error (.pkg e) := by
    intro e he
    unfold DependencySolver.solveWithHint
    rw [he]
  cases hj : jobIds (s.solvePool q) s.installed (effectiveJobs s q) [] [] with
  | error e =>
    have hc : createRules s o (s.solvePool q) (convertUpgrade q s.remote s.installed) = .error e := by
      unfold createRules
      unfold effectiveJobs at hj
      simp only [hj, bind, Except.bind]
    have h1 : s.solve o q = .error (.pkg e) := by
      rw [solve_stages]
      simp only [hc]
    refine ⟨⟨e, h1, hint e h1⟩, fun hposs => ?_⟩
    obtain ⟨x, hx⟩ := jobIds_total hok s.installed hposs [] []
    rw [hx] at hj
    cases hj
  | ok x =>
    have hc : createRules s o (s.solvePool q) (convertUpgrade q s.remote s.installed) = .error .valueError := by
      unfold createRules
      unfold effectiveJobs at hj
      simp only [hj, hd _ [] hp, bind, Except.bind]
    have h1 : s.solve o q = .error (.pkg .valueError) := by
      rw [solve_stages]
      simp only [hc]
    exact ⟨⟨_, h1, hint _ h1⟩, fun _ => ⟨h1, hint _ h1⟩⟩

end

/-! ### Concrete cases -/

namespace SnapshotExample
open Verif.Pkg.Example Verif.Solve.Example

/-- package 1 is installed in version 1; the pool knows version 2; version 3 was added to the remote repository later -/
def before : DependencySolver Nat Str Nat := solver [pkg 9 1 1] [pkg 0 1 1, pkg 0 1 2]
def later : List (Repository Nat Str Nat) := [Repository.ofList [pkg 0 1 1, pkg 0 1 2, pkg 0 1 3]]
def after : DependencySolver Nat Str Nat := { before with remote := later }

/-- an update of package 1 goes to version 2 all the same -/
example : solved (before.solve insertionOrder (request [hardUpdate (req 1)])) =
      some (.ok ([.remove (pkg 9 1 1), .install (pkg 0 1 2)], [.update (pkg 0 1 2) (pkg 9 1 1)])) ∧
    solved (after.solve insertionOrder (request [hardUpdate (req 1)])) =
      some (.ok ([.remove (pkg 9 1 1), .install (pkg 0 1 2)], [.update (pkg 0 1 2) (pkg 9 1 1)])) := by
  constructor <;> decide +kernel

/-- an upgrade, which worked before, is refused -/
example : solved (before.solve insertionOrder (request [⟨none, .upgrade⟩])) =
      some (.ok ([.remove (pkg 9 1 1), .install (pkg 0 1 2)], [.update (pkg 0 1 2) (pkg 9 1 1)])) ∧
    solved (after.solve insertionOrder (request [⟨none, .upgrade⟩])) = some (.error .noPackageFound) := by
  constructor <;> decide +kernel

/-- the repositories that the pool knows -/
def known : List (Repository Nat Str Nat) := [Repository.ofList [pkg 9 1 1], Repository.ofList [pkg 0 1 1, pkg 0 1 2]]

theorem after_known : SolverFor known after := ⟨⟨none, none, _, rfl, rfl⟩, _, rfl⟩

/-- the hypotheses of `C119_upgrade_refused` -/
example : (pkg 9 1 1 : Package Nat Str Nat) ∈ after.installed.iter ∧ NewestIn after.remote 1 (v 3) ∧
    ∀ c ∈ allPackages known, Provides c 1 → c.version ≠ v 3 := by
  refine ⟨by decide +kernel, ⟨⟨_, List.mem_singleton.2 rfl, pkg 0 1 3, by decide +kernel, rfl, rfl⟩, ?_⟩, ?_⟩
  · intro repo hr p hp hn
    clear hn
    have : repo = Repository.ofList [pkg 0 1 1, pkg 0 1 2, pkg 0 1 3] := List.mem_singleton.1 hr
    subst this
    revert p
    decide +kernel
  · intro c hc _
    revert c
    decide +kernel

/-- package 5 was installed by hand, and the pool was not told -/
def byHand : DependencySolver Nat Str Nat := { before with installed := Repository.ofList [pkg 9 1 1, pkg 9 5 1] }

example : SolverFor known byHand ∧ (pkg 9 5 1 : Package Nat Str Nat) ∈ byHand.installed.iter ∧
    (∀ c ∈ allPackages known, c.key ≠ (pkg 9 5 1 : Package Nat Str Nat).key) ∧
    solved (byHand.solve insertionOrder (request [install (req 1)])) = some (.error .valueError) := by
  refine ⟨⟨⟨none, none, _, rfl, rfl⟩, _, rfl⟩, by decide +kernel, by decide +kernel, by decide +kernel⟩

end SnapshotExample
end Verif.Props
