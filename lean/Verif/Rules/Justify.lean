import Verif.Rules.Closure
import Verif.Rules.Spec
/-
Where each generated rule comes from.
-/
set_option linter.unusedSectionVars false
namespace Verif.Rules
open Verif Verif.Pkg Verif.Props

variable {N S U : Type} [LinearOrder N] [DecidableEq S] [LinearOrder U] [Syntax S U]

/-- the parameters of a run of the generator -/
structure Run (N S U : Type) where
  pool : Pool N S U
  avail : List (Package N S U)
  jobs : List (Job N U)
  installed : Dict Nat (Package N S U)

namespace Run

def pkgs (R : Run N S U) : List (Package N S U) := R.installed.map Prod.snd

def Orig (R : Run N S U) (reqs : Reqs N U) (p : Package N S U) : Prop :=
  Origin R.avail R.pool.modifiers R.jobs R.pkgs reqs p

inductive Just (R : Run N S U) : Rule N U → Prop where
  | requires {p reqs t req cands} {i : Nat} {ids} : R.Orig reqs p → t ∈ p.installRequires →
      fromConstraints .install t = .ok req → R.pool.whatProvides req = .ok cands → cands ≠ [] →
      R.pool.packageId p = .ok i → candidateIds R.pool p cands = .ok ids →
      Just R (mkRule (-(i : Int) :: ids) .packageRequires (combine reqs req))
  | broken {p reqs t req} {i : Nat} : R.Orig reqs p → t ∈ p.installRequires →
      fromConstraints .install t = .ok req → R.pool.whatProvides req = .ok [] → R.pool.packageId p = .ok i →
      Just R (mkRule [-(i : Int)] .packageBroken (combine reqs req))
  | sameName {p reqs q} {i j : Nat} : R.Orig reqs p → q.name = p.name → q.key ≠ p.key →
      R.pool.packageId p = .ok i → R.pool.packageId q = .ok j →
      Just R (mkRule [-(i : Int), -(j : Int)] .packageSameName (combine reqs (Requirement.ofName .conflict p.name)))
  | conflict {p reqs t req cands q} {i j : Nat} : R.Orig reqs p → t ∈ p.conflicts →
      fromConstraints .conflict t = .ok req → R.pool.whatProvides req = .ok cands → q ∈ cands → q.key ≠ p.key →
      R.pool.packageId p = .ok i → R.pool.packageId q = .ok j →
      Just R (mkRule [-(i : Int), -(j : Int)] .packageConflicts (combine reqs req))
  | jobInstall {j r ps ids} : j ∈ R.jobs → j.kind = .install ∨ j.kind = .softUpdate → j.requirement = some r →
      R.pool.whatProvides r false = .ok ps → ps ≠ [] → idsOfAll R.pool ps = .ok ids →
      Just R (mkRule ids .jobInstall (some [r]))
  | jobRemove {j r ps p} {i : Nat} : j ∈ R.jobs → j.kind = .remove → j.requirement = some r →
      R.pool.whatProvides r false = .ok ps → p ∈ ps → R.pool.packageId p = .ok i →
      Just R (mkRule [-(i : Int)] .jobRemove (some [r]))
  | jobUpdate {j r ps p} {i : Nat} : j ∈ R.jobs → j.kind = .hardUpdate → j.requirement = some r →
      R.pool.whatProvides r false = .ok ps → maxPkg (updateKey R.pool R.installed) ps = .ok p →
      R.pool.packageId p = .ok i → Just R (mkRule [(i : Int)] .jobUpdate (some [r]))

/-- all rules are justified, no two have the same literals -/
structure Good (R : Run N S U) (rules : List (Rule N U)) : Prop where
  just : ∀ r ∈ rules, R.Just r
  nodup : (rules.map Rule.literals).Nodup

theorem Good.add {R : Run N S U} {rules : List (Rule N U)} (h : R.Good rules) {r : Rule N U} (hr : R.Just r) :
    R.Good (addRule r rules) := by
  unfold addRule
  split
  · exact h
  · next hn =>
    refine ⟨?_, ?_⟩
    · intro r' hr'
      rcases List.mem_append.1 hr' with k | k
      · exact h.just r' k
      · rw [List.mem_singleton.1 k]; exact hr
    · rw [List.map_append, List.nodup_append]
      refine ⟨h.nodup, by simp, ?_⟩
      intro a ha b hb e
      rw [List.map_singleton, List.mem_singleton] at hb
      subst hb; subst e
      obtain ⟨r', h1, h2⟩ := List.mem_map.1 ha
      apply hn
      rw [List.any_eq_true]
      exact ⟨r', h1, decide_eq_true h2⟩

variable {R : Run N S U} (hok : R.pool.OK R.avail)
include hok

theorem orig_dep {reqs : Reqs N U} {p : Package N S U} (h : R.Orig reqs p) {t : CTuple N S} (ht : t ∈ p.installRequires)
    {req : Requirement N U} (hreq : fromConstraints .install t = .ok req) {cands : List (Package N S U)}
    (hc : R.pool.whatProvides req = .ok cands) {q : Package N S U} (hq : q ∈ cands) :
    R.Orig (combine reqs req) q := by
  rw [mem_whatProvides hok hc] at hq
  cases reqs with
  | none => exact FromInstalled.dep h ht hq.1 ⟨req, hreq, hq.2⟩
  | some l => exact Trail.dep h ht hreq hq.1 hq.2

theorem addRequires_good {strict : Bool} {p : Package N S U} {reqs : Reqs N U} (ho : R.Orig reqs p)
    {cs : List (CTuple N S)} (hcs : ∀ t ∈ cs, t ∈ p.installRequires) {rules : List (Rule N U)}
    {queued : List (Work N S U)} (hg : R.Good rules) (hq : ∀ e ∈ queued, R.Orig e.2 e.1)
    {rules' : List (Rule N U)} {more : List (Work N S U)}
    (h : addRequires strict R.pool p reqs cs rules queued = .ok (rules', more)) :
    R.Good rules' ∧ ∀ e ∈ more, R.Orig e.2 e.1 := by
  induction cs generalizing rules queued with
  | nil =>
    simp only [addRequires, Except.ok.injEq, Prod.mk.injEq] at h
    obtain ⟨rfl, rfl⟩ := h
    exact ⟨hg, hq⟩
  | cons c cs ih =>
    unfold addRequires at h
    simp only [bind_ok] at h
    obtain ⟨req, hreq, cands, hc, h⟩ := h
    have hmem := hcs c (by simp)
    split at h
    · next he =>
      simp only [bind_ok, removeRule] at h
      obtain ⟨_, -, rule, ⟨i, hi, hr⟩, h⟩ := h
      cases hr
      simp only [Except.ok.injEq, Prod.mk.injEq] at h
      obtain ⟨rfl, rfl⟩ := h
      rw [List.isEmpty_iff] at he
      subst he
      exact ⟨hg.add (Just.broken ho hmem hreq hc hi), by simp⟩
    · next he =>
      simp only [bind_ok, dependencyRule] at h
      obtain ⟨rule, ⟨i, hi, ids, hids, hr⟩, h⟩ := h
      cases hr
      refine ih (fun t ht => hcs t (by simp [ht])) (hg.add (Just.requires ho hmem hreq hc ?_ hi hids)) ?_ h
      · intro e; simp [e] at he
      · intro e he
        rcases List.mem_append.1 he with k | k
        · exact hq e k
        · obtain ⟨q, hq', rfl⟩ := List.mem_map.1 k
          exact orig_dep hok ho hmem hreq hc hq'

omit hok in
theorem addSameName_good {p : Package N S U} {reqs : Reqs N U} (ho : R.Orig reqs p)
    {qs : List (Package N S U)} {rules rules' : List (Rule N U)} (hg : R.Good rules)
    (h : addSameName R.pool p (combine reqs (Requirement.ofName .conflict p.name)) qs rules = .ok rules') :
    R.Good rules' := by
  induction qs generalizing rules with
  | nil => simp only [addSameName, Except.ok.injEq] at h; subst h; exact hg
  | cons q qs ih =>
    unfold addSameName at h
    split at h
    · next hc =>
      simp only [Bool.and_eq_true, Bool.not_eq_true', decide_eq_true_eq] at hc
      have hne : q.key ≠ p.key := fun e => by rw [(same_iff q p).2 e] at hc; simp at hc
      have hne' : ¬ p.same q = true := by rw [same_iff]; exact fun e => hne e.symm
      simp only [bind_ok, conflictRule, hne', if_false, Bool.false_eq_true] at h
      obtain ⟨rule, ⟨i, hi, j, hj, hr⟩, h⟩ := h
      cases hr
      exact ih (hg.add (Just.sameName ho hc.2 hne hi hj)) h
    · exact ih hg h

omit hok in
theorem addProviderConflicts_good {p : Package N S U} {reqs : Reqs N U} (ho : R.Orig reqs p) {t : CTuple N S}
    (ht : t ∈ p.conflicts) {req : Requirement N U} (hreq : fromConstraints .conflict t = .ok req)
    {cands : List (Package N S U)} (hc : R.pool.whatProvides req = .ok cands)
    {qs : List (Package N S U)} (hqs : ∀ q ∈ qs, q ∈ cands) {rules rules' : List (Rule N U)} (hg : R.Good rules)
    (h : addProviderConflicts R.pool p (combine reqs req) qs rules = .ok rules') : R.Good rules' := by
  induction qs generalizing rules with
  | nil => simp only [addProviderConflicts, Except.ok.injEq] at h; subst h; exact hg
  | cons q qs ih =>
    unfold addProviderConflicts at h
    simp only [bind_ok] at h
    obtain ⟨rule, hr, h⟩ := h
    refine ih (fun x hx => hqs x (by simp [hx])) ?_ h
    unfold conflictRule at hr
    split at hr
    · cases hr; exact hg
    · next hs =>
      rw [same_iff] at hs
      simp only [bind_ok] at hr
      obtain ⟨i, hi, j, hj, hr⟩ := hr
      cases hr
      exact hg.add (Just.conflict ho ht hreq hc (hqs q (by simp)) (fun e => hs e.symm) hi hj)

omit hok in
theorem addDeclared_good {strict : Bool} {p : Package N S U} {reqs : Reqs N U} (ho : R.Orig reqs p)
    {cs : List (CTuple N S)} (hcs : ∀ t ∈ cs, t ∈ p.conflicts) {rules rules' : List (Rule N U)} (hg : R.Good rules)
    (h : addDeclared strict R.pool p reqs cs rules = .ok rules') : R.Good rules' := by
  induction cs generalizing rules with
  | nil => simp only [addDeclared, Except.ok.injEq] at h; subst h; exact hg
  | cons c cs ih =>
    unfold addDeclared at h
    simp only [bind_ok] at h
    obtain ⟨req, hreq, cands, hc, h⟩ := h
    have hcs' : ∀ t ∈ cs, t ∈ p.conflicts := fun t ht => hcs t (by simp [ht])
    split at h
    · simp only [bind_ok] at h
      obtain ⟨_, -, h⟩ := h
      exact ih hcs' hg h
    · simp only [bind_ok] at h
      obtain ⟨rules1, hr1, h⟩ := h
      exact ih hcs' (addProviderConflicts_good ho (hcs c (by simp)) hreq hc (fun _ k => k) hg hr1) h

theorem work_good {strict : Bool} {n : Nat} {queue : List (Work N S U)} {g g' : Gen N U}
    (h : work strict R.pool n queue g = .ok g') (hg : R.Good g.rules) (hq : ∀ e ∈ queue, R.Orig e.2 e.1) :
    R.Good g'.rules := by
  induction n generalizing queue g with
  | zero =>
    cases queue with
    | nil => simp only [work, Except.ok.injEq] at h; subst h; exact hg
    | cons e queue => simp [work] at h
  | succ n ih =>
    cases queue with
    | nil => simp only [work, Except.ok.injEq] at h; subst h; exact hg
    | cons e queue =>
      obtain ⟨p, reqs⟩ := e
      unfold work at h
      simp only [bind_ok] at h
      obtain ⟨i, hi, h⟩ := h
      have hq' : ∀ e ∈ queue, R.Orig e.2 e.1 := fun e he => hq e (by simp [he])
      split at h
      · exact ih h hg hq'
      · simp only [bind_ok] at h
        obtain ⟨⟨rules1, more⟩, h1, rules2, h2, h⟩ := h
        have ho : R.Orig reqs p := hq (p, reqs) (by simp)
        obtain ⟨a1, a2⟩ := addRequires_good hok ho (fun _ k => k) hg (by simp) h1
        unfold addConflicts at h2
        simp only [bind_ok] at h2
        obtain ⟨cands, hc, rules3, h3, h2⟩ := h2
        have a3 := addDeclared_good ho (fun _ k => k) (addSameName_good ho a1 h3) h2
        refine ih h a3 ?_
        intro e he
        rcases List.mem_append.1 he with k | k
        · exact hq' e k
        · exact a2 e k

theorem addPackageRules_good {strict : Bool} {p : Package N S U} {reqs : Reqs N U} {g g' : Gen N U}
    (h : addPackageRules strict R.pool p reqs g = .ok g') (hg : R.Good g.rules) (ho : R.Orig reqs p) :
    R.Good g'.rules :=
  work_good hok h hg (by simpa using ho)

omit hok in
theorem looked_false {m m' : Option (Modifiers N)} {r r' : Requirement N U} :
    Looked m false r r' ↔ Looked m' false r r' := by
  unfold Looked; cases m <;> cases m' <;> rfl

/-- what a job asks for -/
theorem mem_jobProviders {r : Requirement N U} {ps : List (Package N S U)}
    (h : R.pool.whatProvides r false = .ok ps) (p : Package N S U) : p ∈ ps ↔ p ∈ R.avail ∧ MeetsJob r p := by
  rw [mem_whatProvides hok h]
  unfold MeetsJob Meets
  simp only [looked_false (m := R.pool.modifiers) (m' := none)]

theorem addCandidates_good {strict : Bool} {j : Job N U} {r : Requirement N U} (hj : j ∈ R.jobs)
    (hr : j.requirement = some r) (hk : j.kind ≠ .remove) {all : List (Package N S U)}
    (hall : R.pool.whatProvides r false = .ok all) {ps : List (Package N S U)} (hps : ∀ p ∈ ps, p ∈ all)
    {g g' : Gen N U} (h : addCandidates strict R.pool R.installed r ps g = .ok g') (hg : R.Good g.rules) :
    R.Good g'.rules := by
  induction ps generalizing g with
  | nil => simp only [addCandidates, Except.ok.injEq] at h; subst h; exact hg
  | cons p ps ih =>
    unfold addCandidates at h
    simp only [bind_ok] at h
    obtain ⟨i, hi, h⟩ := h
    have hps' : ∀ p ∈ ps, p ∈ all := fun q hq => hps q (by simp [hq])
    split at h
    · exact ih hps' h hg
    · simp only [bind_ok] at h
      obtain ⟨g1, h1, h⟩ := h
      have hp := (mem_jobProviders hok hall p).1 (hps p (by simp))
      exact ih hps' h (addPackageRules_good hok h1 hg (Trail.job hj hr hk hp.1 hp.2))

theorem addInstallJob_good {strict : Bool} {j : Job N U} {r : Requirement N U} (hj : j ∈ R.jobs)
    (hr : j.requirement = some r) (hk : j.kind = .install ∨ j.kind = .softUpdate)
    {g g' : Gen N U} (h : addInstallJob strict R.pool R.installed r g = .ok g') (hg : R.Good g.rules) :
    R.Good g'.rules := by
  unfold addInstallJob at h
  simp only [bind_ok] at h
  obtain ⟨ps, hps, h⟩ := h
  split at h
  · simp at h
  · next hne =>
    simp only [bind_ok, installOneOfRule] at h
    obtain ⟨g1, h1, rule, ⟨ids, hids, hrr⟩, h⟩ := h
    cases hrr
    cases h
    have := addCandidates_good hok hj hr (by rcases hk with k | k <;> simp [k]) hps (fun _ k => k) h1 hg
    exact this.add (Just.jobInstall hj hk hr hps (fun e => by simp [e] at hne) hids)

omit hok in
theorem addRemovals_good {j : Job N U} {r : Requirement N U} (hj : j ∈ R.jobs)
    (hr : j.requirement = some r) (hk : j.kind = .remove) {all : List (Package N S U)}
    (hall : R.pool.whatProvides r false = .ok all) {ps : List (Package N S U)} (hps : ∀ p ∈ ps, p ∈ all)
    {g g' : Gen N U} (h : addRemovals R.pool r ps g = .ok g') (hg : R.Good g.rules) : R.Good g'.rules := by
  induction ps generalizing g with
  | nil => simp only [addRemovals, Except.ok.injEq] at h; subst h; exact hg
  | cons p ps ih =>
    unfold addRemovals at h
    simp only [bind_ok, removeRule] at h
    obtain ⟨rule, ⟨i, hi, hrr⟩, h⟩ := h
    cases hrr
    exact ih (fun q hq => hps q (by simp [hq])) h (hg.add (Just.jobRemove hj hk hr hall (hps p (by simp)) hi))

theorem addUpdateJob_mem {key : Package N S U → Except PErr (Version U × Bool)} {ps : List (Package N S U)}
    {p : Package N S U} (h : maxPkg key ps = .ok p) : p ∈ ps := by
  have aux : ∀ (l : List (Package N S U)) b, maxPkgFrom key l b = .ok p → p = b.1 ∨ p ∈ l := by
    intro l
    induction l with
    | nil => intro b h; simp only [maxPkgFrom, Except.ok.injEq] at h; exact Or.inl h.symm
    | cons q l ih =>
      intro b h
      unfold maxPkgFrom at h
      simp only [bind_ok] at h
      obtain ⟨k, hk, h⟩ := h
      split at h
      · rcases ih _ h with e | e
        · right; simp [e]
        · right; simp [e]
      · rcases ih _ h with e | e
        · exact Or.inl e
        · right; simp [e]
  cases ps with
  | nil => simp [maxPkg] at h
  | cons q l =>
    unfold maxPkg at h
    simp only [bind_ok] at h
    obtain ⟨k, hk, h⟩ := h
    rcases aux l _ h with e | e
    · simp [e]
    · simp [e]

theorem addJob_good {strict : Bool} {j : Job N U} (hj : j ∈ R.jobs)
    {g g' : Gen N U} (h : addJob strict R.pool R.installed j g = .ok g') (hg : R.Good g.rules) : R.Good g'.rules := by
  unfold addJob at h
  split at h
  · next hk hr => exact addInstallJob_good hok hj hr (Or.inl hk) h hg
  · next hk hr => exact addInstallJob_good hok hj hr (Or.inr hk) h hg
  · next r hk hr =>
    simp only [addRemoveJob, bind_ok] at h
    obtain ⟨ps, hps, h⟩ := h
    exact addRemovals_good hj hr hk hps (fun _ k => k) h hg
  · next r hk hr =>
    simp only [addUpdateJob, bind_ok] at h
    obtain ⟨ps, hps, h⟩ := h
    split at h
    · cases h; exact hg
    · simp only [bind_ok] at h
      obtain ⟨p, hp, g1, h1, i, hi, h⟩ := h
      cases h
      have hm := (mem_jobProviders hok hps p).1 (addUpdateJob_mem hok hp)
      have := addPackageRules_good hok h1 hg (Trail.job hj hr (by simp [hk]) hm.1 hm.2)
      exact this.add (Just.jobUpdate hj hk hr hps hp hi)
  · simp at h
  · simp at h

theorem addJobs_good {strict : Bool} {js : List (Job N U)} (hjs : ∀ j ∈ js, j ∈ R.jobs)
    {g g' : Gen N U} (h : addJobs strict R.pool R.installed js g = .ok g') (hg : R.Good g.rules) : R.Good g'.rules := by
  induction js generalizing g with
  | nil => simp only [addJobs, Except.ok.injEq] at h; subst h; exact hg
  | cons j js ih =>
    unfold addJobs at h
    simp only [bind_ok] at h
    obtain ⟨g1, h1, h⟩ := h
    exact ih (fun k hk => hjs k (by simp [hk])) h (addJob_good hok (hjs j (by simp)) h1 hg)

theorem addOthers_good {strict : Bool} {ps : List (Package N S U)} (hps : ∀ p ∈ ps, R.Orig none p)
    {g g' : Gen N U} (h : addOthers strict R.pool ps g = .ok g') (hg : R.Good g.rules) : R.Good g'.rules := by
  induction ps generalizing g with
  | nil => simp only [addOthers, Except.ok.injEq] at h; subst h; exact hg
  | cons p ps ih =>
    unfold addOthers at h
    simp only [bind_ok] at h
    obtain ⟨g1, h1, h⟩ := h
    exact ih (fun k hk => hps k (by simp [hk])) h (addPackageRules_good hok h1 hg (hps p (by simp)))

theorem mem_nameToPackages (n : N) (p : Package N S U) :
    p ∈ R.pool.nameToPackages n ↔ p ∈ R.avail ∧ Provides p n := by
  unfold Pool.nameToPackages
  rw [hok.names.get, mem_providersIn, provides_iff]

theorem addInstalled_good {strict : Bool} {ps : List (Package N S U)} (hps : ∀ p ∈ ps, p ∈ R.pkgs)
    {g g' : Gen N U} (h : addInstalled strict R.pool ps g = .ok g') (hg : R.Good g.rules) : R.Good g'.rules := by
  induction ps generalizing g with
  | nil => simp only [addInstalled, Except.ok.injEq] at h; subst h; exact hg
  | cons p ps ih =>
    unfold addInstalled at h
    simp only [bind_ok] at h
    obtain ⟨g1, h1, g2, h2, h⟩ := h
    have hp := hps p (by simp)
    refine ih (fun k hk => hps k (by simp [hk])) h (addPackageRules_good hok h2 (addOthers_good hok ?_ h1 hg) ?_)
    · intro q hq
      rw [mem_nameToPackages hok] at hq
      exact FromInstalled.name hp hq.1 hq.2
    · exact FromInstalled.self hp

theorem iterRules_good {strict : Bool} {g : Gen N U} (h : iterRules strict R.pool R.jobs R.installed = .ok g) :
    R.Good g.rules := by
  unfold iterRules at h
  simp only [bind_ok] at h
  obtain ⟨g1, h1, h⟩ := h
  exact addInstalled_good hok (fun _ k => k) h (addJobs_good hok (fun _ k => k) h1 ⟨by simp, by simp⟩)

end Run
end Verif.Rules
