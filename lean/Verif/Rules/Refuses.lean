import Verif.Rules.Strict
/-
In strict mode, the packages whose rules were added without an exception have no missing dependency or conflict, or were
reached through another package.
-/
set_option linter.unusedSectionVars false
namespace Verif.Rules
open Verif Verif.Pkg Verif.Props

variable {N S U : Type} [LinearOrder N] [DecidableEq S] [LinearOrder U] [Syntax S U]

namespace Run

/-- every dependency and conflict of `p` is met by an available package -/
def Complete (R : Run N S U) (p : Package N S U) : Prop :=
  (∀ t ∈ p.installRequires, ¬ NobodyMeets (U := U) R.avail R.pool.modifiers .install t) ∧
  (∀ t ∈ p.conflicts, ¬ NobodyMeets (U := U) R.avail R.pool.modifiers .conflict t)

/-- the rules of each package of `added` were added when it was complete, or reached through another package -/
def Clean (R : Run N S U) (added : List Nat) : Prop :=
  ∀ i ∈ added, ∃ p reqs, R.pool.packageId p = .ok i ∧ R.Orig reqs p ∧
    (R.Complete p ∨ ∃ l, reqs = some l ∧ l.length ≠ 1)

variable {R : Run N S U} (hok : R.pool.OK R.avail)
include hok

theorem nobody_of {cls : ReqClass} {t : CTuple N S} {req : Requirement N U} (hreq : fromConstraints cls t = .ok req)
    {cands : List (Package N S U)} (hc : R.pool.whatProvides req = .ok cands) :
    NobodyMeets (U := U) R.avail R.pool.modifiers cls t ↔ cands = [] := by
  constructor
  · rintro ⟨r, hr, hn⟩
    rw [hreq] at hr
    cases hr
    rw [List.eq_nil_iff_forall_not_mem]
    intro q hq
    obtain ⟨h1, h2⟩ := (mem_whatProvides hok hc q).1 hq
    exact hn q h1 h2
  · rintro rfl
    refine ⟨req, hreq, fun q hq hm => ?_⟩
    have := (mem_whatProvides hok hc q).2 ⟨hq, hm⟩
    simp at this

theorem strict_ok {reqs : Reqs N U} {e : PErr} {u : Unit} (h : strictCheck true reqs e = .ok u) :
    ∃ l, reqs = some l ∧ l.length ≠ 1 := by
  unfold strictCheck at h
  rw [if_pos rfl] at h
  split at h
  · cases h
  · next l =>
    split at h
    · cases h
    · next hl => exact ⟨l, rfl, hl⟩

theorem addRequires_clean {p : Package N S U} {reqs : Reqs N U} {cs : List (CTuple N S)} {rules : List (Rule N U)}
    {queued : List (Work N S U)} {x : List (Rule N U) × List (Work N S U)}
    (h : addRequires true R.pool p reqs cs rules queued = .ok x) :
    (∀ t ∈ cs, ¬ NobodyMeets (U := U) R.avail R.pool.modifiers .install t) ∨ ∃ l, reqs = some l ∧ l.length ≠ 1 := by
  induction cs generalizing rules queued with
  | nil => exact Or.inl (by simp)
  | cons c cs ih =>
    unfold addRequires at h
    simp only [bind_ok] at h
    obtain ⟨req, hreq, cands, hc, h⟩ := h
    split at h
    · simp only [bind_ok] at h
      obtain ⟨_, hs, -⟩ := h
      exact Or.inr (strict_ok hok hs)
    · next hne =>
      simp only [bind_ok] at h
      obtain ⟨_, -, h⟩ := h
      rcases ih h with k | k
      · refine Or.inl fun t ht => ?_
        rcases List.mem_cons.1 ht with rfl | ht
        · rw [nobody_of hok hreq hc]
          rintro rfl
          exact hne rfl
        · exact k t ht
      · exact Or.inr k

theorem addDeclared_clean {p : Package N S U} {reqs : Reqs N U} {cs : List (CTuple N S)} {rules rules' : List (Rule N U)}
    (h : addDeclared true R.pool p reqs cs rules = .ok rules') :
    (∀ t ∈ cs, ¬ NobodyMeets (U := U) R.avail R.pool.modifiers .conflict t) ∨ ∃ l, reqs = some l ∧ l.length ≠ 1 := by
  induction cs generalizing rules with
  | nil => exact Or.inl (by simp)
  | cons c cs ih =>
    unfold addDeclared at h
    simp only [bind_ok] at h
    obtain ⟨req, hreq, cands, hc, h⟩ := h
    split at h
    · simp only [bind_ok] at h
      obtain ⟨_, hs, -⟩ := h
      exact Or.inr (strict_ok hok hs)
    · next hne =>
      simp only [bind_ok] at h
      obtain ⟨_, -, h⟩ := h
      rcases ih h with k | k
      · refine Or.inl fun t ht => ?_
        rcases List.mem_cons.1 ht with rfl | ht
        · rw [nobody_of hok hreq hc]
          rintro rfl
          exact hne rfl
        · exact k t ht
      · exact Or.inr k

theorem work_clean {n : Nat} {queue : List (Work N S U)} {g g' : Gen N U} (hq : ∀ e ∈ queue, R.Orig e.2 e.1)
    (hc : R.Clean g.added) (h : work true R.pool n queue g = .ok g') : R.Clean g'.added := by
  induction n generalizing queue g with
  | zero =>
    cases queue with
    | nil => simp only [work, Except.ok.injEq] at h; subst h; exact hc
    | cons e queue => simp [work] at h
  | succ n ih =>
    cases queue with
    | nil => simp only [work, Except.ok.injEq] at h; subst h; exact hc
    | cons e queue =>
      obtain ⟨p, reqs⟩ := e
      unfold work at h
      have hq' : ∀ e ∈ queue, R.Orig e.2 e.1 := fun e he => hq e (by simp [he])
      have ho : R.Orig reqs p := hq (p, reqs) (by simp)
      simp only [bind_ok] at h
      obtain ⟨i, hi, h⟩ := h
      split at h
      · exact ih hq' hc h
      · simp only [bind_ok] at h
        obtain ⟨⟨rules1, more⟩, hx, rules2, hy, h⟩ := h
        have hm := addRequires_orig hok ho (fun _ k => k) (by simp) hx
        refine ih ?_ ?_ h
        · intro e he
          rcases List.mem_append.1 he with k | k
          · exact hq' e k
          · exact hm e k
        · intro i' hi'
          rcases (mem_sadd _ _ _).1 hi' with rfl | hi'
          · refine ⟨p, reqs, hi, ho, ?_⟩
            rcases addRequires_clean hok hx with k | k
            · unfold addConflicts at hy
              simp only [bind_ok] at hy
              obtain ⟨_, -, _, -, hy⟩ := hy
              rcases addDeclared_clean hok hy with k' | k'
              · exact Or.inl ⟨k, k'⟩
              · exact Or.inr k'
            · exact Or.inr k
          · exact hc i' hi'

theorem addPackageRules_clean {p : Package N S U} {reqs : Reqs N U} (ho : R.Orig reqs p) {g g' : Gen N U}
    (hc : R.Clean g.added) (h : addPackageRules true R.pool p reqs g = .ok g') : R.Clean g'.added :=
  work_clean hok (by simpa using ho) hc h

theorem addCandidates_clean {j : Job N U} {r : Requirement N U} (hj : j ∈ R.jobs)
    (hr : j.requirement = some r) (hk : j.kind ≠ .remove) {all : List (Package N S U)}
    (hall : R.pool.whatProvides r false = .ok all) {ps : List (Package N S U)} (hps : ∀ p ∈ ps, p ∈ all)
    {g g' : Gen N U} (hc : R.Clean g.added) (h : addCandidates true R.pool R.installed r ps g = .ok g') : R.Clean g'.added := by
  induction ps generalizing g with
  | nil => simp only [addCandidates, Except.ok.injEq] at h; subst h; exact hc
  | cons p ps ih =>
    unfold addCandidates at h
    have hps' : ∀ p ∈ ps, p ∈ all := fun q hq => hps q (by simp [hq])
    simp only [bind_ok] at h
    obtain ⟨i, -, h⟩ := h
    split at h
    · exact ih hps' hc h
    · simp only [bind_ok] at h
      obtain ⟨g1, h1, h⟩ := h
      have hp := (mem_jobProviders hok hall p).1 (hps p (by simp))
      have ho : R.Orig (some [r]) p := Trail.job hj hr hk hp.1 hp.2
      exact ih hps' (addPackageRules_clean hok ho hc h1) h

theorem addJob_clean {j : Job N U} (hj : j ∈ R.jobs) {g g' : Gen N U} (hc : R.Clean g.added)
    (h : addJob true R.pool R.installed j g = .ok g') : R.Clean g'.added := by
  have inst : ∀ r, j.requirement = some r → j.kind ≠ .remove → addInstallJob true R.pool R.installed r g = .ok g' → R.Clean g'.added := by
    intro r hr hk h
    unfold addInstallJob at h
    simp only [bind_ok] at h
    obtain ⟨ps, hps, h⟩ := h
    split at h
    · cases h
    · simp only [bind_ok] at h
      obtain ⟨g1, h1, _, -, h⟩ := h
      cases h
      have := addCandidates_clean hok hj hr hk hps (fun _ k => k) hc h1
      exact this
  unfold addJob at h
  split at h
  · next hk hr => exact inst _ hr (by simp [hk]) h
  · next hk hr => exact inst _ hr (by simp [hk]) h
  · next r _ _ =>
    simp only [addRemoveJob, bind_ok] at h
    obtain ⟨ps, -, h⟩ := h
    have aux : ∀ (ps : List (Package N S U)) (g : Gen N U), addRemovals R.pool r ps g = .ok g' → g'.added = g.added := by
      intro ps
      induction ps with
      | nil => intro g h; simp only [addRemovals, Except.ok.injEq] at h; subst h; rfl
      | cons p ps ih =>
        intro g h
        simp only [addRemovals, bind_ok] at h
        obtain ⟨_, -, h⟩ := h
        have := ih _ h
        exact this
    rw [aux ps g h]
    exact hc
  · next r hk hr =>
    simp only [addUpdateJob, bind_ok] at h
    obtain ⟨ps, hps, h⟩ := h
    split at h
    · cases h; exact hc
    · simp only [bind_ok] at h
      obtain ⟨p, hp, g1, h1, _, -, h⟩ := h
      cases h
      have hm := (mem_jobProviders hok hps p).1 (addUpdateJob_mem hok hp)
      have ho : R.Orig (some [r]) p := Trail.job hj hr (by simp [hk]) hm.1 hm.2
      have := addPackageRules_clean hok ho hc h1
      exact this
  · cases h
  · cases h

theorem addJobs_clean {js : List (Job N U)} (hjs : ∀ j ∈ js, j ∈ R.jobs) {g g' : Gen N U} (hc : R.Clean g.added)
    (h : addJobs true R.pool R.installed js g = .ok g') : R.Clean g'.added := by
  induction js generalizing g with
  | nil => simp only [addJobs, Except.ok.injEq] at h; subst h; exact hc
  | cons j js ih =>
    simp only [addJobs, bind_ok] at h
    obtain ⟨g1, h1, h⟩ := h
    exact ih (fun k hk => hjs k (by simp [hk])) (addJob_clean hok (hjs j (by simp)) hc h1) h

theorem addOthers_clean {ps : List (Package N S U)} (hps : ∀ p ∈ ps, R.Orig none p) {g g' : Gen N U} (hc : R.Clean g.added)
    (h : addOthers true R.pool ps g = .ok g') : R.Clean g'.added := by
  induction ps generalizing g with
  | nil => simp only [addOthers, Except.ok.injEq] at h; subst h; exact hc
  | cons p ps ih =>
    simp only [addOthers, bind_ok] at h
    obtain ⟨g1, h1, h⟩ := h
    exact ih (fun k hk => hps k (by simp [hk])) (addPackageRules_clean hok (hps p (by simp)) hc h1) h

theorem addInstalled_clean {ps : List (Package N S U)} (hps : ∀ p ∈ ps, p ∈ R.pkgs) {g g' : Gen N U} (hc : R.Clean g.added)
    (h : addInstalled true R.pool ps g = .ok g') : R.Clean g'.added := by
  induction ps generalizing g with
  | nil => simp only [addInstalled, Except.ok.injEq] at h; subst h; exact hc
  | cons p ps ih =>
    have hp := hps p (by simp)
    simp only [addInstalled, bind_ok] at h
    obtain ⟨g1, h1, g2, h2, h⟩ := h
    refine ih (fun k hk => hps k (by simp [hk])) (addPackageRules_clean hok ?_ (addOthers_clean hok ?_ hc h1) h2) h
    · exact FromInstalled.self hp
    · intro q hq
      rw [mem_nameToPackages hok] at hq
      exact FromInstalled.name hp hq.1 hq.2

theorem iterRules_clean {g : Gen N U} (h : iterRules true R.pool R.jobs R.installed = .ok g) : R.Clean g.added := by
  simp only [iterRules, bind_ok] at h
  obtain ⟨g1, h1, h⟩ := h
  exact addInstalled_clean hok (fun _ k => k) (addJobs_clean hok (fun _ k => k) (by intro i hi; simp at hi) h1) h

end Run
end Verif.Rules
