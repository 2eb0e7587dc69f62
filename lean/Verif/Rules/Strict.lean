import Verif.Rules.Justify
/-
The strict mode of the generator compared with the default mode.
-/
set_option linter.unusedSectionVars false
namespace Verif.Rules
open Verif Verif.Pkg Verif.Props

variable {N S U : Type} [LinearOrder N] [DecidableEq S] [LinearOrder U] [Syntax S U]

/-- the dependency (`cls = .install`) or conflict `t` can be read, and no available package meets it -/
def NobodyMeets (avail : List (Package N S U)) (mods : Option (Modifiers N)) (cls : ReqClass) (t : CTuple N S) : Prop :=
  ∃ r : Requirement N U, fromConstraints cls t = .ok r ∧ ∀ q ∈ avail, ¬ Meets mods true r q

/-- why the strict mode raised `e` -/
def Why (avail : List (Package N S U)) (mods : Option (Modifiers N)) (jobs : List (Job N U))
    (installed : List (Package N S U)) (e : PErr) : Prop :=
  (e = .missingInstallRequires ∧ ∃ p r, Trail avail mods jobs [r] p ∧
    ∃ t ∈ p.installRequires, NobodyMeets avail mods .install t) ∨
  (e = .missingConflicts ∧ ∃ p r, Trail avail mods jobs [r] p ∧
    ∃ t ∈ p.conflicts, NobodyMeets avail mods .conflict t) ∨
  (e = .typeError ∧ ∃ p, FromInstalled avail mods installed p ∧
    ((∃ t ∈ p.installRequires, NobodyMeets avail mods .install t) ∨
      ∃ t ∈ p.conflicts, NobodyMeets avail mods .conflict t))

namespace Run

def Same {α : Type} (R : Run N S U) (a b : Except PErr α) : Prop :=
  a = b ∨ ∃ e, a = .error e ∧ Why R.avail R.pool.modifiers R.jobs R.pkgs e

theorem Same.bind {α β : Type} {R : Run N S U} {a b : Except PErr α} {f f' : α → Except PErr β} (h : R.Same a b)
    (hf : ∀ x, b = .ok x → R.Same (f x) (f' x)) : R.Same (a >>= f) (b >>= f') := by
  rcases h with rfl | ⟨e, rfl, hw⟩
  · cases ha : a with
    | error e => exact Or.inl rfl
    | ok x => exact hf x ha
  · exact Or.inr ⟨e, rfl, hw⟩

theorem Same.refl {α : Type} {R : Run N S U} (a : Except PErr α) : R.Same a a := Or.inl rfl

variable {R : Run N S U} (hok : R.pool.OK R.avail)
include hok

theorem strictCheck_same {e : PErr} {reqs : Reqs N U} {p : Package N S U} (ho : R.Orig reqs p) {cls : ReqClass}
    {t : CTuple N S} {req : Requirement N U} (hreq : fromConstraints cls t = .ok req)
    (hc : R.pool.whatProvides req = .ok [])
    (hcase : (cls = .install ∧ t ∈ p.installRequires ∧ e = .missingInstallRequires) ∨
      (cls = .conflict ∧ t ∈ p.conflicts ∧ e = .missingConflicts)) :
    R.Same (strictCheck true reqs e) (strictCheck false reqs e) := by
  have hno : NobodyMeets (U := U) R.avail R.pool.modifiers cls t := by
    refine ⟨req, hreq, fun q hq hm => ?_⟩
    have := (mem_whatProvides hok hc q).2 ⟨hq, hm⟩
    simp at this
  have hf : strictCheck false reqs e = .ok () := rfl
  rw [hf]
  unfold strictCheck
  rw [if_pos rfl]
  cases reqs with
  | none =>
    refine Or.inr ⟨_, rfl, Or.inr (Or.inr ⟨rfl, p, ho, ?_⟩)⟩
    rcases hcase with ⟨rfl, h, -⟩ | ⟨rfl, h, -⟩
    · exact Or.inl ⟨t, h, hno⟩
    · exact Or.inr ⟨t, h, hno⟩
  | some l =>
    simp only
    by_cases hl : l.length = 1
    · rw [if_pos hl]
      match l, hl with
      | [r], _ =>
        refine Or.inr ⟨_, rfl, ?_⟩
        rcases hcase with ⟨rfl, h, rfl⟩ | ⟨rfl, h, rfl⟩
        · exact Or.inl ⟨rfl, p, r, ho, t, h, hno⟩
        · exact Or.inr (Or.inl ⟨rfl, p, r, ho, t, h, hno⟩)
    · rw [if_neg hl]; exact Same.refl _

theorem addRequires_same {p : Package N S U} {reqs : Reqs N U} (ho : R.Orig reqs p)
    {cs : List (CTuple N S)} (hcs : ∀ t ∈ cs, t ∈ p.installRequires) (rules : List (Rule N U))
    (queued : List (Work N S U)) :
    R.Same (addRequires true R.pool p reqs cs rules queued) (addRequires false R.pool p reqs cs rules queued) := by
  induction cs generalizing rules queued with
  | nil => exact Same.refl _
  | cons c cs ih =>
    unfold addRequires
    refine (Same.refl _).bind fun req hreq => ?_
    refine (Same.refl _).bind fun cands hc => ?_
    split
    · next he =>
      rw [List.isEmpty_iff] at he
      subst he
      exact (strictCheck_same hok ho hreq hc (Or.inl ⟨rfl, hcs c (by simp), rfl⟩)).bind fun _ _ => Same.refl _
    · exact (Same.refl _).bind fun _ _ => ih (fun t ht => hcs t (by simp [ht])) _ _

theorem addRequires_orig {strict : Bool} {p : Package N S U} {reqs : Reqs N U} (ho : R.Orig reqs p)
    {cs : List (CTuple N S)} (hcs : ∀ t ∈ cs, t ∈ p.installRequires) {rules : List (Rule N U)}
    {queued : List (Work N S U)} (hq : ∀ e ∈ queued, R.Orig e.2 e.1) {rules' : List (Rule N U)}
    {more : List (Work N S U)} (h : addRequires strict R.pool p reqs cs rules queued = .ok (rules', more)) :
    ∀ e ∈ more, R.Orig e.2 e.1 := by
  induction cs generalizing rules queued with
  | nil =>
    simp only [addRequires, Except.ok.injEq, Prod.mk.injEq] at h
    obtain ⟨rfl, rfl⟩ := h
    exact hq
  | cons c cs ih =>
    unfold addRequires at h
    simp only [bind_ok] at h
    obtain ⟨req, hreq, cands, hc, h⟩ := h
    split at h
    · simp only [bind_ok] at h
      obtain ⟨_, -, _, -, h⟩ := h
      simp only [Except.ok.injEq, Prod.mk.injEq] at h
      obtain ⟨rfl, rfl⟩ := h
      simp
    · simp only [bind_ok] at h
      obtain ⟨_, -, h⟩ := h
      refine ih (fun t ht => hcs t (by simp [ht])) ?_ h
      intro e he
      rcases List.mem_append.1 he with k | k
      · exact hq e k
      · obtain ⟨q, hq', rfl⟩ := List.mem_map.1 k
        exact orig_dep hok ho (hcs c (by simp)) hreq hc hq'

theorem addDeclared_same {p : Package N S U} {reqs : Reqs N U} (ho : R.Orig reqs p)
    {cs : List (CTuple N S)} (hcs : ∀ t ∈ cs, t ∈ p.conflicts) (rules : List (Rule N U)) :
    R.Same (addDeclared true R.pool p reqs cs rules) (addDeclared false R.pool p reqs cs rules) := by
  induction cs generalizing rules with
  | nil => exact Same.refl _
  | cons c cs ih =>
    have hcs' : ∀ t ∈ cs, t ∈ p.conflicts := fun t ht => hcs t (by simp [ht])
    unfold addDeclared
    refine (Same.refl _).bind fun req hreq => ?_
    refine (Same.refl _).bind fun cands hc => ?_
    split
    · next he =>
      rw [List.isEmpty_iff] at he
      subst he
      exact (strictCheck_same hok ho hreq hc (Or.inr ⟨rfl, hcs c (by simp), rfl⟩)).bind fun _ _ => ih hcs' _
    · exact (Same.refl _).bind fun _ _ => ih hcs' _

theorem work_same {n : Nat} {queue : List (Work N S U)} (g : Gen N U) (hq : ∀ e ∈ queue, R.Orig e.2 e.1) :
    R.Same (work true R.pool n queue g) (work false R.pool n queue g) := by
  induction n generalizing queue g with
  | zero => cases queue <;> exact Same.refl _
  | succ n ih =>
    cases queue with
    | nil => exact Same.refl _
    | cons e queue =>
      obtain ⟨p, reqs⟩ := e
      unfold work
      have hq' : ∀ e ∈ queue, R.Orig e.2 e.1 := fun e he => hq e (by simp [he])
      have ho : R.Orig reqs p := hq (p, reqs) (by simp)
      refine (Same.refl _).bind fun i hi => ?_
      split
      · exact ih _ hq'
      · refine (addRequires_same hok ho (fun _ k => k) _ _).bind fun x hx => ?_
        obtain ⟨rules1, more⟩ := x
        have hm := addRequires_orig hok ho (fun _ k => k) (by simp) hx
        simp only
        refine Same.bind ?_ fun _ _ => ih _ ?_
        · unfold addConflicts
          exact (Same.refl _).bind fun _ _ => (Same.refl _).bind fun _ _ => addDeclared_same hok ho (fun _ k => k) _
        · intro e he
          rcases List.mem_append.1 he with k | k
          · exact hq' e k
          · exact hm e k

theorem addPackageRules_same {p : Package N S U} {reqs : Reqs N U} (ho : R.Orig reqs p) (g : Gen N U) :
    R.Same (addPackageRules true R.pool p reqs g) (addPackageRules false R.pool p reqs g) :=
  work_same hok g (by simpa using ho)

theorem addCandidates_same {j : Job N U} {r : Requirement N U} (hj : j ∈ R.jobs)
    (hr : j.requirement = some r) (hk : j.kind ≠ .remove) {all : List (Package N S U)}
    (hall : R.pool.whatProvides r false = .ok all) {ps : List (Package N S U)} (hps : ∀ p ∈ ps, p ∈ all)
    (g : Gen N U) : R.Same (addCandidates true R.pool R.installed r ps g)
      (addCandidates false R.pool R.installed r ps g) := by
  induction ps generalizing g with
  | nil => exact Same.refl _
  | cons p ps ih =>
    unfold addCandidates
    have hps' : ∀ p ∈ ps, p ∈ all := fun q hq => hps q (by simp [hq])
    refine (Same.refl _).bind fun i hi => ?_
    split
    · exact ih hps' g
    · have hp := (mem_jobProviders hok hall p).1 (hps p (by simp))
      have ho : R.Orig (some [r]) p := Trail.job hj hr hk hp.1 hp.2
      exact (addPackageRules_same hok ho g).bind fun _ _ => ih hps' _

theorem addInstallJob_same {j : Job N U} {r : Requirement N U} (hj : j ∈ R.jobs)
    (hr : j.requirement = some r) (hk : j.kind ≠ .remove) (g : Gen N U) :
    R.Same (addInstallJob true R.pool R.installed r g) (addInstallJob false R.pool R.installed r g) := by
  unfold addInstallJob
  refine (Same.refl _).bind fun ps hps => ?_
  split
  · exact Same.refl _
  · exact (addCandidates_same hok hj hr hk hps (fun _ k => k) g).bind fun _ _ => Same.refl _

theorem addJob_same {j : Job N U} (hj : j ∈ R.jobs) (g : Gen N U) :
    R.Same (addJob true R.pool R.installed j g) (addJob false R.pool R.installed j g) := by
  unfold addJob
  split
  · next hk hr => exact addInstallJob_same hok hj hr (by simp [hk]) g
  · next hk hr => exact addInstallJob_same hok hj hr (by simp [hk]) g
  · exact Same.refl _
  · next r hk hr =>
    unfold addUpdateJob
    refine (Same.refl _).bind fun ps hps => ?_
    split
    · exact Same.refl _
    · refine (Same.refl _).bind fun p hp => ?_
      have hm := (mem_jobProviders hok hps p).1 (addUpdateJob_mem hok hp)
      have ho : R.Orig (some [r]) p := Trail.job hj hr (by simp [hk]) hm.1 hm.2
      exact (addPackageRules_same hok ho g).bind fun _ _ => Same.refl _
  · exact Same.refl _
  · exact Same.refl _

theorem addJobs_same {js : List (Job N U)} (hjs : ∀ j ∈ js, j ∈ R.jobs) (g : Gen N U) :
    R.Same (addJobs true R.pool R.installed js g) (addJobs false R.pool R.installed js g) := by
  induction js generalizing g with
  | nil => exact Same.refl _
  | cons j js ih =>
    unfold addJobs
    exact (addJob_same hok (hjs j (by simp)) g).bind fun _ _ => ih (fun k hk => hjs k (by simp [hk])) _

theorem addOthers_same {ps : List (Package N S U)} (hps : ∀ p ∈ ps, R.Orig none p) (g : Gen N U) :
    R.Same (addOthers true R.pool ps g) (addOthers false R.pool ps g) := by
  induction ps generalizing g with
  | nil => exact Same.refl _
  | cons p ps ih =>
    unfold addOthers
    exact (addPackageRules_same hok (hps p (by simp)) g).bind fun _ _ => ih (fun k hk => hps k (by simp [hk])) _

theorem addInstalled_same {ps : List (Package N S U)} (hps : ∀ p ∈ ps, p ∈ R.pkgs) (g : Gen N U) :
    R.Same (addInstalled true R.pool ps g) (addInstalled false R.pool ps g) := by
  induction ps generalizing g with
  | nil => exact Same.refl _
  | cons p ps ih =>
    unfold addInstalled
    have hp := hps p (by simp)
    refine (addOthers_same hok ?_ g).bind fun _ _ => (addPackageRules_same hok ?_ _).bind fun _ _ =>
      ih (fun k hk => hps k (by simp [hk])) _
    · intro q hq
      rw [mem_nameToPackages hok] at hq
      exact FromInstalled.name hp hq.1 hq.2
    · exact FromInstalled.self hp

theorem iterRules_same : R.Same (iterRules true R.pool R.jobs R.installed)
    (iterRules false R.pool R.jobs R.installed) := by
  unfold iterRules
  exact (addJobs_same hok (fun _ k => k) _).bind fun _ _ => addInstalled_same hok (fun _ k => k) _

end Run
end Verif.Rules
