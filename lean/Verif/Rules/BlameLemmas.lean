import Verif.Rules.Blame
import Verif.Rules.Strict
import Verif.Rules.Terminates
/-
The generator with the data of its exceptions is the generator of `Rules/Model.lean`; what these data say.
-/
set_option linter.unusedSectionVars false
namespace Verif.Rules
open Verif Verif.Pkg Verif.Props

variable {N S U : Type} [LinearOrder N] [DecidableEq S] [LinearOrder U] [Syntax S U]

/-- the exception without its data -/
def forget {α : Type} : Except (Blame N S U) α → Except PErr α
  | .ok a => .ok a
  | .error b => .error b.err

@[simp] theorem forget_plain {α : Type} (x : Except PErr α) : forget (plain x : Except (Blame N S U) α) = x := by
  cases x <;> rfl

@[simp] theorem forget_ok {α : Type} (x : α) : forget (.ok x : Except (Blame N S U) α) = .ok x := rfl

theorem forget_bind {α β : Type} (x : Except (Blame N S U) α) (f : α → Except (Blame N S U) β) :
    forget (x >>= f) = forget x >>= fun a => forget (f a) := by
  cases x <;> rfl

theorem forget_plain_bind {α β : Type} (x : Except PErr α) (f : α → Except (Blame N S U) β) :
    forget (plain x >>= f) = x >>= fun a => forget (f a) := by
  cases x <;> rfl

theorem forget_ite {α : Type} {c : Prop} [Decidable c] (x y : Except (Blame N S U) α) :
    forget (if c then x else y) = if c then forget x else forget y := by
  split <;> rfl

theorem bind_congr' {α β : Type} {x : Except PErr α} {f g : α → Except PErr β} (h : ∀ a, f a = g a) :
    (x >>= f) = (x >>= g) := by
  cases x with
  | error e => rfl
  | ok a => exact h a

theorem forget_strictCheck (strict : Bool) (reqs : Reqs N U) (e : PErr) (r : Requirement N U) (p : Package N S U) :
    forget (strictCheckB strict reqs e r p) = strictCheck strict reqs e := by
  unfold strictCheckB strictCheck
  cases strict
  · rfl
  · cases reqs with
    | none => rfl
    | some l =>
      simp only [if_true]
      rw [forget_ite]
      rfl

theorem forget_addRequires (strict : Bool) (pool : Pool N S U) (p : Package N S U) (reqs : Reqs N U) (cs : List (CTuple N S))
    (rules : List (Rule N U)) (queued : List (Work N S U)) :
    forget (addRequiresB strict pool p reqs cs rules queued) = addRequires strict pool p reqs cs rules queued := by
  induction cs generalizing rules queued with
  | nil => rfl
  | cons c cs ih =>
    unfold addRequiresB addRequires
    rw [forget_plain_bind]
    refine bind_congr' fun req => ?_
    rw [forget_plain_bind]
    refine bind_congr' fun cands => ?_
    rw [forget_ite]
    split
    · rw [forget_bind, forget_strictCheck]
      refine bind_congr' fun _ => ?_
      rw [forget_plain_bind]
      rfl
    · rw [forget_plain_bind]
      exact bind_congr' fun _ => ih _ _

theorem forget_addDeclared (strict : Bool) (pool : Pool N S U) (p : Package N S U) (reqs : Reqs N U) (cs : List (CTuple N S))
    (rules : List (Rule N U)) : forget (addDeclaredB strict pool p reqs cs rules) = addDeclared strict pool p reqs cs rules := by
  induction cs generalizing rules with
  | nil => rfl
  | cons c cs ih =>
    unfold addDeclaredB addDeclared
    rw [forget_plain_bind]
    refine bind_congr' fun req => ?_
    rw [forget_plain_bind]
    refine bind_congr' fun cands => ?_
    rw [forget_ite]
    split
    · rw [forget_bind, forget_strictCheck]
      exact bind_congr' fun _ => ih _
    · rw [forget_plain_bind]
      exact bind_congr' fun _ => ih _

theorem forget_addConflicts (strict : Bool) (pool : Pool N S U) (p : Package N S U) (reqs : Reqs N U) (rules : List (Rule N U)) :
    forget (addConflictsB strict pool p reqs rules) = addConflicts strict pool p reqs rules := by
  unfold addConflictsB addConflicts
  rw [forget_plain_bind]
  refine bind_congr' fun _ => ?_
  rw [forget_plain_bind]
  exact bind_congr' fun _ => forget_addDeclared ..

theorem forget_work (strict : Bool) (pool : Pool N S U) (n : Nat) (queue : List (Work N S U)) (g : Gen N U) :
    forget (workB strict pool n queue g) = work strict pool n queue g := by
  induction n generalizing queue g with
  | zero => cases queue <;> rfl
  | succ n ih =>
    cases queue with
    | nil => rfl
    | cons w queue =>
      obtain ⟨p, reqs⟩ := w
      unfold workB work
      rw [forget_plain_bind]
      refine bind_congr' fun i => ?_
      rw [forget_ite]
      split
      · exact ih _ _
      · rw [forget_bind, forget_addRequires]
        refine bind_congr' fun x => ?_
        obtain ⟨rules, more⟩ := x
        simp only
        rw [forget_bind, forget_addConflicts]
        exact bind_congr' fun _ => ih _ _

theorem forget_addPackageRules (strict : Bool) (pool : Pool N S U) (p : Package N S U) (reqs : Reqs N U) (g : Gen N U) :
    forget (addPackageRulesB strict pool p reqs g) = addPackageRules strict pool p reqs g := forget_work ..

theorem forget_addCandidates (strict : Bool) (pool : Pool N S U) (installed : Dict Nat (Package N S U)) (r : Requirement N U)
    (ps : List (Package N S U)) (g : Gen N U) :
    forget (addCandidatesB strict pool installed r ps g) = addCandidates strict pool installed r ps g := by
  induction ps generalizing g with
  | nil => rfl
  | cons p ps ih =>
    unfold addCandidatesB addCandidates
    rw [forget_plain_bind]
    refine bind_congr' fun i => ?_
    rw [forget_ite]
    split
    · exact ih _
    · rw [forget_bind, forget_addPackageRules]
      exact bind_congr' fun _ => ih _

theorem forget_addInstallJob (strict : Bool) (pool : Pool N S U) (installed : Dict Nat (Package N S U)) (r : Requirement N U)
    (g : Gen N U) : forget (addInstallJobB strict pool installed r g) = addInstallJob strict pool installed r g := by
  unfold addInstallJobB addInstallJob
  rw [forget_plain_bind]
  refine bind_congr' fun ps => ?_
  rw [forget_ite]
  split
  · rfl
  · rw [forget_bind, forget_addCandidates]
    refine bind_congr' fun _ => ?_
    rw [forget_plain_bind]
    rfl

theorem forget_addJob (strict : Bool) (pool : Pool N S U) (installed : Dict Nat (Package N S U)) (j : Job N U)
    (g : Gen N U) : forget (addJobB strict pool installed j g) = addJob strict pool installed j g := by
  have up : ∀ r, forget (addUpdateJobB strict pool installed r g) = addUpdateJob strict pool installed r g := by
    intro r
    unfold addUpdateJobB addUpdateJob
    rw [forget_plain_bind]
    refine bind_congr' fun ps => ?_
    rw [forget_ite]
    split
    · rfl
    · rw [forget_plain_bind]
      refine bind_congr' fun p => ?_
      rw [forget_bind, forget_addPackageRules]
      refine bind_congr' fun _ => ?_
      rw [forget_plain_bind]
      rfl
  obtain ⟨r, k⟩ := j
  cases k <;> cases r
  all_goals first
    | rfl
    | exact forget_addInstallJob ..
    | exact forget_plain _
    | exact up _

theorem forget_addJobs (strict : Bool) (pool : Pool N S U) (installed : Dict Nat (Package N S U)) (js : List (Job N U))
    (g : Gen N U) : forget (addJobsB strict pool installed js g) = addJobs strict pool installed js g := by
  induction js generalizing g with
  | nil => rfl
  | cons j js ih =>
    unfold addJobsB addJobs
    rw [forget_bind, forget_addJob]
    exact bind_congr' fun _ => ih _

theorem forget_addOthers (strict : Bool) (pool : Pool N S U) (ps : List (Package N S U)) (g : Gen N U) :
    forget (addOthersB strict pool ps g) = addOthers strict pool ps g := by
  induction ps generalizing g with
  | nil => rfl
  | cons p ps ih =>
    unfold addOthersB addOthers
    rw [forget_bind, forget_addPackageRules]
    exact bind_congr' fun _ => ih _

theorem forget_addInstalled (strict : Bool) (pool : Pool N S U) (ps : List (Package N S U)) (g : Gen N U) :
    forget (addInstalledB strict pool ps g) = addInstalled strict pool ps g := by
  induction ps generalizing g with
  | nil => rfl
  | cons p ps ih =>
    unfold addInstalledB addInstalled
    rw [forget_bind, forget_addOthers]
    refine bind_congr' fun _ => ?_
    rw [forget_bind, forget_addPackageRules]
    exact bind_congr' fun _ => ih _

/-- The generator that names what is missing is the generator. -/
theorem forget_iterRules (strict : Bool) (pool : Pool N S U) (jobs : List (Job N U)) (installed : Dict Nat (Package N S U)) :
    forget (iterRulesB strict pool jobs installed) = iterRules strict pool jobs installed := by
  unfold iterRulesB iterRules
  rw [forget_bind, forget_addJobs]
  exact bind_congr' fun _ => forget_addInstalled ..

/-! ### What the data say -/

/-- the exceptions with an attribute `requirement`: NoPackageFound and its subclasses; errors.py:20-39 -/
def CarriesRequirement (e : PErr) : Prop := e = .noPackageFound ∨ e = .missingInstallRequires ∨ e = .missingConflicts

/-- The data of an exception are right: `requirement` is a requirement of a job, or of a package that a job asks for, which
no available package meets. -/
def Truthful (avail : List (Package N S U)) (mods : Option (Modifiers N)) (jobs : List (Job N U)) (b : Blame N S U) : Prop :=
  (∃ r, b = ⟨.noPackageFound, some r, none⟩ ∧
    (∃ j ∈ jobs, j.requirement = some r ∧ (j.kind = .install ∨ j.kind = .softUpdate)) ∧ ∀ q ∈ avail, ¬ MeetsJob r q) ∨
  (∃ r p, b = ⟨.missingInstallRequires, some r, some p⟩ ∧ p ∈ avail ∧
    (∃ j ∈ jobs, ∃ rj, j.requirement = some rj ∧ j.kind ≠ .remove ∧ MeetsJob rj p) ∧
    (∃ t ∈ p.installRequires, fromConstraints .install t = .ok r) ∧ ∀ q ∈ avail, ¬ Meets mods true r q) ∨
  (∃ r p, b = ⟨.missingConflicts, some r, some p⟩ ∧ p ∈ avail ∧
    (∃ j ∈ jobs, ∃ rj, j.requirement = some rj ∧ j.kind ≠ .remove ∧ MeetsJob rj p) ∧
    (∃ t ∈ p.conflicts, fromConstraints .conflict t = .ok r) ∧ ∀ q ∈ avail, ¬ Meets mods true r q) ∨
  (∃ e, b = ⟨e, none, none⟩ ∧ ¬ CarriesRequirement e)

namespace Run

/-- if it fails, the data are right -/
def Fine {α : Type} (R : Run N S U) (x : Except (Blame N S U) α) : Prop :=
  ∀ b, x = .error b → Truthful R.avail R.pool.modifiers R.jobs b

theorem Fine.bind {α β : Type} {R : Run N S U} {x : Except (Blame N S U) α} {f : α → Except (Blame N S U) β} (h : R.Fine x)
    (hf : ∀ a, x = .ok a → R.Fine (f a)) : R.Fine (x >>= f) := by
  cases hx : x with
  | error b =>
    intro b' hb
    cases hb
    exact h b hx
  | ok a => exact hf a hx

theorem Fine.ok {α : Type} {R : Run N S U} (a : α) : R.Fine (.ok a) := fun _ h => nomatch h

theorem Fine.plain {α : Type} {R : Run N S U} {x : Except PErr α} (h : ∀ e, x = .error e → ¬ CarriesRequirement e) :
    R.Fine (Rules.plain x) := by
  intro b hb
  cases x with
  | ok a => cases hb
  | error e =>
    cases hb
    exact Or.inr (Or.inr (Or.inr ⟨e, rfl, h e rfl⟩))

theorem plain_ok {α : Type} {x : Except PErr α} {a : α} (h : (Rules.plain x : Except (Blame N S U) α) = .ok a) : x = .ok a := by
  cases x with
  | ok a => cases h; rfl
  | error e => cases h

theorem not_value {e : PErr} (h : e = .valueError) : ¬ CarriesRequirement e := by
  rintro (k | k | k) <;> rw [h] at k <;> cases k

theorem not_input {e : PErr} (h : InputErr e) : ¬ CarriesRequirement e := by
  rcases h with h | h | h | h | h <;> rintro (k | k | k) <;> rw [h] at k <;> cases k

theorem not_impl {e : PErr} (h : e = .notImplemented) : ¬ CarriesRequirement e := not_input (Or.inr (Or.inr (Or.inr (Or.inr h))))

variable {R : Run N S U} (hok : R.pool.OK R.avail)
include hok

theorem origin_job {p : Package N S U} {r : Requirement N U} (h : Trail R.avail R.pool.modifiers R.jobs [r] p) :
    p ∈ R.avail ∧ ∃ j ∈ R.jobs, ∃ rj, j.requirement = some rj ∧ j.kind ≠ .remove ∧ MeetsJob rj p := by
  have aux : ∀ l p, Trail R.avail R.pool.modifiers R.jobs l p → l ≠ [] ∧ (l.length = 1 → p ∈ R.avail ∧
      ∃ j ∈ R.jobs, ∃ rj, j.requirement = some rj ∧ j.kind ≠ .remove ∧ MeetsJob rj p) := by
    intro l p h
    induction h with
    | job hj hr hk hp hm => exact ⟨by simp, fun _ => ⟨hp, _, hj, _, hr, hk, hm⟩⟩
    | dep _ _ _ _ _ ih =>
      refine ⟨by simp, fun hl => ?_⟩
      rw [List.length_append, List.length_singleton] at hl
      exact absurd (List.length_eq_zero_iff.1 (by omega)) ih.1
  exact (aux _ _ h).2 rfl

theorem strictCheck_fine {strict : Bool} {e : PErr} {reqs : Reqs N U} {p : Package N S U} (ho : R.Orig reqs p) {cls : ReqClass}
    {t : CTuple N S} {req : Requirement N U} (hreq : fromConstraints cls t = .ok req)
    (hc : R.pool.whatProvides req = .ok [])
    (hcase : (cls = .install ∧ t ∈ p.installRequires ∧ e = .missingInstallRequires) ∨
      (cls = .conflict ∧ t ∈ p.conflicts ∧ e = .missingConflicts)) :
    R.Fine (strictCheckB strict reqs e req p) := by
  have hno : ∀ q ∈ R.avail, ¬ Meets R.pool.modifiers true req q := by
    intro q hq hm
    have := (mem_whatProvides hok hc q).2 ⟨hq, hm⟩
    simp at this
  unfold strictCheckB
  cases strict with
  | false => exact Fine.ok _
  | true =>
    rw [if_pos rfl]
    cases reqs with
    | none =>
      intro b hb
      cases hb
      exact Or.inr (Or.inr (Or.inr ⟨_, rfl, by rintro (k | k | k) <;> cases k⟩))
    | some l =>
      simp only
      split
      · next hl =>
        intro b hb
        cases hb
        match l, hl with
        | [r], _ =>
          obtain ⟨hp, hj⟩ := origin_job hok ho
          rcases hcase with ⟨rfl, h, rfl⟩ | ⟨rfl, h, rfl⟩
          · exact Or.inr (Or.inl ⟨req, p, rfl, hp, hj, ⟨t, h, hreq⟩, hno⟩)
          · exact Or.inr (Or.inr (Or.inl ⟨req, p, rfl, hp, hj, ⟨t, h, hreq⟩, hno⟩))
      · exact Fine.ok _

theorem addRequires_fine {strict : Bool} {p : Package N S U} {reqs : Reqs N U} (ho : R.Orig reqs p)
    {cs : List (CTuple N S)} (hcs : ∀ t ∈ cs, t ∈ p.installRequires) (rules : List (Rule N U))
    (queued : List (Work N S U)) : R.Fine (addRequiresB strict R.pool p reqs cs rules queued) := by
  induction cs generalizing rules queued with
  | nil => exact Fine.ok _
  | cons c cs ih =>
    unfold addRequiresB
    refine (Fine.plain fun e he => not_input (fromConstraints_err he)).bind fun req hreq => ?_
    refine (Fine.plain fun e he => not_impl (whatProvides_err he).1).bind fun cands hc => ?_
    split
    · next he =>
      rw [List.isEmpty_iff] at he
      subst he
      refine (strictCheck_fine hok ho (plain_ok hreq) (plain_ok hc) (Or.inl ⟨rfl, hcs c (by simp), rfl⟩)).bind fun _ _ => ?_
      refine (Fine.plain fun e he => ?_).bind fun _ _ => Fine.ok _
      simp only [removeRule, bind_err] at he
      rcases he with he | ⟨_, -, he⟩
      · exact not_value (packageId_err he)
      · cases he
    · refine (Fine.plain fun e he => ?_).bind fun _ _ => ih (fun t ht => hcs t (by simp [ht])) _ _
      simp only [dependencyRule, bind_err] at he
      rcases he with he | ⟨_, -, he | ⟨_, -, he⟩⟩
      · exact not_value (packageId_err he)
      · exact not_value (candidateIds_err he)
      · cases he

theorem addDeclared_fine {strict : Bool} {p : Package N S U} {reqs : Reqs N U} (ho : R.Orig reqs p)
    {cs : List (CTuple N S)} (hcs : ∀ t ∈ cs, t ∈ p.conflicts) (rules : List (Rule N U)) :
    R.Fine (addDeclaredB strict R.pool p reqs cs rules) := by
  induction cs generalizing rules with
  | nil => exact Fine.ok _
  | cons c cs ih =>
    have hcs' : ∀ t ∈ cs, t ∈ p.conflicts := fun t ht => hcs t (by simp [ht])
    unfold addDeclaredB
    refine (Fine.plain fun e he => not_input (fromConstraints_err he)).bind fun req hreq => ?_
    refine (Fine.plain fun e he => not_impl (whatProvides_err he).1).bind fun cands hc => ?_
    split
    · next he =>
      rw [List.isEmpty_iff] at he
      subst he
      exact (strictCheck_fine hok ho (plain_ok hreq) (plain_ok hc) (Or.inr ⟨rfl, hcs c (by simp), rfl⟩)).bind fun _ _ => ih hcs' _
    · exact (Fine.plain fun e he => not_value (addProviderConflicts_err he)).bind fun _ _ => ih hcs' _

theorem addConflicts_fine {strict : Bool} {p : Package N S U} {reqs : Reqs N U} (ho : R.Orig reqs p) (rules : List (Rule N U)) :
    R.Fine (addConflictsB strict R.pool p reqs rules) := by
  unfold addConflictsB
  refine (Fine.plain fun e he => not_impl (whatProvides_err he).1).bind fun _ _ => ?_
  exact (Fine.plain fun e he => not_value (addSameName_err he)).bind fun _ _ => addDeclared_fine hok ho (fun _ k => k) _

theorem work_fine {strict : Bool} {n : Nat} {queue : List (Work N S U)} (g : Gen N U) (hq : ∀ e ∈ queue, R.Orig e.2 e.1) :
    R.Fine (workB strict R.pool n queue g) := by
  induction n generalizing queue g with
  | zero =>
    cases queue with
    | nil => exact Fine.ok _
    | cons e queue =>
      intro b hb
      cases hb
      exact Or.inr (Or.inr (Or.inr ⟨_, rfl, by rintro (k | k | k) <;> cases k⟩))
  | succ n ih =>
    cases queue with
    | nil => exact Fine.ok _
    | cons e queue =>
      obtain ⟨p, reqs⟩ := e
      unfold workB
      have hq' : ∀ e ∈ queue, R.Orig e.2 e.1 := fun e he => hq e (by simp [he])
      have ho : R.Orig reqs p := hq (p, reqs) (by simp)
      refine (Fine.plain fun e he => not_value (packageId_err he)).bind fun i hi => ?_
      split
      · exact ih _ hq'
      · refine (addRequires_fine hok ho (fun _ k => k) _ _).bind fun x hx => ?_
        obtain ⟨rules1, more⟩ := x
        have hx' : addRequires strict R.pool p reqs p.installRequires g.rules [] = .ok (rules1, more) := by
          rw [← forget_addRequires, hx]
          rfl
        have hm := addRequires_orig hok ho (fun _ k => k) (by simp) hx'
        simp only
        refine (addConflicts_fine hok ho _).bind fun _ _ => ih _ ?_
        intro e he
        rcases List.mem_append.1 he with k | k
        · exact hq' e k
        · exact hm e k

theorem addPackageRules_fine {strict : Bool} {p : Package N S U} {reqs : Reqs N U} (ho : R.Orig reqs p) (g : Gen N U) :
    R.Fine (addPackageRulesB strict R.pool p reqs g) := work_fine hok g (by simpa using ho)

theorem addCandidates_fine {strict : Bool} {j : Job N U} {r : Requirement N U} (hj : j ∈ R.jobs)
    (hr : j.requirement = some r) (hk : j.kind ≠ .remove) {all : List (Package N S U)}
    (hall : R.pool.whatProvides r false = .ok all) {ps : List (Package N S U)} (hps : ∀ p ∈ ps, p ∈ all)
    (g : Gen N U) : R.Fine (addCandidatesB strict R.pool R.installed r ps g) := by
  induction ps generalizing g with
  | nil => exact Fine.ok _
  | cons p ps ih =>
    unfold addCandidatesB
    have hps' : ∀ p ∈ ps, p ∈ all := fun q hq => hps q (by simp [hq])
    refine (Fine.plain fun e he => not_value (packageId_err he)).bind fun i hi => ?_
    split
    · exact ih hps' g
    · have hp := (mem_jobProviders hok hall p).1 (hps p (by simp))
      have ho : R.Orig (some [r]) p := Trail.job hj hr hk hp.1 hp.2
      exact (addPackageRules_fine hok ho g).bind fun _ _ => ih hps' _

theorem addInstallJob_fine {strict : Bool} {j : Job N U} {r : Requirement N U} (hj : j ∈ R.jobs)
    (hr : j.requirement = some r) (hk : j.kind = .install ∨ j.kind = .softUpdate) (g : Gen N U) :
    R.Fine (addInstallJobB strict R.pool R.installed r g) := by
  unfold addInstallJobB
  refine (Fine.plain fun e he => not_impl (whatProvides_err he).1).bind fun ps hps => ?_
  split
  · next he =>
    rw [List.isEmpty_iff] at he
    subst he
    intro b hb
    cases hb
    refine Or.inl ⟨r, rfl, ⟨j, hj, hr, hk⟩, fun q hq hm => ?_⟩
    have := (mem_jobProviders hok (plain_ok hps) q).2 ⟨hq, hm⟩
    simp at this
  · refine (addCandidates_fine hok hj hr (by rcases hk with k | k <;> simp [k]) (plain_ok hps) (fun _ k => k) g).bind fun _ _ => ?_
    refine (Fine.plain fun e he => ?_).bind fun _ _ => Fine.ok _
    simp only [installOneOfRule, bind_err] at he
    rcases he with he | ⟨_, -, he⟩
    · exact not_value (idsOfAll_err he)
    · cases he

theorem addJob_fine {strict : Bool} {j : Job N U} (hj : j ∈ R.jobs) (g : Gen N U) :
    R.Fine (addJobB strict R.pool R.installed j g) := by
  unfold addJobB
  split
  · next hk hr => exact addInstallJob_fine hok hj hr (Or.inl hk) g
  · next hk hr => exact addInstallJob_fine hok hj hr (Or.inr hk) g
  · refine Fine.plain fun e he => ?_
    simp only [addRemoveJob, bind_err] at he
    rcases he with he | ⟨_, -, he⟩
    · exact not_impl (whatProvides_err he).1
    · exact not_value (addRemovals_err he)
  · next r hk hr =>
    unfold addUpdateJobB
    refine (Fine.plain fun e he => not_impl (whatProvides_err he).1).bind fun ps hps => ?_
    split
    · exact Fine.ok _
    · refine (Fine.plain fun e he => not_value (maxPkg_err (fun _ _ => updateKey_err) he)).bind fun p hp => ?_
      have hm := (mem_jobProviders hok (plain_ok hps) p).1 (addUpdateJob_mem hok (plain_ok hp))
      have ho : R.Orig (some [r]) p := Trail.job hj hr (by simp [hk]) hm.1 hm.2
      refine (addPackageRules_fine hok ho g).bind fun _ _ => ?_
      exact (Fine.plain fun e he => not_value (packageId_err he)).bind fun _ _ => Fine.ok _
  · exact Fine.plain fun e he => by cases he; rintro (k | k | k) <;> cases k
  · exact Fine.plain fun e he => by cases he; rintro (k | k | k) <;> cases k

theorem addJobs_fine {strict : Bool} {js : List (Job N U)} (hjs : ∀ j ∈ js, j ∈ R.jobs) (g : Gen N U) :
    R.Fine (addJobsB strict R.pool R.installed js g) := by
  induction js generalizing g with
  | nil => exact Fine.ok _
  | cons j js ih =>
    unfold addJobsB
    exact (addJob_fine hok (hjs j (by simp)) g).bind fun _ _ => ih (fun k hk => hjs k (by simp [hk])) _

theorem addOthers_fine {strict : Bool} {ps : List (Package N S U)} (hps : ∀ p ∈ ps, R.Orig none p) (g : Gen N U) :
    R.Fine (addOthersB strict R.pool ps g) := by
  induction ps generalizing g with
  | nil => exact Fine.ok _
  | cons p ps ih =>
    unfold addOthersB
    exact (addPackageRules_fine hok (hps p (by simp)) g).bind fun _ _ => ih (fun k hk => hps k (by simp [hk])) _

theorem addInstalled_fine {strict : Bool} {ps : List (Package N S U)} (hps : ∀ p ∈ ps, p ∈ R.pkgs) (g : Gen N U) :
    R.Fine (addInstalledB strict R.pool ps g) := by
  induction ps generalizing g with
  | nil => exact Fine.ok _
  | cons p ps ih =>
    unfold addInstalledB
    have hp := hps p (by simp)
    refine (addOthers_fine hok ?_ g).bind fun _ _ => (addPackageRules_fine hok ?_ _).bind fun _ _ =>
      ih (fun k hk => hps k (by simp [hk])) _
    · intro q hq
      rw [mem_nameToPackages hok] at hq
      exact FromInstalled.name hp hq.1 hq.2
    · exact FromInstalled.self hp

theorem iterRules_fine (strict : Bool) : R.Fine (iterRulesB strict R.pool R.jobs R.installed) := by
  unfold iterRulesB
  exact (addJobs_fine hok (fun _ k => k) _).bind fun _ _ => addInstalled_fine hok (fun _ k => k) _

end Run
end Verif.Rules
