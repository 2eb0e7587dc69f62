import Verif.Rules.Terminates
import Verif.Rules.Justify
import Verif.Solve.GraphLemmas
/-
On well-formed input, rule generation without strict mode raises nothing.
-/
set_option linter.unusedSectionVars false
namespace Verif.Props
open Verif Verif.Pkg

variable {N S U : Type} [LinearOrder N] [DecidableEq S] [LinearOrder U] [Syntax S U]

/-- the constraint strings of the package's dependencies and conflicts are well formed, and the modifiers do not apply to
its conflicts (which is not implemented, C60) -/
structure Readable (mods : Option (Modifiers N)) (p : Package N S U) : Prop where
  deps : ∀ t ∈ p.installRequires, ∃ r : Requirement N U, fromConstraints .install t = .ok r
  conflicts : ∀ t ∈ p.conflicts, ∃ r : Requirement N U, fromConstraints .conflict t = .ok r ∧
    ∀ m, mods = some m → ∃ r', modifyRequirement r m = .ok r'

end Verif.Props

namespace Verif.Rules
open Verif Verif.Pkg Verif.Props

variable {N S U : Type} [LinearOrder N] [DecidableEq S] [LinearOrder U] [Syntax S U]

theorem whatProvides_false (pool : Pool N S U) (r : Requirement N U) : ∃ ps, pool.whatProvides r false = .ok ps := by
  cases h : pool.whatProvides r false with
  | ok ps => exact ⟨ps, rfl⟩
  | error e => have := whatProvides_err h; simp at this

theorem whatProvides_readable {pool : Pool N S U} {r : Requirement N U}
    (h : ∀ m, pool.modifiers = some m → ∃ r', modifyRequirement r m = .ok r') : ∃ ps, pool.whatProvides r = .ok ps := by
  unfold Pool.whatProvides
  split
  · exact ⟨_, rfl⟩
  · simp only [if_true]
    unfold Pool.modifyRequirement
    cases hm : pool.modifiers with
    | none => exact ⟨_, rfl⟩
    | some m =>
      obtain ⟨r', hr⟩ := h m hm
      simp only [hr]
      exact ⟨_, rfl⟩

section
variable {pool : Pool N S U} {l : List (Package N S U)} (hok : pool.OK l) (hr : ∀ p ∈ l, Readable pool.modifiers p)
include hok

theorem id_of_mem {p : Package N S U} (hp : p ∈ l) : ∃ i, pool.packageId p = .ok i := hok.ids.packageId_ok ⟨p, hp, rfl⟩

theorem provider_mem {r : Requirement N U} {b : Bool} {ps : List (Package N S U)} (h : pool.whatProvides r b = .ok ps) :
    ∀ p ∈ ps, p ∈ l := fun p hp => ((mem_whatProvides hok h p).1 hp).1

theorem candidateIds_total {p : Package N S U} {ds : List (Package N S U)} (hd : ∀ d ∈ ds, d ∈ l) :
    ∃ ids, candidateIds pool p ds = .ok ids := by
  induction ds with
  | nil => exact ⟨[], rfl⟩
  | cons d ds ih =>
    obtain ⟨ids, h1⟩ := ih (fun x hx => hd x (by simp [hx]))
    obtain ⟨i, h2⟩ := id_of_mem hok (hd d (by simp))
    unfold candidateIds
    rw [h1, h2]
    split
    · exact ⟨ids, rfl⟩
    · exact ⟨_, rfl⟩

theorem idsOfAll_total {ds : List (Package N S U)} (hd : ∀ d ∈ ds, d ∈ l) : ∃ ids, idsOfAll pool ds = .ok ids := by
  induction ds with
  | nil => exact ⟨[], rfl⟩
  | cons d ds ih =>
    obtain ⟨ids, h1⟩ := ih (fun x hx => hd x (by simp [hx]))
    obtain ⟨i, h2⟩ := id_of_mem hok (hd d (by simp))
    unfold idsOfAll
    rw [h1, h2]
    exact ⟨_, rfl⟩

theorem conflictRule_total {p q : Package N S U} (hp : ∃ i, pool.packageId p = .ok i) (hq : q ∈ l) (reason : Reason)
    (reqs : Reqs N U) : ∃ r, conflictRule pool p q reason reqs = .ok r := by
  obtain ⟨i, h1⟩ := hp
  obtain ⟨j, h2⟩ := id_of_mem hok hq
  unfold conflictRule
  rw [h1, h2]
  split
  · exact ⟨_, rfl⟩
  · exact ⟨_, rfl⟩

theorem addRequires_total {p : Package N S U} (hp : ∃ i, pool.packageId p = .ok i) (reqs : Reqs N U)
    {cs : List (CTuple N S)} (hc : ∀ t ∈ cs, ∃ r : Requirement N U, fromConstraints .install t = .ok r)
    (rules : List (Rule N U)) {queued : List (Work N S U)} (hq : ∀ e ∈ queued, e.1 ∈ l) :
    ∃ rules' more, addRequires false pool p reqs cs rules queued = .ok (rules', more) ∧ ∀ e ∈ more, e.1 ∈ l := by
  induction cs generalizing rules queued with
  | nil => exact ⟨rules, queued, rfl, hq⟩
  | cons c cs ih =>
    obtain ⟨req, h1⟩ := hc c (by simp)
    obtain ⟨cands, h2⟩ := Verif.Solve.whatProvides_install (pool := pool) (fromConstraints_name h1).2 true
    obtain ⟨i, h3⟩ := hp
    unfold addRequires
    simp only [h1, h2, bind, Except.bind]
    split
    · simp only [strictCheck, Bool.false_eq_true, if_false, removeRule, h3, bind, Except.bind]
      exact ⟨_, _, rfl, by simp⟩
    · obtain ⟨ids, h4⟩ := candidateIds_total hok (p := p) (provider_mem hok h2)
      simp only [dependencyRule, h3, h4, bind, Except.bind]
      refine ih (fun t ht => hc t (by simp [ht])) _ ?_
      intro e he
      rcases List.mem_append.1 he with he | he
      · exact hq e he
      · obtain ⟨q, hq', rfl⟩ := List.mem_map.1 he
        exact provider_mem hok h2 q hq'

theorem addSameName_total {p : Package N S U} (hp : ∃ i, pool.packageId p = .ok i) (reqs : Reqs N U)
    {qs : List (Package N S U)} (hq : ∀ q ∈ qs, q ∈ l) (rules : List (Rule N U)) :
    ∃ rules', addSameName pool p reqs qs rules = .ok rules' := by
  induction qs generalizing rules with
  | nil => exact ⟨_, rfl⟩
  | cons q qs ih =>
    unfold addSameName
    split
    · obtain ⟨r, h1⟩ := conflictRule_total hok hp (hq q (by simp)) .packageSameName reqs
      simp only [h1, bind, Except.bind]
      exact ih (fun x hx => hq x (by simp [hx])) _
    · exact ih (fun x hx => hq x (by simp [hx])) _

theorem addProviderConflicts_total {p : Package N S U} (hp : ∃ i, pool.packageId p = .ok i) (reqs : Reqs N U)
    {qs : List (Package N S U)} (hq : ∀ q ∈ qs, q ∈ l) (rules : List (Rule N U)) :
    ∃ rules', addProviderConflicts pool p reqs qs rules = .ok rules' := by
  induction qs generalizing rules with
  | nil => exact ⟨_, rfl⟩
  | cons q qs ih =>
    unfold addProviderConflicts
    obtain ⟨r, h1⟩ := conflictRule_total hok hp (hq q (by simp)) .packageConflicts reqs
    simp only [h1, bind, Except.bind]
    exact ih (fun x hx => hq x (by simp [hx])) _

theorem addDeclared_total {p : Package N S U} (hp : ∃ i, pool.packageId p = .ok i) (reqs : Reqs N U)
    {cs : List (CTuple N S)} (hc : ∀ t ∈ cs, ∃ r : Requirement N U, fromConstraints .conflict t = .ok r ∧
      ∀ m, pool.modifiers = some m → ∃ r', modifyRequirement r m = .ok r') (rules : List (Rule N U)) :
    ∃ rules', addDeclared false pool p reqs cs rules = .ok rules' := by
  induction cs generalizing rules with
  | nil => exact ⟨_, rfl⟩
  | cons c cs ih =>
    obtain ⟨req, h1, h2⟩ := hc c (by simp)
    obtain ⟨cands, h3⟩ := whatProvides_readable h2
    unfold addDeclared
    simp only [h1, h3, bind, Except.bind]
    split
    · simp only [strictCheck, Bool.false_eq_true, if_false]
      exact ih (fun t ht => hc t (by simp [ht])) _
    · obtain ⟨rules', h4⟩ := addProviderConflicts_total hok hp (combine reqs req) (provider_mem hok h3) rules
      simp only [h4]
      exact ih (fun t ht => hc t (by simp [ht])) _

theorem ofName_modify (cls : ReqClass) (n : N) (m : Modifiers N) (hc : cls ≠ .install) :
    ∃ r' : Requirement N U, modifyRequirement (Requirement.ofName cls n) m = .ok r' := by
  unfold modifyRequirement
  cases cls with
  | install => exact absurd rfl hc
  | plain => exact ⟨_, by simp only [Requirement.ofName]; rfl⟩
  | conflict => exact ⟨_, by simp only [Requirement.ofName]; rfl⟩

include hr

theorem addConflicts_total {p : Package N S U} (hp : ∃ q ∈ l, q.key = p.key) (reqs : Reqs N U) (rules : List (Rule N U)) :
    ∃ rules', addConflicts false pool p reqs rules = .ok rules' := by
  have hid := hok.ids.packageId_ok hp
  obtain ⟨obs, h1⟩ := whatProvides_readable (pool := pool) (r := Requirement.ofName .conflict p.name)
    (fun m _ => ofName_modify hok .conflict p.name m (by simp))
  unfold addConflicts
  simp only [h1, bind, Except.bind]
  obtain ⟨rules', h2⟩ := addSameName_total hok hid (combine reqs (Requirement.ofName .conflict p.name))
    (provider_mem hok h1) rules
  simp only [h2]
  refine addDeclared_total hok hid reqs ?_ _
  obtain ⟨q, hq, hk⟩ := hp
  have := (hr q hq).conflicts
  rwa [(key_fields hk).2.2.2] at this

theorem work_total {n : Nat} {queue : List (Work N S U)} (hq : ∀ e ∈ queue, ∃ q ∈ l, q.key = e.1.key) (g : Gen N U) :
    (∃ g', work false pool n queue g = .ok g') ∨ work false pool n queue g = .error .outOfFuel := by
  induction n generalizing queue g with
  | zero =>
    cases queue with
    | nil => exact Or.inl ⟨g, rfl⟩
    | cons e queue => exact Or.inr rfl
  | succ n ih =>
    cases queue with
    | nil => exact Or.inl ⟨g, rfl⟩
    | cons e queue =>
      obtain ⟨p, reqs⟩ := e
      have hp := hq (p, reqs) (by simp)
      obtain ⟨i, h1⟩ := hok.ids.packageId_ok hp
      have hrest : ∀ e ∈ queue, ∃ q ∈ l, q.key = e.1.key := fun e he => hq e (by simp [he])
      unfold work
      simp only [h1, bind, Except.bind]
      split
      · exact ih hrest g
      · obtain ⟨rules', more, h2, h3⟩ := addRequires_total hok ⟨i, h1⟩ reqs (cs := p.installRequires) (by
          obtain ⟨q, hq, hk⟩ := hp
          have := (hr q hq).deps
          rwa [(key_fields hk).2.2.1] at this) g.rules (queued := []) (by simp)
        simp only [h2]
        obtain ⟨rules'', h4⟩ := addConflicts_total hok hr hp reqs rules'
        simp only [h4]
        refine ih ?_ _
        intro e he
        rcases List.mem_append.1 he with he | he
        · exact hrest e he
        · exact ⟨e.1, h3 e he, rfl⟩

theorem addPackageRules_total {p : Package N S U} (hp : ∃ q ∈ l, q.key = p.key) (reqs : Reqs N U) (g : Gen N U) :
    ∃ g', addPackageRules false pool p reqs g = .ok g' := by
  rcases work_total hok hr (n := enoughTurns pool) (queue := [(p, reqs)]) (by simpa using hp) g with h | h
  · exact h
  · have := addPackageRules_err hok h
    rcases this with h | ⟨h, -⟩
    · unfold InputErr at h; simp at h
    · simp at h

theorem addCandidates_total (installed : Dict Nat (Package N S U)) (r : Requirement N U) {ps : List (Package N S U)}
    (hp : ∀ p ∈ ps, p ∈ l) (g : Gen N U) : ∃ g', addCandidates false pool installed r ps g = .ok g' := by
  induction ps generalizing g with
  | nil => exact ⟨g, rfl⟩
  | cons p ps ih =>
    obtain ⟨i, h1⟩ := id_of_mem hok (hp p (by simp))
    unfold addCandidates
    simp only [h1, bind, Except.bind]
    split
    · exact ih (fun x hx => hp x (by simp [hx])) g
    · obtain ⟨g', h2⟩ := addPackageRules_total hok hr ⟨p, hp p (by simp), rfl⟩ (some [r]) g
      simp only [h2]
      exact ih (fun x hx => hp x (by simp [hx])) g'

theorem addInstallJob_total (installed : Dict Nat (Package N S U)) {r : Requirement N U} (hne : ∃ p ∈ l, MeetsJob r p)
    (g : Gen N U) : ∃ g', addInstallJob false pool installed r g = .ok g' := by
  obtain ⟨ps, h1⟩ := whatProvides_false pool r
  have hne' : ps.isEmpty = false := by
    obtain ⟨p, hp, hm⟩ := hne
    have := (Run.mem_jobProviders (R := ⟨pool, l, [], []⟩) hok h1 p).2 ⟨hp, hm⟩
    cases ps with
    | nil => simp at this
    | cons a t => rfl
  obtain ⟨g', h2⟩ := addCandidates_total hok hr installed r (provider_mem hok h1) g
  obtain ⟨ids, h3⟩ := idsOfAll_total hok (provider_mem hok h1)
  unfold addInstallJob
  simp only [h1, hne', h2, h3, installOneOfRule, bind, Except.bind, Bool.false_eq_true, if_false]
  exact ⟨_, rfl⟩

omit hr in
theorem addRemovals_total (r : Requirement N U) {ps : List (Package N S U)} (hp : ∀ p ∈ ps, p ∈ l) (g : Gen N U) :
    ∃ g', addRemovals pool r ps g = .ok g' := by
  induction ps generalizing g with
  | nil => exact ⟨g, rfl⟩
  | cons p ps ih =>
    obtain ⟨i, h1⟩ := id_of_mem hok (hp p (by simp))
    unfold addRemovals
    simp only [h1, removeRule, bind, Except.bind]
    exact ih (fun x hx => hp x (by simp [hx])) _

omit hok hr in
theorem maxPkgFrom_total {key : Package N S U → Except PErr (Version U × Bool)} {ps : List (Package N S U)}
    (hk : ∀ p ∈ ps, ∃ k, key p = .ok k) (b : Package N S U × (Version U × Bool)) :
    ∃ p, maxPkgFrom key ps b = .ok p ∧ (p = b.1 ∨ p ∈ ps) := by
  induction ps generalizing b with
  | nil => exact ⟨b.1, rfl, Or.inl rfl⟩
  | cons p ps ih =>
    obtain ⟨k, h1⟩ := hk p (by simp)
    unfold maxPkgFrom
    simp only [h1, bind, Except.bind]
    split
    · obtain ⟨q, h2, h3⟩ := ih (fun x hx => hk x (by simp [hx])) (p, k)
      refine ⟨q, h2, Or.inr ?_⟩
      rcases h3 with h3 | h3
      · subst h3; simp
      · simp [h3]
    · obtain ⟨q, h2, h3⟩ := ih (fun x hx => hk x (by simp [hx])) b
      exact ⟨q, h2, h3.imp id (fun h => by simp [h])⟩

omit hok hr in
theorem maxPkg_total {key : Package N S U → Except PErr (Version U × Bool)} {ps : List (Package N S U)} (hne : ps ≠ [])
    (hk : ∀ p ∈ ps, ∃ k, key p = .ok k) : ∃ p ∈ ps, maxPkg key ps = .ok p := by
  cases ps with
  | nil => exact absurd rfl hne
  | cons p ps =>
    obtain ⟨k, h1⟩ := hk p (by simp)
    obtain ⟨q, h2, h3⟩ := maxPkgFrom_total (fun x hx => hk x (by simp [hx])) (p, k) (ps := ps)
    refine ⟨q, ?_, ?_⟩
    · rcases h3 with h3 | h3
      · rw [h3]; simp
      · simp [h3]
    · unfold maxPkg
      simp only [h1, bind, Except.bind]
      exact h2

theorem addUpdateJob_total (installed : Dict Nat (Package N S U)) (r : Requirement N U) (g : Gen N U) :
    ∃ g', addUpdateJob false pool installed r g = .ok g' := by
  obtain ⟨ps, h1⟩ := whatProvides_false pool r
  unfold addUpdateJob
  simp only [h1, bind, Except.bind]
  split
  · exact ⟨g, rfl⟩
  · next hne =>
    obtain ⟨p, hp, h2⟩ := maxPkg_total (key := updateKey pool installed) (ps := ps) (by rintro rfl; simp at hne) (by
      intro p hp
      obtain ⟨i, hi⟩ := id_of_mem hok (provider_mem hok h1 p hp)
      unfold updateKey
      simp only [hi, bind, Except.bind]
      exact ⟨_, rfl⟩)
    have hpl := provider_mem hok h1 p hp
    obtain ⟨g', h3⟩ := addPackageRules_total hok hr ⟨p, hpl, rfl⟩ (some [r]) g
    obtain ⟨i, h4⟩ := id_of_mem hok hpl
    simp only [h2, h3, h4]
    exact ⟨_, rfl⟩

theorem addJobs_total (installed : Dict Nat (Package N S U)) {jobs : List (Job N U)}
    (hj : ∀ j ∈ jobs, j.kind ≠ .upgrade ∧ ∃ r, j.requirement = some r ∧ ∃ p ∈ l, MeetsJob r p) (g : Gen N U) :
    ∃ g', addJobs false pool installed jobs g = .ok g' := by
  induction jobs generalizing g with
  | nil => exact ⟨g, rfl⟩
  | cons j jobs ih =>
    have h1 : ∃ g', addJob false pool installed j g = .ok g' := by
      obtain ⟨hk, r, hreq, hm⟩ := hj j (by simp)
      unfold addJob
      cases hkind : j.kind with
      | upgrade => exact absurd hkind hk
      | install => simp only [hreq]; exact addInstallJob_total hok hr installed hm g
      | softUpdate => simp only [hreq]; exact addInstallJob_total hok hr installed hm g
      | hardUpdate => simp only [hreq]; exact addUpdateJob_total hok hr installed r g
      | remove =>
        simp only [hreq, addRemoveJob]
        obtain ⟨ps, h1⟩ := whatProvides_false pool r
        simp only [h1, bind, Except.bind]
        exact addRemovals_total hok r (provider_mem hok h1) g
    obtain ⟨g', h1⟩ := h1
    unfold addJobs
    simp only [h1, bind, Except.bind]
    exact ih (fun j hj' => hj j (by simp [hj'])) g'

theorem addOthers_total {ps : List (Package N S U)} (hp : ∀ p ∈ ps, p ∈ l) (g : Gen N U) :
    ∃ g', addOthers false pool ps g = .ok g' := by
  induction ps generalizing g with
  | nil => exact ⟨g, rfl⟩
  | cons p ps ih =>
    obtain ⟨g', h1⟩ := addPackageRules_total hok hr ⟨p, hp p (by simp), rfl⟩ none g
    unfold addOthers
    simp only [h1, bind, Except.bind]
    exact ih (fun x hx => hp x (by simp [hx])) g'

theorem addInstalled_total {ps : List (Package N S U)} (hp : ∀ p ∈ ps, ∃ q ∈ l, q.key = p.key) (g : Gen N U) :
    ∃ g', addInstalled false pool ps g = .ok g' := by
  induction ps generalizing g with
  | nil => exact ⟨g, rfl⟩
  | cons p ps ih =>
    obtain ⟨g1, h1⟩ := addOthers_total hok hr (ps := pool.nameToPackages p.name)
      (fun q hq => ((Run.mem_nameToPackages (R := ⟨pool, l, [], []⟩) hok p.name q).1 hq).1) g
    obtain ⟨g2, h2⟩ := addPackageRules_total hok hr (hp p (by simp)) none g1
    unfold addInstalled
    simp only [h1, h2, bind, Except.bind]
    exact ih (fun x hx => hp x (by simp [hx])) g2

/-- rule generation without strict mode raises nothing on well-formed input -/
theorem iterRules_total {installed : Dict Nat (Package N S U)} {jobs : List (Job N U)}
    (hj : ∀ j ∈ jobs, j.kind ≠ .upgrade ∧ ∃ r, j.requirement = some r ∧ ∃ p ∈ l, MeetsJob r p)
    (hi : ∀ kv ∈ installed, ∃ q ∈ l, q.key = kv.2.key) : ∃ g, iterRules false pool jobs installed = .ok g := by
  obtain ⟨g, h1⟩ := addJobs_total hok hr installed hj ⟨[], []⟩
  unfold iterRules
  simp only [h1, bind, Except.bind]
  refine addInstalled_total hok hr ?_ g
  intro p hp
  obtain ⟨kv, hkv, rfl⟩ := List.mem_map.1 hp
  exact hi kv hkv

end

end Verif.Rules
