import Verif.Pkg.PoolSpec
import Verif.Pkg.Example
import Verif.Props.Constraints
/-
Properties C33-C35, and the part of C27 about jobs.
-/
set_option linter.unusedSectionVars false
namespace Verif.Props
open Verif Verif.Pkg

variable {N S U : Type} [LinearOrder N] [DecidableEq S] [LinearOrder U] [Syntax S U]

/-! ### C33 -/

/-- The pool after a history of `add_repository` calls on `Pool(modifiers=m)`. A call that raises (a package with a
versioned or malformed `provides`) leaves the pool as it is at that moment, and the history goes on. -/
def runAdds (m : Option (Modifiers N)) (rs : List (Repository N S U)) : Pool N S U :=
  rs.foldl (fun pool r => (pool.addPackages r.iter).1) (Pool.empty m)

theorem runAdds_inv (m : Option (Modifiers N)) (rs : List (Repository N S U)) : ∃ l, (runAdds m rs).IdInv l := by
  induction rs using List.reverseRecOn with
  | nil => exact ⟨[], Pool.IdInv.empty m⟩
  | append_singleton rs r ih =>
    obtain ⟨l, hl⟩ := ih
    obtain ⟨d, -, h, -⟩ := hl.addAll r.iter
    refine ⟨l ++ d, ?_⟩
    unfold runAdds at h ⊢
    rw [List.foldl_append]
    exact h

/-- C33: the ids are 1, 2, ..., n, and exactly these denote packages. -/
theorem C33_ids_are_consecutive (m : Option (Modifiers N)) (rs : List (Repository N S U)) :
    ∃ n, (runAdds m rs).packageIds = List.range' 1 n ∧
      ∀ i, (∃ p, (runAdds m rs).idToPkg i = .ok p) ↔ 1 ≤ i ∧ i ≤ n := by
  obtain ⟨l, h⟩ := runAdds_inv m rs
  refine ⟨l.length, h.ids, fun i => ?_⟩
  simp only [h.idToPkg_spec]
  constructor
  · rintro ⟨p, h0, hp⟩
    have : i - 1 < l.length := by
      apply Classical.byContradiction
      intro hn
      rw [List.getElem?_eq_none (by omega)] at hp
      simp at hp
    omega
  · rintro ⟨h1, h2⟩
    exact ⟨l[i - 1], by omega, List.getElem?_eq_getElem (by omega)⟩

/-- C33: `id_to_package(package_id(p)) == p`. -/
theorem C33_round_trip (m : Option (Modifiers N)) (rs : List (Repository N S U)) (p : Package N S U) (i : Nat)
    (h : (runAdds m rs).packageId p = .ok i) : ∃ q, (runAdds m rs).idToPkg i = .ok q ∧ SamePackage q p := by
  obtain ⟨l, hl⟩ := runAdds_inv m rs
  obtain ⟨-, -, q, h1, h2, -⟩ := hl.packageId_spec h
  exact ⟨q, h1, samePackage_iff.2 h2⟩

/-- C33: different packages have different ids. -/
theorem C33_ids_are_unique (m : Option (Modifiers N)) (rs : List (Repository N S U)) (p q : Package N S U) (i : Nat)
    (hp : (runAdds m rs).packageId p = .ok i) (hq : (runAdds m rs).packageId q = .ok i) : SamePackage p q := by
  obtain ⟨l, hl⟩ := runAdds_inv m rs
  exact samePackage_iff.2 (hl.packageId_inj hp hq)

/-- C33: `package_id` raises ValueError exactly for the packages that are not in the pool, i.e. equal to none of the
packages that have an id. -/
theorem C33_package_id_fails_iff (m : Option (Modifiers N)) (rs : List (Repository N S U)) (p : Package N S U) :
    (runAdds m rs).packageId p = .error .valueError ↔
      ¬ ∃ i q, (runAdds m rs).idToPkg i = .ok q ∧ SamePackage q p := by
  simp only [samePackage_iff]
  obtain ⟨l, hl⟩ := runAdds_inv m rs
  constructor
  · rintro h ⟨i, q, hi, hk⟩
    have hq := ((hl.idToPkg_spec i q).1 hi).2
    obtain ⟨j, hj⟩ := hl.packageId_ok (p := p) ⟨q, List.mem_of_getElem? hq, hk⟩
    rw [h] at hj; simp at hj
  · intro h
    cases hp : (runAdds m rs).packageId p with
    | error e =>
      unfold Pool.packageId at hp
      split at hp
      · simp at hp
      · cases hp; rfl
    | ok i =>
      obtain ⟨q, h1, h2⟩ := C33_round_trip m rs p i hp
      exact absurd ⟨i, q, h1, samePackage_iff.1 h2⟩ h

/-- C33: a further `add_repository` call, successful or not, leaves the package of every existing id as it was. -/
theorem C33_ids_are_stable (m : Option (Modifiers N)) (rs : List (Repository N S U)) (r : Repository N S U) (i : Nat)
    (p : Package N S U) (h : (runAdds m rs).idToPkg i = .ok p) : (runAdds m (rs ++ [r])).idToPkg i = .ok p := by
  obtain ⟨l, hl⟩ := runAdds_inv m rs
  obtain ⟨d, -, h', -⟩ := hl.addAll r.iter
  have e : runAdds m (rs ++ [r]) = ((runAdds m rs).addPackages r.iter).1 := by
    unfold runAdds; rw [List.foldl_append]; rfl
  rw [e, h'.idToPkg_spec]
  obtain ⟨h0, hp⟩ := (hl.idToPkg_spec i p).1 h
  refine ⟨h0, ?_⟩
  have : i - 1 < l.length := by
    apply Classical.byContradiction
    intro hn
    rw [List.getElem?_eq_none (by omega)] at hp
    simp at hp
  rw [List.getElem?_append_left this]
  exact hp

/-! ### C34 -/

section
variable {pool : Pool N S U} {m0 : Option (Modifiers N)} {rs : List (Repository N S U)}
variable (hbuilt : Pool.addRepositories rs (Pool.empty m0) = (pool, none)) (m : Option (Modifiers N))
include hbuilt

theorem built_ok : pool.OK (rs.flatMap Repository.iter) := by
  have := Pool.ok_addRepositories rs (⟨Pool.IdInv.empty m0, Pool.NameInv.empty m0⟩ : (Pool.empty m0 : Pool N S U).OK [])
    (by rw [hbuilt])
  rw [hbuilt] at this
  simpa using this

/-- C34: in a pool made of the repositories `rs` (and whose modifiers were then set to `m`), `what_provides(r)` returns
exactly the packages of the repositories that provide the name of `r` and whose version is accepted by `r` (after
modification). -/
theorem C34_what_provides_exactly {b : Bool} {r : Requirement N U} {res : List (Package N S U)}
    (h : ({ pool with modifiers := m } : Pool N S U).whatProvides r b = .ok res) (p : Package N S U) :
    p ∈ res ↔ (∃ repo ∈ rs, p ∈ repo.iter) ∧ Provides p r.name ∧ ∃ r', Looked m b r r' ∧ ReqAccepts r' p.version := by
  rw [mem_whatProvides ((built_ok hbuilt).setModifiers m) h, List.mem_flatMap]
  rfl

/-- C34: the packages come in the order in which they were added, each once for every time it declares to provide the
name (so each exactly once, unless a package lists a name twice or lists its own name). -/
theorem C34_what_provides_order {b : Bool} {r : Requirement N U} {res : List (Package N S U)}
    (h : ({ pool with modifiers := m } : Pool N S U).whatProvides r b = .ok res) :
    (∃ keep : Package N S U → Bool, res = (rs.flatMap Repository.iter).flatMap (fun p =>
      if keep p then List.replicate ((p.name :: p.declaredProvides.map Prod.fst).count r.name) p else [])) ∧
    ((∀ repo ∈ rs, ∀ p ∈ repo.iter, (p.name :: p.declaredProvides.map Prod.fst).Nodup) →
      res.Sublist (rs.flatMap Repository.iter)) := by
  have hok := (built_ok hbuilt).setModifiers m
  have key : ∃ keep : Package N S U → Bool, res = (rs.flatMap Repository.iter).flatMap (fun p =>
      if keep p then List.replicate ((p.name :: p.declaredProvides.map Prod.fst).count r.name) p else []) := by
    rw [hok.names.whatProvides_eq] at h
    split at h
    · next hn =>
      cases hl : (if b = true then ({ pool with modifiers := m } : Pool N S U).modifyRequirement r
          else Except.ok r) with
      | error e => rw [hl] at h; simp at h
      | ok r' =>
        rw [hl] at h
        simp only [Except.ok.injEq] at h
        rw [looked_iff] at hl
        have hname := looked_name hl
        refine ⟨fun p => r'.matches p.version, ?_⟩
        subst h
        unfold providersIn
        rw [List.filter_flatMap]
        congr 1
        funext p
        rw [hname]
        show List.filter _ (List.replicate _ p) = _
        rw [List.filter_replicate]
        rfl
    · cases h
      exact ⟨fun _ => false, by simp⟩
  refine ⟨key, ?_⟩
  obtain ⟨keep, rfl⟩ := key
  intro hnd
  have : ∀ l : List (Package N S U), (∀ p ∈ l, (p.name :: p.declaredProvides.map Prod.fst).Nodup) →
      (l.flatMap (fun p => if keep p then
        List.replicate ((p.name :: p.declaredProvides.map Prod.fst).count r.name) p else [])).Sublist l := by
    intro l
    induction l with
    | nil => intro _; exact List.Sublist.refl _
    | cons q t ih =>
      intro hl
      have hq : List.Sublist (if keep q then
          List.replicate ((q.name :: q.declaredProvides.map Prod.fst).count r.name) q else []) [q] := by
        split
        · have := List.nodup_iff_count.1 (hl q (by simp)) r.name
          generalize List.count r.name (q.name :: q.declaredProvides.map Prod.fst) = c at this
          match c, this with
          | 0, _ => exact List.nil_sublist _
          | 1, _ => exact List.Sublist.refl _
          | c + 2, h => omega
        · exact List.nil_sublist _
      rw [List.flatMap_cons]
      exact hq.append (ih fun p hp => hl p (by simp [hp]))
  exact this _ fun p hp => by
    obtain ⟨repo, h1, h2⟩ := List.mem_flatMap.1 hp
    exact hnd repo h1 p h2

/-- C34: the query fails only with NotImplementedError, for a conflict-like requirement that the modifiers would change
(see C60). -/
theorem C34_what_provides_failure {b : Bool} {r : Requirement N U} {e : PErr}
    (h : ({ pool with modifiers := m } : Pool N S U).whatProvides r b = .error e) :
    e = .notImplemented ∧ b = true ∧ r.cls ≠ .install ∧ ∃ mm, m = some mm ∧ r.name ∈ mm.targets := by
  have hok := (built_ok hbuilt).setModifiers m
  rw [hok.names.whatProvides_eq] at h
  split at h
  · cases b with
    | false => simp at h
    | true =>
      simp only [if_true, Pool.modifyRequirement] at h
      cases m with
      | none => simp at h
      | some mm =>
        simp only at h
        cases hm : modifyRequirement r mm with
        | ok r' => rw [hm] at h; simp at h
        | error e' =>
          rw [hm] at h
          simp only [Except.error.injEq] at h
          subst h
          have hcls : r.cls ≠ .install := by
            intro hc
            obtain ⟨r', h1, -⟩ := C60_install_requirements_never_fail r mm hc
            rw [h1] at hm; simp at hm
          refine ⟨?_, rfl, hcls, mm, rfl, ?_⟩
          · rcases C60_other_requirements_unchanged_or_rejected r mm hcls with h1 | h1
            · rw [h1] at hm; simp at hm
            · rw [h1] at hm; cases hm; rfl
          · apply Classical.byContradiction
            intro hn
            rw [C27_other_packages_untouched r mm hn] at hm
            simp at hm
  · simp at h

end

/-- a `provides` entry that can be parsed and has no version constraint -/
def Unversioned (t : CTuple N S) : Prop :=
  ∃ r : Requirement N U, fromConstraints .plain t = .ok r ∧ (r.constraints = [] ∨ r.constraints = [.any])

theorem hasAny_false_iff (r : Requirement N U) :
    r.hasAnyVersionConstraint = false ↔ r.constraints = [] ∨ r.constraints = [.any] := by
  unfold Requirement.hasAnyVersionConstraint
  match r.constraints with
  | [] => simp
  | [c] => cases c <;> simp
  | _ :: _ :: _ => simp

theorem addProvides_ok_iff (p : Package N S U) : ∀ (cs : List (CTuple N S)) (pool : Pool N S U),
    (Pool.addProvides p cs pool).2 = none ↔ ∀ t ∈ cs, Unversioned (U := U) t
  | [], pool => by simp [Pool.addProvides]
  | c :: cs, pool => by
    unfold Pool.addProvides
    simp only [List.forall_mem_cons]
    cases hr : fromConstraints (U := U) .plain c with
    | error e => simp [Unversioned, hr]
    | ok r =>
      simp only
      by_cases hv : r.hasAnyVersionConstraint = true
      · have : ¬ (r.constraints = [] ∨ r.constraints = [.any]) := by
          rw [← hasAny_false_iff, hv]; simp
        simp only [hv, if_true, Unversioned, hr, Except.ok.injEq, exists_eq_left']
        simp [this]
      · rw [if_neg hv, addProvides_ok_iff p cs]
        rw [Bool.not_eq_true, hasAny_false_iff] at hv
        simp [Unversioned, hr, hv]

theorem addPackages_ok_iff (ps : List (Package N S U)) : ∀ (pool : Pool N S U),
    (pool.addPackages ps).2 = none ↔ ∀ p ∈ ps, ∀ t ∈ p.declaredProvides, Unversioned (U := U) t := by
  induction ps with
  | nil => intro pool; simp [Pool.addPackages]
  | cons p ps ih =>
    intro pool
    have h1 : (pool.addPackage p).2 = none ↔ ∀ t ∈ p.declaredProvides, Unversioned (U := U) t := by
      unfold Pool.addPackage
      rw [addProvides_ok_iff]
      unfold Package.provides
      simp only [List.forall_mem_cons, and_iff_right_iff_imp]
      intro _
      refine ⟨⟨.plain, p.name, [.any]⟩, ?_, Or.inr rfl⟩
      have hs : Syntax.parse (Syntax.star : S) = Except.ok [(Constraint.any : Constraint U)] := Syntax.parse_star
      simp [fromConstraints, insertStar, parseAll, hs]
    unfold Pool.addPackages
    simp only [List.forall_mem_cons, ← h1]
    cases hp : pool.addPackage p with
    | mk pool' r =>
      cases r with
      | some e => simp
      | none => simpa using ih pool'

/-- C34: a pool can be built from the repositories exactly if no package declares to provide something with a version. -/
theorem C34_versioned_provides_rejected (rs : List (Repository N S U)) (pool : Pool N S U) :
    (Pool.addRepositories rs pool).2 = none ↔
      ∀ repo ∈ rs, ∀ p ∈ repo.iter, ∀ t ∈ p.declaredProvides, Unversioned (U := U) t := by
  induction rs generalizing pool with
  | nil => simp [Pool.addRepositories]
  | cons r rs ih =>
    unfold Pool.addRepositories
    simp only [List.forall_mem_cons]
    rw [← addPackages_ok_iff r.iter pool]
    cases hp : pool.addPackages r.iter with
    | mk pool' e =>
      cases e with
      | some e => simp
      | none => simpa using ih pool'

/-- C27: the queries made for jobs (use_modifiers=False) do not depend on the modifiers. -/
theorem C27_job_queries_ignore_modifiers (pool : Pool N S U) (m m' : Option (Modifiers N)) (r : Requirement N U) :
    ({ pool with modifiers := m } : Pool N S U).whatProvides r false =
      ({ pool with modifiers := m' } : Pool N S U).whatProvides r false := rfl

/-! Non-vacuity: a pool of two repositories; package 3 provides the name 1. -/
namespace PoolEx
open Verif.Pkg.Example

def repo1 : Repository Nat Str Nat := Repository.ofList [pkg 0 1 2, pkg 0 1 1]
def repo2 : Repository Nat Str Nat := Repository.ofList [pkg 9 3 5 [] [] [dep 1], pkg 9 1 7]
def pool : Pool Nat Str Nat := (Pool.addRepositories [repo1, repo2] (Pool.empty none)).1

example : Pool.addRepositories [repo1, repo2] (Pool.empty none) = (pool, none) := rfl
example : pool.packageId (pkg 9 1 7) = .ok 3 := rfl
example : pool.whatProvides ⟨.install, 1, [.geq (v 2)]⟩ = .ok [pkg 0 1 2, pkg 9 1 7, pkg 9 3 5 [] [] [dep 1]] := rfl
example : ({ pool with modifiers := some ⟨[], [], [1]⟩ } : Pool Nat Str Nat).whatProvides
    ⟨.install, 1, [.equal (v 2)]⟩ = .ok [pkg 0 1 1, pkg 0 1 2] := rfl
/-- a versioned `provides` stops the addition of the repository, after the package got its id -/
example : ((Pool.addRepositories [Repository.ofList [pkg 0 1 2 [] [] [depc 2 (.geq (v 1))], pkg 0 7 1]]
    (Pool.empty none)).2 = some .invalidConstraint) ∧
    (runAdds none [Repository.ofList [pkg 0 1 2 [] [] [depc 2 (.geq (v 1))], pkg 0 7 1], repo1]).packageIds = [1, 2, 3] :=
  ⟨rfl, rfl⟩
end PoolEx

/-! ### C35 -/

/-- a call on a request: its requirement (none for `upgrade()`) and its kind -/
abbrev ReqCall (N U : Type) := Option (Requirement N U) × JobKind

/-- the request after a history of calls; a call that raises leaves the request as it is -/
def runRequest (m : Modifiers N) (calls : List (ReqCall N U)) : Request N U :=
  calls.foldl (fun q c => match q.addJob c.1 c.2 with
    | .ok q' => q'
    | .error _ => q) ⟨m, []⟩

theorem addJob_ok_iff (q : Request N U) (c : ReqCall N U) : (∃ q', q.addJob c.1 c.2 = .ok q') ↔
    (q.jobs = [] ∨ ((∀ j ∈ q.jobs, j.kind ≠ .upgrade) ∧ c.2 ≠ .upgrade)) ∧ (c.1 = none → c.2 = .upgrade) := by
  unfold Request.addJob
  by_cases h0 : q.jobs = []
  · by_cases h1 : c.1 = none <;> by_cases h2 : c.2 = .upgrade <;> simp [h0, h1, h2]
  · have hl : q.jobs.length > 0 := List.length_pos_iff.2 h0
    simp only [h0, hl, true_and, false_or, List.any_eq_true, decide_eq_true_eq]
    split
    · next h =>
      constructor
      · rintro ⟨q', hq⟩; simp at hq
      · rintro ⟨⟨h1, h2⟩, -⟩
        rcases h with ⟨j, hj, hk⟩ | h
        · exact absurd hk (h1 j hj)
        · exact absurd h h2
    · next h =>
      split
      · next h' =>
        constructor
        · rintro ⟨q', hq⟩; simp at hq
        · rintro ⟨-, h2⟩; exact absurd (h2 h'.1) h'.2
      · next h' =>
        constructor
        · intro _
          refine ⟨⟨fun j hj hk => h (Or.inl ⟨j, hj, hk⟩), fun hk => h (Or.inr hk)⟩, fun hn => ?_⟩
          apply Classical.byContradiction
          intro hk
          exact h' ⟨hn, hk⟩
        · intro _; exact ⟨_, rfl⟩

theorem addJob_ok_eq {q q' : Request N U} {c : ReqCall N U} (h : q.addJob c.1 c.2 = .ok q') :
    q' = { q with jobs := q.jobs ++ [⟨c.1, c.2⟩] } := by
  unfold Request.addJob at h
  split at h
  · simp at h
  · split at h
    · simp at h
    · cases h; rfl

/-- C35: after any history of calls, accepted or rejected, a request that contains an upgrade job contains nothing
else. -/
theorem C35_upgrade_is_alone (m : Modifiers N) (calls : List (ReqCall N U)) (j : Job N U)
    (hj : j ∈ (runRequest m calls).jobs) (hk : j.kind = .upgrade) : (runRequest m calls).jobs = [j] := by
  induction calls using List.reverseRecOn generalizing j with
  | nil => simp [runRequest] at hj
  | append_singleton calls c ih =>
    have e : runRequest m (calls ++ [c]) = match (runRequest m calls).addJob c.1 c.2 with
        | .ok q' => q'
        | .error _ => runRequest m calls := by
      unfold runRequest; rw [List.foldl_append]; rfl
    rw [e] at hj ⊢
    cases ha : (runRequest m calls).addJob c.1 c.2 with
    | error er => simp only [ha] at hj ⊢; exact ih j hj hk
    | ok q' =>
      simp only [ha] at hj ⊢
      have hc := (addJob_ok_iff _ _).1 ⟨q', ha⟩
      have hq := addJob_ok_eq ha
      rw [hq] at hj ⊢
      simp only [List.mem_append, List.mem_singleton] at hj ⊢
      rcases hc.1 with h0 | ⟨h1, h2⟩
      · rw [h0] at hj ⊢
        rcases hj with hj | rfl
        · simp at hj
        · rfl
      · rcases hj with hj | rfl
        · exact absurd hk (h1 j hj)
        · exact absurd hk h2

/-- C35: a call is accepted exactly if the request is empty, or neither the request nor the call is about an upgrade
(and the requirement is given unless the call is `upgrade()`). -/
theorem C35_accepted_iff (m : Modifiers N) (calls : List (ReqCall N U)) (c : ReqCall N U) :
    (∃ q', (runRequest m calls).addJob c.1 c.2 = .ok q') ↔
      ((runRequest m calls).jobs = [] ∨
        ((∀ j ∈ (runRequest m calls).jobs, j.kind ≠ .upgrade) ∧ c.2 ≠ .upgrade)) ∧ (c.1 = none → c.2 = .upgrade) :=
  addJob_ok_iff _ _

/-- C35: an accepted call appends its job, a rejected one raises ValueError and leaves the request unchanged; so the jobs
are those of the accepted calls, in call order. -/
theorem C35_jobs_in_call_order (m : Modifiers N) (calls : List (ReqCall N U)) (c : ReqCall N U) :
    (∀ q', (runRequest m calls).addJob c.1 c.2 = .ok q' →
      (runRequest m (calls ++ [c])).jobs = (runRequest m calls).jobs ++ [⟨c.1, c.2⟩]) ∧
    (∀ e, (runRequest m calls).addJob c.1 c.2 = .error e →
      e = .valueError ∧ runRequest m (calls ++ [c]) = runRequest m calls) := by
  have e : runRequest m (calls ++ [c]) = match (runRequest m calls).addJob c.1 c.2 with
      | .ok q' => q'
      | .error _ => runRequest m calls := by
    unfold runRequest; rw [List.foldl_append]; rfl
  constructor
  · intro q' h
    rw [e, h]
    simp only
    rw [addJob_ok_eq h]
  · intro er h
    rw [e, h]
    refine ⟨?_, rfl⟩
    unfold Request.addJob at h
    split at h
    · cases h; rfl
    · split at h
      · cases h; rfl
      · simp at h

/-- upgrade accepted first, then install rejected; install accepted, then upgrade rejected, then remove accepted -/
example : ((runRequest Modifiers.empty [(none, .upgrade), (some ⟨.plain, 1, []⟩, .install)] : Request Nat Nat)).jobs =
    [⟨none, .upgrade⟩] := rfl
example : ((runRequest Modifiers.empty [(some ⟨.plain, 1, []⟩, .install), (none, .upgrade),
    (some ⟨.plain, 2, []⟩, .remove)] : Request Nat Nat)).jobs =
    [⟨some ⟨.plain, 1, []⟩, .install⟩, ⟨some ⟨.plain, 2, []⟩, .remove⟩] := rfl

end Verif.Props
