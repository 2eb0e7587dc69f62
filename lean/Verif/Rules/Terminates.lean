import Verif.Rules.Closure
import Verif.Pkg.PoolSpec
/-
Rule generation terminates, and which exceptions it can raise.
-/
set_option linter.unusedSectionVars false
namespace Verif.Rules
open Verif Verif.Pkg Verif.Props

variable {N S U : Type} [LinearOrder N] [DecidableEq S] [LinearOrder U] [Syntax S U]

/-- the exceptions due to what the user gave: malformed constraint strings (InvalidConstraint, ValueError,
AssertionError, those of `str.format`), modifiers on a conflict (NotImplementedError) -/
def InputErr (e : PErr) : Prop :=
  e = .invalidConstraint ∨ e = .valueError ∨ e = .assertion ∨ e = .formatting ∨ e = .notImplemented

/-- the exceptions of the strict mode -/
def StrictErr (e : PErr) : Prop := e = .missingInstallRequires ∨ e = .missingConflicts ∨ e = .typeError

theorem parseAll_err {l : List S} {e : PErr} (h : parseAll (U := U) l = .error e) :
    e = .invalidConstraint ∨ e = .valueError ∨ e = .assertion ∨ e = .formatting := by
  induction l with
  | nil => simp [parseAll] at h
  | cons s l ih =>
    unfold parseAll at h
    split at h
    · next e' he => cases h; exact Syntax.parse_err s _ he
    · split at h
      · next e' he => cases h; exact ih he
      · simp at h

theorem fromConstraints_err {cls : ReqClass} {t : CTuple N S} {e : PErr}
    (h : fromConstraints (U := U) cls t = .error e) : InputErr e := by
  unfold fromConstraints at h
  split at h
  · cases h; exact Or.inl rfl
  · split at h
    · next e' he =>
      cases h
      unfold InputErr
      rcases parseAll_err he with k | k | k | k <;> simp [k]
    · simp at h

theorem whatProvides_err {pool : Pool N S U} {r : Requirement N U} {b : Bool} {e : PErr}
    (h : pool.whatProvides r b = .error e) : e = .notImplemented ∧ b = true := by
  unfold Pool.whatProvides at h
  split at h
  · simp at h
  · split at h
    · next e' he =>
      cases h
      cases b with
      | false => simp at he
      | true =>
        refine ⟨?_, rfl⟩
        simp only [if_true, Pool.modifyRequirement] at he
        split at he
        · unfold modifyRequirement at he
          split at he
          · simp at he
          · split at he
            · split at he
              · cases he; rfl
              · simp at he
            · simp at he
        · simp at he
    · simp at h

theorem whatProvides_length {pool : Pool N S U} {r : Requirement N U} {b : Bool} {ps : List (Package N S U)}
    (h : pool.whatProvides r b = .ok ps) : ps.length ≤ ((dget pool.packagesByName r.name).getD []).length := by
  unfold Pool.whatProvides at h
  split at h
  · cases h; simp
  · split at h
    · simp at h
    · next r' hr =>
      rw [looked_iff] at hr
      have := looked_name hr
      cases h
      rw [this]
      exact List.length_filter_le _ _

theorem packageId_err {pool : Pool N S U} {p : Package N S U} {e : PErr} (h : pool.packageId p = .error e) :
    e = .valueError := by
  unfold Pool.packageId at h
  split at h
  · simp at h
  · cases h; rfl

theorem candidateIds_err {pool : Pool N S U} {p : Package N S U} {ds : List (Package N S U)} {e : PErr}
    (h : candidateIds pool p ds = .error e) : e = .valueError := by
  induction ds with
  | nil => simp [candidateIds] at h
  | cons d ds ih =>
    unfold candidateIds at h
    split at h
    · exact ih h
    · simp only [bind_err] at h
      rcases h with h | ⟨i, -, h | ⟨l, -, h⟩⟩
      · exact packageId_err h
      · exact ih h
      · simp at h

theorem idsOfAll_err {pool : Pool N S U} {ds : List (Package N S U)} {e : PErr}
    (h : idsOfAll pool ds = .error e) : e = .valueError := by
  induction ds with
  | nil => simp [idsOfAll] at h
  | cons d ds ih =>
    unfold idsOfAll at h
    simp only [bind_err] at h
    rcases h with h | ⟨i, -, h | ⟨l, -, h⟩⟩
    · exact packageId_err h
    · exact ih h
    · simp at h

theorem conflictRule_err {pool : Pool N S U} {p q : Package N S U} {reason : Reason} {reqs : Reqs N U} {e : PErr}
    (h : conflictRule pool p q reason reqs = .error e) : e = .valueError := by
  unfold conflictRule at h
  split at h
  · simp at h
  · simp only [bind_err] at h
    rcases h with h | ⟨i, -, h | ⟨j, -, h⟩⟩
    · exact packageId_err h
    · exact packageId_err h
    · simp at h

theorem strictCheck_err {strict : Bool} {reqs : Reqs N U} {e e' : PErr} (h : strictCheck strict reqs e = .error e') :
    strict = true ∧ ((reqs = none ∧ e' = .typeError) ∨ (e' = e ∧ ∃ l, reqs = some l ∧ l.length = 1)) := by
  unfold strictCheck at h
  split at h
  · next hs =>
    refine ⟨hs, ?_⟩
    split at h
    · cases h; exact Or.inl ⟨rfl, rfl⟩
    · split at h
      · next l hl => cases h; exact Or.inr ⟨rfl, _, rfl, hl⟩
      · simp at h
  · simp at h

/-- the exceptions of the generator, `strict` being the mode -/
def GenErr (strict : Bool) (e : PErr) : Prop := InputErr e ∨ (strict = true ∧ StrictErr e)

theorem GenErr.value {strict : Bool} {e : PErr} (h : e = .valueError) : GenErr strict e := Or.inl (Or.inr (Or.inl h))

theorem addRequires_err {strict : Bool} {pool : Pool N S U} {p : Package N S U} {reqs : Reqs N U}
    {cs : List (CTuple N S)} {rules : List (Rule N U)} {queued : List (Work N S U)} {e : PErr}
    (h : addRequires strict pool p reqs cs rules queued = .error e) : GenErr strict e := by
  induction cs generalizing rules queued with
  | nil => simp [addRequires] at h
  | cons c cs ih =>
    unfold addRequires at h
    simp only [bind_err] at h
    rcases h with h | ⟨req, -, h | ⟨cands, -, h⟩⟩
    · exact Or.inl (fromConstraints_err h)
    · exact Or.inl (Or.inr (Or.inr (Or.inr (Or.inr (whatProvides_err h).1))))
    · split at h
      · simp only [bind_err, removeRule] at h
        rcases h with h | ⟨_, -, (h | ⟨i, -, h⟩) | ⟨rule, -, h⟩⟩
        · obtain ⟨hs, ⟨-, h⟩ | ⟨h, -⟩⟩ := strictCheck_err h
          · exact Or.inr ⟨hs, Or.inr (Or.inr h)⟩
          · exact Or.inr ⟨hs, Or.inl h⟩
        · exact GenErr.value (packageId_err h)
        · simp at h
        · simp at h
      · simp only [bind_err, dependencyRule] at h
        rcases h with (h | ⟨i, -, h | ⟨_, -, h⟩⟩) | ⟨rule, -, h⟩
        · exact GenErr.value (packageId_err h)
        · exact GenErr.value (candidateIds_err h)
        · simp at h
        · exact ih h

theorem addSameName_err {pool : Pool N S U} {p : Package N S U} {reqs : Reqs N U}
    {qs : List (Package N S U)} {rules : List (Rule N U)} {e : PErr}
    (h : addSameName pool p reqs qs rules = .error e) : e = .valueError := by
  induction qs generalizing rules with
  | nil => simp [addSameName] at h
  | cons q qs ih =>
    unfold addSameName at h
    split at h
    · simp only [bind_err] at h
      rcases h with h | ⟨_, -, h⟩
      · exact conflictRule_err h
      · exact ih h
    · exact ih h

theorem addProviderConflicts_err {pool : Pool N S U} {p : Package N S U} {reqs : Reqs N U}
    {qs : List (Package N S U)} {rules : List (Rule N U)} {e : PErr}
    (h : addProviderConflicts pool p reqs qs rules = .error e) : e = .valueError := by
  induction qs generalizing rules with
  | nil => simp [addProviderConflicts] at h
  | cons q qs ih =>
    unfold addProviderConflicts at h
    simp only [bind_err] at h
    rcases h with h | ⟨_, -, h⟩
    · exact conflictRule_err h
    · exact ih h

theorem addDeclared_err {strict : Bool} {pool : Pool N S U} {p : Package N S U} {reqs : Reqs N U}
    {cs : List (CTuple N S)} {rules : List (Rule N U)} {e : PErr}
    (h : addDeclared strict pool p reqs cs rules = .error e) : GenErr strict e := by
  induction cs generalizing rules with
  | nil => simp [addDeclared] at h
  | cons c cs ih =>
    unfold addDeclared at h
    simp only [bind_err] at h
    rcases h with h | ⟨req, -, h | ⟨cands, -, h⟩⟩
    · exact Or.inl (fromConstraints_err h)
    · exact Or.inl (Or.inr (Or.inr (Or.inr (Or.inr (whatProvides_err h).1))))
    · split at h
      · simp only [bind_err] at h
        rcases h with h | ⟨_, -, h⟩
        · obtain ⟨hs, ⟨-, h⟩ | ⟨h, -⟩⟩ := strictCheck_err h
          · exact Or.inr ⟨hs, Or.inr (Or.inr h)⟩
          · exact Or.inr ⟨hs, Or.inr (Or.inl h)⟩
        · exact ih h
      · simp only [bind_err] at h
        rcases h with h | ⟨_, -, h⟩
        · exact GenErr.value (addProviderConflicts_err h)
        · exact ih h

theorem addConflicts_err {strict : Bool} {pool : Pool N S U} {p : Package N S U} {reqs : Reqs N U}
    {rules : List (Rule N U)} {e : PErr}
    (h : addConflicts strict pool p reqs rules = .error e) : GenErr strict e := by
  unfold addConflicts at h
  simp only [bind_err] at h
  rcases h with h | ⟨_, -, h | ⟨_, -, h⟩⟩
  · exact Or.inl (Or.inr (Or.inr (Or.inr (Or.inr (whatProvides_err h).1))))
  · exact GenErr.value (addSameName_err h)
  · exact addDeclared_err h

theorem addRequires_length {strict : Bool} {pool : Pool N S U} {p : Package N S U} {reqs : Reqs N U}
    {cs : List (CTuple N S)} {rules : List (Rule N U)} {queued : List (Work N S U)}
    {rules' : List (Rule N U)} {more : List (Work N S U)}
    (h : addRequires strict pool p reqs cs rules queued = .ok (rules', more)) :
    more.length ≤ queued.length +
      (cs.map (fun t => ((dget pool.packagesByName t.1).getD []).length)).sum := by
  induction cs generalizing rules queued with
  | nil =>
    simp only [addRequires, Except.ok.injEq, Prod.mk.injEq] at h
    obtain ⟨-, rfl⟩ := h
    simp
  | cons c cs ih =>
    unfold addRequires at h
    simp only [bind_ok] at h
    obtain ⟨req, hreq, cands, hc, h⟩ := h
    split at h
    · simp only [bind_ok] at h
      obtain ⟨_, -, _, -, h⟩ := h
      simp only [Except.ok.injEq, Prod.mk.injEq] at h
      obtain ⟨-, rfl⟩ := h
      simp
    · simp only [bind_ok] at h
      obtain ⟨_, -, h⟩ := h
      have h1 := ih h
      have h2 := whatProvides_length hc
      rw [(fromConstraints_name hreq).1] at h2
      simp only [List.length_append, List.length_map, List.map_cons, List.sum_cons] at h1 ⊢
      omega

/-- the candidates that may still be queued -/
def pending (pool : Pool N S U) (added : List Nat) (l : List (Nat × Package N S U)) : Nat :=
  ((l.filter (fun kv => decide (kv.1 ∉ added))).map (fun kv => fanOut pool kv.2)).sum

theorem pending_le (pool : Pool N S U) (added : List Nat) (i : Nat) (l : List (Nat × Package N S U)) :
    pending pool (sadd i added) l ≤ pending pool added l := by
  induction l with
  | nil => simp [pending]
  | cons kv l ih =>
    unfold pending at ih ⊢
    simp only [List.filter_cons, decide_eq_true_eq]
    by_cases h : kv.1 ∈ added
    · rw [if_neg (by simp [h]), if_neg (by simp [h])]; exact ih
    · rw [if_pos h]
      split
      · simp only [List.map_cons, List.sum_cons]; omega
      · simp only [List.map_cons, List.sum_cons]; omega

theorem pending_lt (pool : Pool N S U) {added : List Nat} {i : Nat} (hi : i ∉ added) {q : Package N S U}
    {l : List (Nat × Package N S U)} (hq : (i, q) ∈ l) :
    pending pool (sadd i added) l + fanOut pool q ≤ pending pool added l := by
  induction l with
  | nil => simp at hq
  | cons kv l ih =>
    rcases List.mem_cons.1 hq with rfl | hq
    · have := pending_le pool added i l
      unfold pending at this ⊢
      simp only [List.filter_cons, decide_eq_true_eq]
      rw [if_pos hi, if_neg (by simp)]
      simp only [List.map_cons, List.sum_cons]
      omega
    · have := ih hq
      unfold pending at this ⊢
      simp only [List.filter_cons, decide_eq_true_eq]
      by_cases h : kv.1 ∈ added
      · rw [if_neg (by simp [h]), if_neg (by simp [h])]; exact this
      · rw [if_pos h]
        split
        · simp only [List.map_cons, List.sum_cons]; omega
        · simp only [List.map_cons, List.sum_cons]; omega

theorem mem_of_dget {K V : Type} [DecidableEq K] {d : Dict K V} {k : K} {v : V} (h : dget d k = some v) : (k, v) ∈ d := by
  induction d with
  | nil => simp [dget] at h
  | cons kv d ih =>
    obtain ⟨a, b⟩ := kv
    unfold dget at h
    split at h
    · next e => cases h; subst e; simp
    · simp [ih h]

theorem fanOut_congr (pool : Pool N S U) {p q : Package N S U} (h : p.key = q.key) : fanOut pool p = fanOut pool q := by
  unfold fanOut; rw [(key_fields h).2.2.1]

theorem work_err {strict : Bool} {pool : Pool N S U} {l : List (Package N S U)} (hok : pool.OK l) {n : Nat}
    {queue : List (Work N S U)} {g : Gen N U} {e : PErr} (h : work strict pool n queue g = .error e)
    (hn : queue.length + pending pool g.added pool.idToPackage ≤ n) : GenErr strict e := by
  induction n generalizing queue g with
  | zero =>
    cases queue with
    | nil => simp [work] at h
    | cons e queue => simp at hn
  | succ n ih =>
    cases queue with
    | nil => simp [work] at h
    | cons w queue =>
      obtain ⟨p, reqs⟩ := w
      unfold work at h
      simp only [bind_err] at h
      simp only [List.length_cons] at hn
      rcases h with h | ⟨i, hi, h⟩
      · exact GenErr.value (packageId_err h)
      · split at h
        · exact ih h (by omega)
        · next hadd =>
          simp only [bind_err] at h
          rcases h with h | ⟨⟨rules1, more⟩, h1, h | ⟨rules2, h2, h⟩⟩
          · exact addRequires_err h
          · exact addConflicts_err h
          · refine ih h ?_
            obtain ⟨-, -, q, hq, hk, -⟩ := hok.ids.packageId_spec hi
            have hmem : (i, q) ∈ pool.idToPackage := by
              unfold Pool.idToPkg at hq
              split at hq
              · next v hv => cases hq; exact mem_of_dget hv
              · simp at hq
            have h3 := pending_lt pool hadd hmem
            have h4 := addRequires_length h1
            rw [fanOut_congr pool hk] at h3
            simp only [List.length_append, List.length_nil] at h4 ⊢
            unfold fanOut at h3
            omega

theorem addPackageRules_err {strict : Bool} {pool : Pool N S U} {l : List (Package N S U)} (hok : pool.OK l)
    {p : Package N S U} {reqs : Reqs N U} {g : Gen N U} {e : PErr}
    (h : addPackageRules strict pool p reqs g = .error e) : GenErr strict e := by
  refine work_err hok h ?_
  unfold enoughTurns pending
  have : ∀ d : List (Nat × Package N S U), ((d.filter (fun kv => decide (kv.1 ∉ g.added))).map
      (fun kv => fanOut pool kv.2)).sum ≤ (d.map (fun kv => fanOut pool kv.2)).sum := by
    intro d
    induction d with
    | nil => simp
    | cons a d ih =>
      rw [List.filter_cons]
      split <;> simp only [List.map_cons, List.sum_cons] <;> omega
  have := this pool.idToPackage
  simp only [List.length_cons, List.length_nil]
  omega

theorem addCandidates_err {strict : Bool} {pool : Pool N S U} {l : List (Package N S U)} (hok : pool.OK l)
    {installed : Dict Nat (Package N S U)} {r : Requirement N U} {ps : List (Package N S U)} {g : Gen N U} {e : PErr}
    (h : addCandidates strict pool installed r ps g = .error e) : GenErr strict e := by
  induction ps generalizing g with
  | nil => simp [addCandidates] at h
  | cons p ps ih =>
    unfold addCandidates at h
    simp only [bind_err] at h
    rcases h with h | ⟨i, hi, h⟩
    · exact GenErr.value (packageId_err h)
    · split at h
      · exact ih h
      · simp only [bind_err] at h
        rcases h with h | ⟨_, -, h⟩
        · exact addPackageRules_err hok h
        · exact ih h

theorem addRemovals_err {pool : Pool N S U} {r : Requirement N U} {ps : List (Package N S U)} {g : Gen N U} {e : PErr}
    (h : addRemovals pool r ps g = .error e) : e = .valueError := by
  induction ps generalizing g with
  | nil => simp [addRemovals] at h
  | cons p ps ih =>
    unfold addRemovals at h
    simp only [bind_err, removeRule] at h
    rcases h with (h | ⟨i, -, h⟩) | ⟨_, -, h⟩
    · exact packageId_err h
    · simp at h
    · exact ih h

theorem updateKey_err {pool : Pool N S U} {installed : Dict Nat (Package N S U)} {p : Package N S U} {e : PErr}
    (h : updateKey pool installed p = .error e) : e = .valueError := by
  unfold updateKey at h
  simp only [bind_err] at h
  rcases h with h | ⟨_, -, h⟩
  · exact packageId_err h
  · simp at h

theorem maxPkg_err {key : Package N S U → Except PErr (Version U × Bool)}
    (hk : ∀ p e, key p = .error e → e = .valueError) {ps : List (Package N S U)} {e : PErr}
    (h : maxPkg key ps = .error e) : e = .valueError := by
  have aux : ∀ (l : List (Package N S U)) b, maxPkgFrom key l b = .error e → e = .valueError := by
    intro l
    induction l with
    | nil => intro b h; simp [maxPkgFrom] at h
    | cons q l ih =>
      intro b h
      unfold maxPkgFrom at h
      simp only [bind_err] at h
      rcases h with h | ⟨k, -, h⟩
      · exact hk _ _ h
      · split at h
        · exact ih _ h
        · exact ih _ h
  cases ps with
  | nil => simp only [maxPkg, Except.error.injEq] at h; exact h.symm
  | cons q l =>
    unfold maxPkg at h
    simp only [bind_err] at h
    rcases h with h | ⟨k, -, h⟩
    · exact hk _ _ h
    · exact aux _ _ h

/-- a job that the generator knows: not an upgrade, and with a requirement -/
def PlainJob (j : Job N U) : Prop := j.kind ≠ .upgrade ∧ j.requirement ≠ none

theorem addJob_err {strict : Bool} {pool : Pool N S U} {l : List (Package N S U)} (hok : pool.OK l)
    {installed : Dict Nat (Package N S U)} {j : Job N U} (hj : PlainJob j) {g : Gen N U} {e : PErr}
    (h : addJob strict pool installed j g = .error e) :
    GenErr strict e ∨ (e = .noPackageFound ∧ ∃ r, j.requirement = some r ∧ (j.kind = .install ∨ j.kind = .softUpdate) ∧
      pool.whatProvides r false = .ok []) := by
  have inst : ∀ r, addInstallJob strict pool installed r g = .error e →
      GenErr strict e ∨ (e = .noPackageFound ∧ pool.whatProvides r false = .ok []) := by
    intro r h
    unfold addInstallJob at h
    simp only [bind_err] at h
    rcases h with h | ⟨ps, hps, h⟩
    · exact Or.inl (Or.inl (Or.inr (Or.inr (Or.inr (Or.inr (whatProvides_err h).1)))))
    · split at h
      · next he =>
        cases h
        rw [List.isEmpty_iff] at he
        subst he
        exact Or.inr ⟨rfl, hps⟩
      · left
        simp only [bind_err, installOneOfRule] at h
        rcases h with h | ⟨_, -, (h | ⟨_, -, h⟩) | ⟨_, -, h⟩⟩
        · exact addCandidates_err hok h
        · exact GenErr.value (idsOfAll_err h)
        · simp at h
        · simp at h
  unfold addJob at h
  split at h
  · next r hk hr =>
    rcases inst r h with k | ⟨k1, k2⟩
    · exact Or.inl k
    · exact Or.inr ⟨k1, r, hr, Or.inl hk, k2⟩
  · next r hk hr =>
    rcases inst r h with k | ⟨k1, k2⟩
    · exact Or.inl k
    · exact Or.inr ⟨k1, r, hr, Or.inr hk, k2⟩
  · left
    simp only [addRemoveJob, bind_err] at h
    rcases h with h | ⟨_, -, h⟩
    · exact Or.inl (Or.inr (Or.inr (Or.inr (Or.inr (whatProvides_err h).1))))
    · exact GenErr.value (addRemovals_err h)
  · left
    simp only [addUpdateJob, bind_err] at h
    rcases h with h | ⟨ps, -, h⟩
    · exact Or.inl (Or.inr (Or.inr (Or.inr (Or.inr (whatProvides_err h).1))))
    · split at h
      · simp at h
      · simp only [bind_err] at h
        rcases h with h | ⟨_, -, h | ⟨_, -, h | ⟨_, -, h⟩⟩⟩
        · exact GenErr.value (maxPkg_err (fun _ _ => updateKey_err) h)
        · exact addPackageRules_err hok h
        · exact GenErr.value (packageId_err h)
        · simp at h
  · next hk => exact absurd hk hj.1
  · next hn _ => exact absurd hn hj.2

theorem addJobs_err {strict : Bool} {pool : Pool N S U} {l : List (Package N S U)} (hok : pool.OK l)
    {installed : Dict Nat (Package N S U)} {js : List (Job N U)} (hj : ∀ j ∈ js, PlainJob j) {g : Gen N U} {e : PErr}
    (h : addJobs strict pool installed js g = .error e) :
    GenErr strict e ∨ (e = .noPackageFound ∧ ∃ j ∈ js, ∃ r, j.requirement = some r ∧
      (j.kind = .install ∨ j.kind = .softUpdate) ∧ pool.whatProvides r false = .ok []) := by
  induction js generalizing g with
  | nil => simp [addJobs] at h
  | cons j js ih =>
    unfold addJobs at h
    simp only [bind_err] at h
    rcases h with h | ⟨_, -, h⟩
    · rcases addJob_err hok (hj j (by simp)) h with k | ⟨k1, r, k2, k3, k4⟩
      · exact Or.inl k
      · exact Or.inr ⟨k1, j, by simp, r, k2, k3, k4⟩
    · rcases ih (fun k hk => hj k (by simp [hk])) h with k | ⟨k1, j', k2, k3⟩
      · exact Or.inl k
      · exact Or.inr ⟨k1, j', by simp [k2], k3⟩

theorem addOthers_err {strict : Bool} {pool : Pool N S U} {l : List (Package N S U)} (hok : pool.OK l)
    {ps : List (Package N S U)} {g : Gen N U} {e : PErr} (h : addOthers strict pool ps g = .error e) :
    GenErr strict e := by
  induction ps generalizing g with
  | nil => simp [addOthers] at h
  | cons j js ih =>
    unfold addOthers at h
    simp only [bind_err] at h
    rcases h with h | ⟨_, -, h⟩
    · exact addPackageRules_err hok h
    · exact ih h

theorem addInstalled_err {strict : Bool} {pool : Pool N S U} {l : List (Package N S U)} (hok : pool.OK l)
    {ps : List (Package N S U)} {g : Gen N U} {e : PErr} (h : addInstalled strict pool ps g = .error e) :
    GenErr strict e := by
  induction ps generalizing g with
  | nil => simp [addInstalled] at h
  | cons j js ih =>
    unfold addInstalled at h
    simp only [bind_err] at h
    rcases h with h | ⟨_, -, h | ⟨_, -, h⟩⟩
    · exact addOthers_err hok h
    · exact addPackageRules_err hok h
    · exact ih h

/-- the exceptions of `iter_rules` -/
theorem iterRules_err {strict : Bool} {pool : Pool N S U} {l : List (Package N S U)} (hok : pool.OK l)
    {installed : Dict Nat (Package N S U)} {js : List (Job N U)} (hj : ∀ j ∈ js, PlainJob j) {e : PErr}
    (h : iterRules strict pool js installed = .error e) :
    GenErr strict e ∨ (e = .noPackageFound ∧ ∃ j ∈ js, ∃ r, j.requirement = some r ∧
      (j.kind = .install ∨ j.kind = .softUpdate) ∧ pool.whatProvides r false = .ok []) := by
  unfold iterRules at h
  simp only [bind_err] at h
  rcases h with h | ⟨_, -, h⟩
  · exact addJobs_err hok hj h
  · exact Or.inl (addInstalled_err hok h)

end Verif.Rules
