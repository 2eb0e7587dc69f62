import Verif.Rules.Named
import Verif.Rules.Terminates
/-
The generator with a reader of names: it is the generator of `Rules/Model.lean` if names are read as they are; its
exceptions; it reads the names of all packages that it reaches.
-/
set_option linter.unusedSectionVars false
namespace Verif.Rules
open Verif Verif.Pkg Verif.Props

variable {N S U : Type} [LinearOrder N] [DecidableEq S] [LinearOrder U] [Syntax S U]

theorem name_of_id {pool : Pool N S U} {l : List (Package N S U)} (hok : pool.OK l) {p : Package N S U} {i : Nat}
    (h : pool.packageId p = .ok i) : ∃ q ∈ l, q.name = p.name := by
  obtain ⟨-, -, q, -, hk, hq, -⟩ := hok.ids.packageId_spec h
  exact ⟨q, hq, (key_fields hk).1⟩

/-! ### agreement -/

section
variable {read : Reader N U} {strict : Bool} {pool : Pool N S U} {l : List (Package N S U)}

theorem addConflictsN_eq {p : Package N S U} (hp : read.Plain .conflict p.name) (reqs : Reqs N U) (rules : List (Rule N U)) :
    addConflictsN read strict pool p reqs rules = addConflicts strict pool p reqs rules := by
  unfold Reader.Plain at hp
  simp only [addConflictsN, addConflicts, hp]
  rfl

variable (hok : pool.OK l) (hl : ∀ q ∈ l, read.Plain .conflict q.name)
include hok hl

theorem workN_eq (n : Nat) (queue : List (Work N S U)) (g : Gen N U) :
    workN read strict pool n queue g = work strict pool n queue g := by
  induction n generalizing queue g with
  | zero => cases queue <;> rfl
  | succ n ih =>
    cases queue with
    | nil => rfl
    | cons w queue =>
      obtain ⟨p, reqs⟩ := w
      unfold workN work
      cases hi : pool.packageId p with
      | error e => rfl
      | ok i =>
        have hp : read.Plain .conflict p.name := by
          obtain ⟨q, hq, e⟩ := name_of_id hok hi
          rw [← e]; exact hl q hq
        simp only [bind, Except.bind, ih, addConflictsN_eq hp]

theorem addPackageRulesN_eq :
    addPackageRulesN read strict pool = addPackageRules strict pool := by
  funext p reqs g
  exact workN_eq hok hl _ _ _

theorem addCandidatesN_eq (installed : Dict Nat (Package N S U)) (r : Requirement N U) (ps : List (Package N S U))
    (g : Gen N U) : addCandidatesN read strict pool installed r ps g = addCandidates strict pool installed r ps g := by
  induction ps generalizing g with
  | nil => rfl
  | cons p ps ih => simp only [addCandidatesN, addCandidates, ih, addPackageRulesN_eq hok hl]

theorem addJobN_eq (installed : Dict Nat (Package N S U)) (j : Job N U) (g : Gen N U) :
    addJobN read strict pool installed j g = addJob strict pool installed j g := by
  simp only [addJobN, addJob, addInstallJobN, addInstallJob, addUpdateJobN, addUpdateJob, addCandidatesN_eq hok hl,
    addPackageRulesN_eq hok hl]
  rcases j with ⟨_ | r, k⟩ <;> cases k <;> rfl

theorem addJobsN_eq (installed : Dict Nat (Package N S U)) (js : List (Job N U)) (g : Gen N U) :
    addJobsN read strict pool installed js g = addJobs strict pool installed js g := by
  induction js generalizing g with
  | nil => rfl
  | cons j js ih => simp only [addJobsN, addJobs, ih, addJobN_eq hok hl]

theorem addOthersN_eq (ps : List (Package N S U)) (g : Gen N U) :
    addOthersN read strict pool ps g = addOthers strict pool ps g := by
  induction ps generalizing g with
  | nil => rfl
  | cons j js ih => simp only [addOthersN, addOthers, ih, addPackageRulesN_eq hok hl]

theorem addInstalledN_eq (ps : List (Package N S U)) (g : Gen N U) :
    addInstalledN read strict pool ps g = addInstalled strict pool ps g := by
  induction ps generalizing g with
  | nil => rfl
  | cons j js ih =>
    simp only [addInstalledN, addInstalled, ih, addPackageRulesN_eq hok hl, addOthersN_eq hok hl]

/-- the generator of `Rules/Model.lean`, if the names of all packages are read as they are -/
theorem iterRulesN_eq (jobs : List (Job N U)) (installed : Dict Nat (Package N S U)) :
    iterRulesN read strict pool jobs installed = iterRules strict pool jobs installed := by
  simp only [iterRulesN, iterRules, addJobsN_eq hok hl, addInstalledN_eq hok hl]

end

/-! ### exceptions -/

section
variable {read : Reader N U} {strict : Bool} {pool : Pool N S U} {l : List (Package N S U)}

/-- an exception of the generator: one that it raises whatever the names, or one of the reader -/
def NameErr (read : Reader N U) (strict : Bool) (l : List (Package N S U)) (e : PErr) : Prop :=
  GenErr strict e ∨ ∃ q ∈ l, read q.name = .error e

theorem addConflictsN_err (hok : pool.OK l) {p : Package N S U} {i : Nat} (hi : pool.packageId p = .ok i) {reqs : Reqs N U}
    {rules : List (Rule N U)} {e : PErr} (h : addConflictsN read strict pool p reqs rules = .error e) :
    NameErr read strict l e := by
  unfold addConflictsN at h
  simp only [bind_err] at h
  rcases h with h | ⟨req, -, h⟩
  · obtain ⟨q, hq, e'⟩ := name_of_id hok hi
    exact Or.inr ⟨q, hq, by rw [e', h]⟩
  · left
    cases req with
    | none => exact addDeclared_err h
    | some req =>
      simp only [bind_err] at h
      rcases h with h | ⟨_, -, h | ⟨_, -, h⟩⟩
      · exact Or.inl (Or.inr (Or.inr (Or.inr (Or.inr (whatProvides_err h).1))))
      · exact GenErr.value (addSameName_err h)
      · exact addDeclared_err h

theorem workN_err (hok : pool.OK l) {n : Nat} {queue : List (Work N S U)} {g : Gen N U} {e : PErr}
    (h : workN read strict pool n queue g = .error e)
    (hn : queue.length + pending pool g.added pool.idToPackage ≤ n) : NameErr read strict l e := by
  induction n generalizing queue g with
  | zero =>
    cases queue with
    | nil => simp [workN] at h
    | cons e queue => simp at hn
  | succ n ih =>
    cases queue with
    | nil => simp [workN] at h
    | cons w queue =>
      obtain ⟨p, reqs⟩ := w
      unfold workN at h
      simp only [bind_err] at h
      simp only [List.length_cons] at hn
      rcases h with h | ⟨i, hi, h⟩
      · exact Or.inl (GenErr.value (packageId_err h))
      · split at h
        · exact ih h (by omega)
        · next hadd =>
          simp only [bind_err] at h
          rcases h with h | ⟨⟨rules1, more⟩, h1, h | ⟨rules2, h2, h⟩⟩
          · exact Or.inl (addRequires_err h)
          · exact addConflictsN_err hok hi h
          · refine ih h ?_
            obtain ⟨-, -, q, hq, hk, -⟩ := hok.ids.packageId_spec hi
            have hmem : (i, q) ∈ pool.idToPackage := by
              unfold Pool.idToPkg at hq
              split at hq
              · next v hv => cases hq; exact mem_of_dget hv
              · simp at hq
            have h3 := pending_lt pool hadd hmem
            have h4 := addRequires_length h1
            rw [fanOut_congr pool hk] at h3
            simp only [List.length_append, List.length_nil] at h4 ⊢
            unfold fanOut at h3
            omega

theorem addPackageRulesN_err (hok : pool.OK l) {p : Package N S U} {reqs : Reqs N U} {g : Gen N U} {e : PErr}
    (h : addPackageRulesN read strict pool p reqs g = .error e) : NameErr read strict l e := by
  refine workN_err hok h ?_
  unfold enoughTurns pending
  have : ∀ d : List (Nat × Package N S U), ((d.filter (fun kv => decide (kv.1 ∉ g.added))).map
      (fun kv => fanOut pool kv.2)).sum ≤ (d.map (fun kv => fanOut pool kv.2)).sum := by
    intro d
    induction d with
    | nil => simp
    | cons a d ih =>
      rw [List.filter_cons]
      split <;> simp only [List.map_cons, List.sum_cons] <;> omega
  have := this pool.idToPackage
  simp only [List.length_cons, List.length_nil]
  omega

theorem addCandidatesN_err (hok : pool.OK l) {installed : Dict Nat (Package N S U)} {r : Requirement N U}
    {ps : List (Package N S U)} {g : Gen N U} {e : PErr}
    (h : addCandidatesN read strict pool installed r ps g = .error e) : NameErr read strict l e := by
  induction ps generalizing g with
  | nil => simp [addCandidatesN] at h
  | cons p ps ih =>
    unfold addCandidatesN at h
    simp only [bind_err] at h
    rcases h with h | ⟨i, hi, h⟩
    · exact Or.inl (GenErr.value (packageId_err h))
    · split at h
      · exact ih h
      · simp only [bind_err] at h
        rcases h with h | ⟨_, -, h⟩
        · exact addPackageRulesN_err hok h
        · exact ih h

theorem addJobN_err (hok : pool.OK l) {installed : Dict Nat (Package N S U)} {j : Job N U} (hj : PlainJob j) {g : Gen N U}
    {e : PErr} (h : addJobN read strict pool installed j g = .error e) :
    NameErr read strict l e ∨ (e = .noPackageFound ∧ ∃ r, j.requirement = some r ∧ pool.whatProvides r false = .ok []) := by
  have inst : ∀ r, addInstallJobN read strict pool installed r g = .error e →
      NameErr read strict l e ∨ (e = .noPackageFound ∧ pool.whatProvides r false = .ok []) := by
    intro r h
    unfold addInstallJobN at h
    simp only [bind_err] at h
    rcases h with h | ⟨ps, hps, h⟩
    · exact Or.inl (Or.inl (Or.inl (Or.inr (Or.inr (Or.inr (Or.inr (whatProvides_err h).1))))))
    · split at h
      · next he =>
        cases h
        rw [List.isEmpty_iff] at he
        subst he
        exact Or.inr ⟨rfl, hps⟩
      · left
        simp only [bind_err, installOneOfRule] at h
        rcases h with h | ⟨_, -, (h | ⟨_, -, h⟩) | ⟨_, -, h⟩⟩
        · exact addCandidatesN_err hok h
        · exact Or.inl (GenErr.value (idsOfAll_err h))
        · simp at h
        · simp at h
  unfold addJobN at h
  split at h
  · next r hk hr =>
    rcases inst r h with k | ⟨k1, k2⟩
    · exact Or.inl k
    · exact Or.inr ⟨k1, r, hr, k2⟩
  · next r hk hr =>
    rcases inst r h with k | ⟨k1, k2⟩
    · exact Or.inl k
    · exact Or.inr ⟨k1, r, hr, k2⟩
  · left
    simp only [addRemoveJob, bind_err] at h
    rcases h with h | ⟨_, -, h⟩
    · exact Or.inl (Or.inl (Or.inr (Or.inr (Or.inr (Or.inr (whatProvides_err h).1)))))
    · exact Or.inl (GenErr.value (addRemovals_err h))
  · left
    simp only [addUpdateJobN, bind_err] at h
    rcases h with h | ⟨ps, -, h⟩
    · exact Or.inl (Or.inl (Or.inr (Or.inr (Or.inr (Or.inr (whatProvides_err h).1)))))
    · split at h
      · simp at h
      · simp only [bind_err] at h
        rcases h with h | ⟨_, -, h | ⟨_, -, h | ⟨_, -, h⟩⟩⟩
        · exact Or.inl (GenErr.value (maxPkg_err (fun _ _ => updateKey_err) h))
        · exact addPackageRulesN_err hok h
        · exact Or.inl (GenErr.value (packageId_err h))
        · simp at h
  · next hk => exact absurd hk hj.1
  · next hn _ => exact absurd hn hj.2

theorem addJobsN_err (hok : pool.OK l) {installed : Dict Nat (Package N S U)} {js : List (Job N U)}
    (hj : ∀ j ∈ js, PlainJob j) {g : Gen N U} {e : PErr} (h : addJobsN read strict pool installed js g = .error e) :
    NameErr read strict l e ∨ (e = .noPackageFound ∧ ∃ j ∈ js, ∃ r, j.requirement = some r ∧
      pool.whatProvides r false = .ok []) := by
  induction js generalizing g with
  | nil => simp [addJobsN] at h
  | cons j js ih =>
    unfold addJobsN at h
    simp only [bind_err] at h
    rcases h with h | ⟨_, -, h⟩
    · rcases addJobN_err hok (hj j (by simp)) h with k | ⟨k1, r, k2, k3⟩
      · exact Or.inl k
      · exact Or.inr ⟨k1, j, by simp, r, k2, k3⟩
    · rcases ih (fun k hk => hj k (by simp [hk])) h with k | ⟨k1, j', k2, k3⟩
      · exact Or.inl k
      · exact Or.inr ⟨k1, j', by simp [k2], k3⟩

theorem addOthersN_err (hok : pool.OK l) {ps : List (Package N S U)} {g : Gen N U} {e : PErr}
    (h : addOthersN read strict pool ps g = .error e) : NameErr read strict l e := by
  induction ps generalizing g with
  | nil => simp [addOthersN] at h
  | cons j js ih =>
    unfold addOthersN at h
    simp only [bind_err] at h
    rcases h with h | ⟨_, -, h⟩
    · exact addPackageRulesN_err hok h
    · exact ih h

theorem addInstalledN_err (hok : pool.OK l) {ps : List (Package N S U)} {g : Gen N U} {e : PErr}
    (h : addInstalledN read strict pool ps g = .error e) : NameErr read strict l e := by
  induction ps generalizing g with
  | nil => simp [addInstalledN] at h
  | cons j js ih =>
    unfold addInstalledN at h
    simp only [bind_err] at h
    rcases h with h | ⟨_, -, h | ⟨_, -, h⟩⟩
    · exact addOthersN_err hok h
    · exact addPackageRulesN_err hok h
    · exact ih h

/-- the exceptions of `iter_rules`, with a reader of names -/
theorem iterRulesN_err (hok : pool.OK l) {installed : Dict Nat (Package N S U)} {js : List (Job N U)}
    (hj : ∀ j ∈ js, PlainJob j) {e : PErr} (h : iterRulesN read strict pool js installed = .error e) :
    NameErr read strict l e ∨ (e = .noPackageFound ∧ ∃ j ∈ js, ∃ r, j.requirement = some r ∧
      pool.whatProvides r false = .ok []) := by
  unfold iterRulesN at h
  simp only [bind_err] at h
  rcases h with h | ⟨_, -, h⟩
  · exact addJobsN_err hok hj h
  · exact Or.inl (addInstalledN_err hok h)

end

/-! ### the names that are read -/

section
variable {read : Reader N U} {strict : Bool} {pool : Pool N S U} {l : List (Package N S U)}

/-- the reader accepts the name -/
def Reader.Reads (read : Reader N U) (n : N) : Prop := ∃ r, read n = .ok r

/-- the names of the packages whose rules were generated have been read -/
def NamesRead (read : Reader N U) (pool : Pool N S U) (g : Gen N U) : Prop :=
  ∀ p i, pool.packageId p = .ok i → i ∈ g.added → read.Reads p.name

theorem workN_names (hok : pool.OK l) {n : Nat} {queue : List (Work N S U)} {g g' : Gen N U}
    (h : workN read strict pool n queue g = .ok g') (hg : NamesRead read pool g) :
    NamesRead read pool g' ∧ (∀ w ∈ queue, read.Reads w.1.name) := by
  induction n generalizing queue g with
  | zero =>
    cases queue with
    | nil => simp only [workN, Except.ok.injEq] at h; subst h; exact ⟨hg, by simp⟩
    | cons e queue => simp [workN] at h
  | succ n ih =>
    cases queue with
    | nil => simp only [workN, Except.ok.injEq] at h; subst h; exact ⟨hg, by simp⟩
    | cons w queue =>
      obtain ⟨p, reqs⟩ := w
      unfold workN at h
      simp only [bind_ok] at h
      obtain ⟨i, hi, h⟩ := h
      split at h
      · next hadd =>
        obtain ⟨h1, h2⟩ := ih h hg
        refine ⟨h1, ?_⟩
        intro w hw
        rcases List.mem_cons.1 hw with rfl | hw
        · exact hg _ _ hi hadd
        · exact h2 w hw
      · simp only [bind_ok] at h
        obtain ⟨⟨rules1, more⟩, -, rules2, h2, h⟩ := h
        have hp : read.Reads p.name := by
          unfold addConflictsN at h2
          simp only [bind_ok] at h2
          obtain ⟨req, hr, -⟩ := h2
          exact ⟨req, hr⟩
        obtain ⟨k1, k2⟩ := ih h (by
          intro q j hj hm
          rcases (mem_sadd _ _ _).1 hm with rfl | hm
          · rw [← (key_fields (hok.ids.packageId_inj hi hj)).1]; exact hp
          · exact hg q j hj hm)
        refine ⟨k1, ?_⟩
        intro w hw
        rcases List.mem_cons.1 hw with rfl | hw
        · exact hp
        · exact k2 w (by simp [hw])

theorem addPackageRulesN_names (hok : pool.OK l) {p : Package N S U} {reqs : Reqs N U} {g g' : Gen N U}
    (h : addPackageRulesN read strict pool p reqs g = .ok g') (hg : NamesRead read pool g) :
    NamesRead read pool g' ∧ read.Reads p.name := by
  obtain ⟨h1, h2⟩ := workN_names hok h hg
  exact ⟨h1, h2 (p, reqs) (by simp)⟩

theorem addCandidatesN_names (hok : pool.OK l) {installed : Dict Nat (Package N S U)} {r : Requirement N U}
    {ps : List (Package N S U)} {g g' : Gen N U} (h : addCandidatesN read strict pool installed r ps g = .ok g')
    (hg : NamesRead read pool g) :
    NamesRead read pool g' ∧ ∀ p ∈ ps, (∀ i, pool.packageId p = .ok i → i ∉ dkeys installed) → read.Reads p.name := by
  induction ps generalizing g with
  | nil => simp only [addCandidatesN, Except.ok.injEq] at h; subst h; exact ⟨hg, by simp⟩
  | cons p ps ih =>
    unfold addCandidatesN at h
    simp only [bind_ok] at h
    obtain ⟨i, hi, h⟩ := h
    split at h
    · next hin =>
      obtain ⟨h1, h2⟩ := ih h hg
      refine ⟨h1, ?_⟩
      intro q hq hn
      rcases List.mem_cons.1 hq with rfl | hq
      · exact absurd hin (hn i hi)
      · exact h2 q hq hn
    · simp only [bind_ok] at h
      obtain ⟨g1, hg1, h⟩ := h
      obtain ⟨k1, k2⟩ := addPackageRulesN_names hok hg1 hg
      obtain ⟨h1, h2⟩ := ih h k1
      refine ⟨h1, ?_⟩
      intro q hq hn
      rcases List.mem_cons.1 hq with rfl | hq
      · exact k2
      · exact h2 q hq hn

theorem addRemovals_added {r : Requirement N U} {ps : List (Package N S U)} {g g' : Gen N U}
    (h : addRemovals pool r ps g = .ok g') : g'.added = g.added := by
  induction ps generalizing g with
  | nil => simp only [addRemovals, Except.ok.injEq] at h; rw [h]
  | cons p ps ih =>
    unfold addRemovals at h
    simp only [bind_ok] at h
    obtain ⟨_, -, h⟩ := h
    rw [ih h]

theorem addInstallJobN_names (hok : pool.OK l) {installed : Dict Nat (Package N S U)} {r : Requirement N U} {g g' : Gen N U}
    (h : addInstallJobN read strict pool installed r g = .ok g') (hg : NamesRead read pool g) :
    NamesRead read pool g' ∧ ∀ ps, pool.whatProvides r false = .ok ps → ∀ p ∈ ps,
      (∀ i, pool.packageId p = .ok i → i ∉ dkeys installed) → read.Reads p.name := by
  unfold addInstallJobN at h
  simp only [bind_ok] at h
  obtain ⟨ps, hps, h⟩ := h
  split at h
  · simp at h
  · simp only [bind_ok] at h
    obtain ⟨g1, h1, _, -, h⟩ := h
    obtain ⟨k1, k2⟩ := addCandidatesN_names hok h1 hg
    cases h
    refine ⟨k1, ?_⟩
    intro ps' hps' p hp hn
    rw [hps] at hps'
    cases hps'
    exact k2 p hp hn

theorem addJobN_names (hok : pool.OK l) {installed : Dict Nat (Package N S U)} {j : Job N U} {g g' : Gen N U}
    (h : addJobN read strict pool installed j g = .ok g') (hg : NamesRead read pool g) :
    NamesRead read pool g' ∧ (j.kind = .install ∨ j.kind = .softUpdate → ∀ r ps, j.requirement = some r →
      pool.whatProvides r false = .ok ps → ∀ p ∈ ps, (∀ i, pool.packageId p = .ok i → i ∉ dkeys installed) →
        read.Reads p.name) := by
  unfold addJobN at h
  split at h
  · next r hk hr =>
    obtain ⟨k1, k2⟩ := addInstallJobN_names hok h hg
    refine ⟨k1, fun _ r' ps hr' => ?_⟩
    rw [hr] at hr'; cases hr'
    exact k2 ps
  · next r hk hr =>
    obtain ⟨k1, k2⟩ := addInstallJobN_names hok h hg
    refine ⟨k1, fun _ r' ps hr' => ?_⟩
    rw [hr] at hr'; cases hr'
    exact k2 ps
  · next hk hr =>
    refine ⟨?_, fun hk' => by rw [hk] at hk'; simp at hk'⟩
    simp only [addRemoveJob, bind_ok] at h
    obtain ⟨ps, -, h⟩ := h
    intro p i hi hm
    rw [addRemovals_added h] at hm
    exact hg p i hi hm
  · next hk hr =>
    refine ⟨?_, fun hk' => by rw [hk] at hk'; simp at hk'⟩
    simp only [addUpdateJobN, bind_ok] at h
    obtain ⟨ps, -, h⟩ := h
    split at h
    · cases h; exact hg
    · simp only [bind_ok] at h
      obtain ⟨p, -, g1, h1, _, -, h⟩ := h
      cases h
      exact (addPackageRulesN_names hok h1 hg).1
  · simp at h
  · simp at h

theorem addJobsN_names (hok : pool.OK l) {installed : Dict Nat (Package N S U)} {js : List (Job N U)} {g g' : Gen N U}
    (h : addJobsN read strict pool installed js g = .ok g') (hg : NamesRead read pool g) :
    NamesRead read pool g' ∧ ∀ j ∈ js, (j.kind = .install ∨ j.kind = .softUpdate → ∀ r ps, j.requirement = some r →
      pool.whatProvides r false = .ok ps → ∀ p ∈ ps, (∀ i, pool.packageId p = .ok i → i ∉ dkeys installed) →
        read.Reads p.name) := by
  induction js generalizing g with
  | nil => simp only [addJobsN, Except.ok.injEq] at h; subst h; exact ⟨hg, by simp⟩
  | cons j js ih =>
    unfold addJobsN at h
    simp only [bind_ok] at h
    obtain ⟨g1, h1, h⟩ := h
    obtain ⟨k1, k2⟩ := addJobN_names hok h1 hg
    obtain ⟨m1, m2⟩ := ih h k1
    refine ⟨m1, ?_⟩
    intro j' hj'
    rcases List.mem_cons.1 hj' with rfl | hj'
    · exact k2
    · exact m2 j' hj'

theorem addOthersN_names (hok : pool.OK l) {ps : List (Package N S U)} {g g' : Gen N U}
    (h : addOthersN read strict pool ps g = .ok g') (hg : NamesRead read pool g) : NamesRead read pool g' := by
  induction ps generalizing g with
  | nil => simp only [addOthersN, Except.ok.injEq] at h; subst h; exact hg
  | cons p ps ih =>
    unfold addOthersN at h
    simp only [bind_ok] at h
    obtain ⟨g1, h1, h⟩ := h
    exact ih h (addPackageRulesN_names hok h1 hg).1

theorem addInstalledN_names (hok : pool.OK l) {ps : List (Package N S U)} {g g' : Gen N U}
    (h : addInstalledN read strict pool ps g = .ok g') (hg : NamesRead read pool g) :
    NamesRead read pool g' ∧ ∀ p ∈ ps, read.Reads p.name := by
  induction ps generalizing g with
  | nil => simp only [addInstalledN, Except.ok.injEq] at h; subst h; exact ⟨hg, by simp⟩
  | cons p ps ih =>
    unfold addInstalledN at h
    simp only [bind_ok] at h
    obtain ⟨g1, h1, g2, h2, h⟩ := h
    obtain ⟨k1, k2⟩ := addPackageRulesN_names hok h2 (addOthersN_names hok h1 hg)
    obtain ⟨m1, m2⟩ := ih h k1
    refine ⟨m1, ?_⟩
    intro q hq
    rcases List.mem_cons.1 hq with rfl | hq
    · exact k2
    · exact m2 q hq

/-- If the rules are generated, then the names of the installed packages were read, and those of the candidates of the jobs
that install something. -/
theorem iterRulesN_names (hok : pool.OK l) {installed : Dict Nat (Package N S U)} {js : List (Job N U)} {g : Gen N U}
    (h : iterRulesN read strict pool js installed = .ok g) :
    NamesRead read pool g ∧ (∀ kv ∈ installed, read.Reads kv.2.name) ∧
    ∀ j ∈ js, (j.kind = .install ∨ j.kind = .softUpdate) → ∀ r ps, j.requirement = some r →
      pool.whatProvides r false = .ok ps → ∀ p ∈ ps, (∀ i, pool.packageId p = .ok i → i ∉ dkeys installed) →
        read.Reads p.name := by
  unfold iterRulesN at h
  simp only [bind_ok] at h
  obtain ⟨g1, h1, h⟩ := h
  obtain ⟨k1, k2⟩ := addJobsN_names hok h1 (by intro p i _ hm; simp at hm)
  obtain ⟨m1, m2⟩ := addInstalledN_names hok h k1
  exact ⟨m1, fun kv hkv => m2 _ (List.mem_map.2 ⟨kv, hkv, rfl⟩), k2⟩

end

end Verif.Rules
