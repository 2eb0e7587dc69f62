import Verif.Solve.SolveSpec
/-
The specification is decidable on concrete data: used only by the examples that accompany the theorems.
-/
set_option linter.unusedSectionVars false
set_option synthInstance.maxSize 2048
set_option synthInstance.maxHeartbeats 200000
namespace Verif.Solve.Check
open Verif Verif.Pkg Verif.Props Verif.Solve

variable {N S U : Type} [LinearOrder N] [DecidableEq S] [LinearOrder U] [Syntax S U]

instance (p : Package N S U) (n : N) : Decidable (Provides p n) := by unfold Provides; infer_instance

/-- the requirement that is looked up -/
def lookedE (mods : Option (Modifiers N)) (b : Bool) (r : Requirement N U) : Except PErr (Requirement N U) :=
  match mods, b with
  | some m, true => modifyRequirement r m
  | _, _ => .ok r

theorem lookedE_iff (mods : Option (Modifiers N)) (b : Bool) (r r' : Requirement N U) :
    Looked mods b r r' ↔ lookedE mods b r = .ok r' := by
  unfold Looked lookedE
  cases mods <;> cases b <;> simp [eq_comm]

/-- `ReqAccepts` of what is looked up -/
def acceptsE (e : Except PErr (Requirement N U)) (v : Version U) : Bool :=
  match e with
  | .ok r => r.matches v
  | .error _ => false

theorem meets_iff (mods : Option (Modifiers N)) (b : Bool) (r : Requirement N U) (p : Package N S U) :
    Meets mods b r p ↔ Provides p r.name ∧ acceptsE (lookedE mods b r) p.version = true := by
  unfold Meets
  refine and_congr_right (fun _ => ?_)
  simp only [lookedE_iff]
  cases h : lookedE mods b r with
  | error e => simp [acceptsE]
  | ok r' => simp [acceptsE, C24_matches_meaning]

instance (mods : Option (Modifiers N)) (b : Bool) (r : Requirement N U) (p : Package N S U) : Decidable (Meets mods b r p) :=
  decidable_of_iff _ (meets_iff mods b r p).symm

instance (r : Requirement N U) (p : Package N S U) : Decidable (MeetsJob r p) := by unfold MeetsJob; infer_instance

instance instParse (cls : ReqClass) (mods : Option (Modifiers N)) (t : CTuple N S) (p : Package N S U) :
    Decidable (∃ r, fromConstraints cls t = .ok r ∧ Meets (U := U) mods true r p) :=
  match h : fromConstraints (U := U) cls t with
  | .error e => isFalse (by rintro ⟨r, hr, -⟩; cases hr)
  | .ok r =>
    if hm : Meets mods true r p then isTrue ⟨r, rfl, hm⟩
    else isFalse (by rintro ⟨r', hr, hm'⟩; cases hr; exact hm hm')

instance (mods : Option (Modifiers N)) (t : CTuple N S) (p : Package N S U) : Decidable (MeetsDep mods t p) := by
  unfold MeetsDep; infer_instance
instance (mods : Option (Modifiers N)) (t : CTuple N S) (p : Package N S U) : Decidable (MeetsConflict mods t p) := by
  unfold MeetsConflict; infer_instance

instance (installed : PKey N S U → Prop) [DecidablePred installed] (p q : Package N S U) : Decidable (Below installed p q) := by
  unfold Below; infer_instance

/-- the ways to split a list at an element -/
def splits {α : Type} : List α → List (List α × α × List α)
  | [] => []
  | x :: xs => ([], x, xs) :: (splits xs).map (fun t => (x :: t.1, t.2.1, t.2.2))

theorem mem_splits {α : Type} (l b c : List α) (x : α) : (b, x, c) ∈ splits l ↔ l = b ++ x :: c := by
  induction l generalizing b with
  | nil => simp [splits]
  | cons y l ih =>
    simp only [splits, List.mem_cons, List.mem_map, Prod.mk.injEq, Prod.exists]
    constructor
    · rintro (⟨rfl, rfl, rfl⟩ | ⟨b', x', c', h, rfl, rfl, rfl⟩)
      · rfl
      · rw [(ih b').1 h]; rfl
    · intro h
      cases b with
      | nil => simp only [List.nil_append, List.cons.injEq] at h; obtain ⟨rfl, rfl⟩ := h; simp
      | cons z b =>
        simp only [List.cons_append, List.cons.injEq] at h
        obtain ⟨rfl, h⟩ := h
        exact Or.inr ⟨b, x, c, (ih b).2 h, rfl, rfl, rfl⟩

/-- the packages that a hard update may ask for (at most one) -/
def targets (avail : List (Package N S U)) (installed : PKey N S U → Prop) [DecidablePred installed] (r : Requirement N U) :
    List (Package N S U) :=
  ((splits avail).filter (fun t => decide (MeetsJob r t.2.1 ∧ (∀ p ∈ t.1, MeetsJob r p → Below installed p t.2.1) ∧
    ∀ p ∈ t.2.2, MeetsJob r p → ¬ Below installed t.2.1 p))).map (fun t => t.2.1)

theorem updateTarget_iff (avail : List (Package N S U)) (installed : PKey N S U → Prop) [DecidablePred installed]
    (r : Requirement N U) (q : Package N S U) : UpdateTarget avail installed r q ↔ q ∈ targets avail installed r := by
  unfold UpdateTarget targets
  simp only [List.mem_map, List.mem_filter, Prod.exists, decide_eq_true_eq, mem_splits]
  constructor
  · rintro ⟨b, c, h⟩
    exact ⟨b, q, c, h, rfl⟩
  · rintro ⟨b, x, c, h, rfl⟩
    exact ⟨b, c, h⟩

instance (avail : List (Package N S U)) (installed : PKey N S U → Prop) [DecidablePred installed] (r : Requirement N U)
    (q : Package N S U) : Decidable (UpdateTarget avail installed r q) := decidable_of_iff _ (updateTarget_iff _ _ _ _).symm

/-- the packages that a job asks for -/
def requestedList (avail : List (Package N S U)) (installed : PKey N S U → Prop) [DecidablePred installed] (j : Job N U) :
    List (Package N S U) :=
  match j.requirement with
  | none => []
  | some r => if j.kind = .hardUpdate then targets avail installed r else avail.filter (fun p => decide (MeetsJob r p))

theorem requested_iff (avail : List (Package N S U)) (installed : PKey N S U → Prop) [DecidablePred installed] (j : Job N U)
    (p : Package N S U) : Requested avail installed j p ↔ p ∈ requestedList avail installed j := by
  unfold Requested requestedList
  cases j.requirement with
  | none => simp
  | some r =>
    simp only [Option.some.injEq, exists_eq_left']
    split
    · exact updateTarget_iff _ _ _ _
    · simp

instance (avail : List (Package N S U)) (installed : PKey N S U → Prop) [DecidablePred installed] (j : Job N U)
    (p : Package N S U) : Decidable (Requested avail installed j p) := decidable_of_iff _ (requested_iff _ _ _ _).symm

instance (avail : List (Package N S U)) (installed : PKey N S U → Prop) [DecidablePred installed] (j : Job N U)
    (k : PKey N S U) : Decidable (RequestedKey avail installed j k) :=
  decidable_of_iff (∃ p ∈ requestedList avail installed j, p.key = k) (by
    unfold RequestedKey; simp only [requested_iff])

instance (p q : Package N S U) : Decidable (ShareName p q) :=
  decidable_of_iff (∃ n ∈ p.provNames, Provides q n) (by unfold ShareName; simp only [provides_iff])

instance (avail : List (Package N S U)) (mods : Option (Modifiers N)) : Decidable (Exclusive avail mods) := by
  unfold Exclusive; infer_instance

instance (s : DependencySolver N S U) : DecidablePred (InstalledKeys s) := fun k => by unfold InstalledKeys; infer_instance

instance (s : DependencySolver N S U) (p : Package N S U) : Decidable (NearInstalled (InstalledKeys s) p) :=
  decidable_of_iff (∃ q ∈ s.installed.iter, Provides p q.name) (by
    unfold NearInstalled InstalledKeys
    constructor
    · rintro ⟨q, h1, h2⟩; exact ⟨q.key, ⟨q, h1, rfl⟩, h2⟩
    · rintro ⟨k, ⟨q, h1, rfl⟩, h2⟩; exact ⟨q, h1, h2⟩)

instance (avail : List (Package N S U)) (s : DependencySolver N S U) (jobs : List (Job N U)) :
    Decidable (Tidy avail (InstalledKeys s) jobs) :=
  decidable_of_iff ((∀ p ∈ avail, ∀ r ∈ avail, ShareName p r → InstalledKeys s r.key → NearInstalled (InstalledKeys s) p) ∧
    (∀ p ∈ avail, ∀ r ∈ avail, ShareName p r → ∀ j ∈ jobs, RequestedKey avail (InstalledKeys s) j r.key →
      NearInstalled (InstalledKeys s) p ∨ (j.kind = .remove ∧ Requested avail (InstalledKeys s) j p) ∨
      (j.kind ≠ .remove ∧ ∀ c ∈ avail, Requested avail (InstalledKeys s) j c → ShareName p c)))
    ⟨fun h => ⟨h.1, h.2⟩, fun h => ⟨h.1, h.2⟩⟩

instance (k k' : PKey N S U) : Decidable (SameNameVersion k k') := by unfold SameNameVersion; infer_instance

theorem sameProvides_iff (p q : Package N S U) :
    (∀ n, Provides p n ↔ Provides q n) ↔ (∀ n ∈ p.provNames, Provides q n) ∧ ∀ n ∈ q.provNames, Provides p n := by
  simp only [provides_iff]
  constructor
  · intro h; exact ⟨fun n => (h n).1, fun n => (h n).2⟩
  · intro h n; exact ⟨h.1 n, h.2 n⟩

instance (p q : Package N S U) : Decidable (∀ n, Provides p n ↔ Provides q n) := decidable_of_iff _ (sameProvides_iff p q).symm

instance (avail : List (Package N S U)) (s : DependencySolver N S U) : Decidable (SameMetadata avail (InstalledKeys s)) :=
  decidable_of_iff ((∀ p ∈ s.installed.iter, ∀ p' ∈ s.installed.iter, SameNameVersion p.key p'.key → p.key = p'.key) ∧
    ∀ p ∈ avail, ∀ q ∈ avail, InstalledKeys s q.key → SameNameVersion p.key q.key →
    p.installRequires = q.installRequires ∧ p.conflicts = q.conflicts ∧ ∀ n, Provides p n ↔ Provides q n)
    ⟨fun h => ⟨by rintro _ _ ⟨p, hp, rfl⟩ ⟨q, hq, rfl⟩; exact h.1 p hp q hq, h.2⟩,
     fun h => ⟨fun p hp q hq => h.1 _ _ ⟨p, hp, rfl⟩ ⟨q, hq, rfl⟩, h.2⟩⟩

/-! ### installations given by a list -/

/-- the set of the elements of a list -/
def Of (l : List (PKey N S U)) : PKey N S U → Prop := fun k => k ∈ l

instance (l : List (PKey N S U)) : DecidablePred (Of l) := fun k => by unfold Of; infer_instance

theorem jobSatisfied_hard (avail : List (Package N S U)) (installed I : PKey N S U → Prop) [DecidablePred installed]
    (r : Requirement N U) : (∀ q, UpdateTarget avail installed r q → I q.key) ↔ ∀ q ∈ targets avail installed r, I q.key := by
  simp only [updateTarget_iff]

instance (avail : List (Package N S U)) (installed I : PKey N S U → Prop) [DecidablePred installed] [DecidablePred I]
    (j : Job N U) : Decidable (JobSatisfied avail installed I j) := by
  unfold JobSatisfied
  match h : j.requirement, hk : j.kind with
  | none, _ => exact isFalse (by rintro ⟨r, hr, -⟩; cases hr)
  | some r, .install =>
    exact decidable_of_iff (∃ q ∈ avail, I q.key ∧ MeetsJob r q) (by simp)
  | some r, .softUpdate =>
    exact decidable_of_iff (∃ q ∈ avail, I q.key ∧ MeetsJob r q) (by simp)
  | some r, .remove =>
    exact decidable_of_iff (∀ q ∈ avail, I q.key → ¬ MeetsJob r q) (by simp)
  | some r, .hardUpdate =>
    exact decidable_of_iff (∀ q ∈ targets avail installed r, I q.key) (by simp [updateTarget_iff])
  | some r, .upgrade => exact isFalse (by simp)

instance (avail : List (Package N S U)) (mods : Option (Modifiers N)) (l : List (PKey N S U)) :
    Decidable (Consistent avail mods (Of l)) :=
  decidable_of_iff ((∀ k ∈ l, ∃ p ∈ avail, p.key = k) ∧
    (∀ k ∈ l, ∀ t ∈ k.installRequires, ∃ q ∈ avail, Of l q.key ∧ q.key ≠ k ∧ MeetsDep mods t q) ∧
    (∀ k ∈ l, ∀ k' ∈ l, k.name = k'.name → k = k') ∧
    (∀ k ∈ l, ∀ t ∈ k.conflicts, ∀ q ∈ avail, Of l q.key → q.key ≠ k → ¬ MeetsConflict mods t q))
    ⟨fun h => ⟨h.1, h.2.1, fun k k' hk hk' => h.2.2.1 k hk k' hk', h.2.2.2⟩,
     fun h => ⟨h.1, h.2, fun k hk k' hk' => h.3 k k' hk hk', h.4⟩⟩

instance (avail : List (Package N S U)) (mods : Option (Modifiers N)) (installed : PKey N S U → Prop)
    [DecidablePred installed] (jobs : List (Job N U)) (l : List (PKey N S U)) :
    Decidable (ValidInstall avail mods installed jobs (Of l)) :=
  decidable_of_iff (Consistent avail mods (Of l) ∧ ∀ j ∈ jobs, JobSatisfied avail installed (Of l) j)
    ⟨fun h => ⟨h.1, h.2⟩, fun h => ⟨h.1, h.2⟩⟩

instance (ops : List (Op N S U)) : DecidablePred (RemovedBy ops) := fun k => by
  unfold RemovedBy
  refine @List.decidableBEx _ _ (fun o => ?_) ops
  cases o <;> simp only <;> infer_instance

/-- the result of applying operations, as a list -/
def applyList (ops : List (Op N S U)) (l : List (PKey N S U)) : List (PKey N S U) :=
  l.filter (fun k => !decide (RemovedBy ops k)) ++ ops.filterMap (fun o => match o with
    | .install p => some p.key
    | .remove _ => none
    | .update p _ => some p.key)

theorem apply_eq (ops : List (Op N S U)) (l : List (PKey N S U)) : Apply ops (Of l) = Of (applyList ops l) := by
  funext k
  apply propext
  unfold Apply Of applyList InstalledBy
  simp only [List.mem_append, List.mem_filter, Bool.not_eq_true', decide_eq_false_iff_not, List.mem_filterMap]
  refine or_congr Iff.rfl ?_
  constructor
  · rintro ⟨o, ho, h⟩
    refine ⟨o, ho, ?_⟩
    cases o <;> simp_all
  · rintro ⟨o, ho, h⟩
    refine ⟨o, ho, ?_⟩
    cases o <;> simp_all

theorem installedKeys_eq (s : DependencySolver N S U) : InstalledKeys s = Of (s.installed.iter.map Package.key) := by
  funext k
  apply propext
  unfold InstalledKeys Of
  simp

theorem result_eq (s : DependencySolver N S U) (t : Transaction N S U) :
    Result s t = Of (applyList t.operations (s.installed.iter.map Package.key)) := by
  unfold Result
  rw [installedKeys_eq, apply_eq]

end Verif.Solve.Check
