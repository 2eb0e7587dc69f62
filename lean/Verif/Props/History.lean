import Verif.Solve.Session
import Verif.Props.Total
/-
Property C63: a solver can be reused. What `solve` and `solve_with_hint` answer does not depend on the requests that the
same solver has solved before.
-/
set_option linter.unusedSectionVars false
namespace Verif.Props
open Verif Verif.Pkg Verif.Solve

variable {N S U : Type} [LinearOrder N] [DecidableEq S] [LinearOrder U] [Syntax S U]

/-! ### the specification -/

/-- The two solvers are in the same state, except that their pools may have different modifiers. -/
structure SameButModifiers (s t : DependencySolver N S U) : Prop where
  remote : s.remote = t.remote
  installed : s.installed = t.installed
  usePruning : s.usePruning = t.usePruning
  strict : s.strict = t.strict
  nextId : s.pool.nextId = t.pool.nextId
  packageToId : s.pool.packageToId = t.pool.packageToId
  idToPackage : s.pool.idToPackage = t.pool.idToPackage
  packagesByName : s.pool.packagesByName = t.pool.packagesByName

/-- no call of the session raised an exception in `add_repository` -/
def NoneRaised (as : List (Answer N S U)) : Prop := ∀ e, Answer.raised e ∉ as

/-- the repositories that the session adds to the pool -/
def addedTo : List (Event N S U) → List (Repository N S U)
  | [] => []
  | .addRepository r :: es => r :: addedTo es
  | _ :: es => addedTo es

/-! ### `solve` depends on the state up to the modifiers -/

theorem SameButModifiers.refl (s : DependencySolver N S U) : SameButModifiers s s := ⟨rfl, rfl, rfl, rfl, rfl, rfl, rfl, rfl⟩

theorem SameButModifiers.eq {s t : DependencySolver N S U} (h : SameButModifiers s t) :
    ∃ m, s = { t with
      pool := { t.pool with
        modifiers := m } } := by
  obtain ⟨⟨_, _, _, _, m⟩, _, _, _, _⟩ := s
  obtain ⟨⟨_, _, _, _, _⟩, _, _, _, _⟩ := t
  obtain ⟨h1, h2, h3, h4, h5, h6, h7, h8⟩ := h
  simp only at h1 h2 h3 h4 h5 h6 h7 h8
  exact ⟨m, by simp [*]⟩

theorem solve_modifiers (t : DependencySolver N S U) (m : Option (Modifiers N)) (o : Orders) (q : Request N U) :
    ({ t with
      pool := { t.pool with
        modifiers := m } } : DependencySolver N S U).solve o q = t.solve o q := rfl

theorem solveEff_modifiers (t : DependencySolver N S U) (m : Option (Modifiers N)) (o : Orders) (q : Request N U) :
    ({ t with
      pool := { t.pool with
        modifiers := m } } : DependencySolver N S U).solveEff o q = t.solveEff o q := rfl

/-- the state that `solve` leaves behind -/
def afterSolve (s : DependencySolver N S U) (m : Modifiers N) : DependencySolver N S U :=
  { s with
    pool := { s.pool with
      modifiers := activeModifiers m } }

theorem solveEff_eq (s : DependencySolver N S U) (o : Orders) (q : Request N U) :
    s.solveEff o q = (s.solve o q, afterSolve s q.modifiers) := by
  unfold DependencySolver.solveEff DependencySolver.solvePool afterSolve
  rw [convertUpgrade_modifiers]

theorem hintCallbackEff_eq (s : DependencySolver N S U) (o : List (Job N U) → Orders) (m : Modifiers N)
    (jobs : List (Job N U)) :
    hintCallbackEff o m jobs (afterSolve s m) = (hintCallback s o m jobs, afterSolve s m) := by
  have h : (afterSolve s m).solveEff (o jobs) ⟨m, jobs⟩ = (s.solve (o jobs) ⟨m, jobs⟩, afterSolve s m) := by
    rw [solveEff_eq]; rfl
  unfold hintCallbackEff hintCallback
  rw [h]
  cases s.solve (o jobs) ⟨m, jobs⟩ with
  | ok t => rfl
  | error e => cases e with
    | sat e => cases e <;> rfl
    | _ => rfl

theorem minimalUnsatEff_eq {α ε σ : Type} (cb : List α → σ → Except ε Bool × σ) (f : List α → Except ε Bool) (s : σ)
    (h : ∀ l, cb l s = (f l, s)) : ∀ (fuel : Nat) (A I : List α),
    minimalUnsatEff cb fuel A I s = (minimalUnsat f fuel A I, s)
  | 0, _, _ => rfl
  | fuel + 1, A, I => by
    have ih := minimalUnsatEff_eq cb f s h fuel
    unfold minimalUnsatEff minimalUnsat
    split
    · rfl
    · cases hA : f ((split A).1 ++ I) with
      | error e => simp only [h, hA]
      | ok b => cases b with
        | false => simp only [h, hA, ih]
        | true =>
          cases hB : f ((split A).2 ++ I) with
          | error e => simp only [h, hA, hB]
          | ok b => cases b with
            | false => simp only [h, hA, hB, ih]
            | true =>
              cases hC : minimalUnsat f fuel (split A).1 ((split A).2 ++ I) with
              | error e => simp only [h, hA, hB, ih, hC]
              | ok as =>
                cases hD : minimalUnsat f fuel (split A).2 (as ++ I) <;> simp only [h, hA, hB, ih, hC, hD]

/-- `solve_with_hint`, run with the effects of all its calls of `solve`, answers what the model of C44 and C45 says, and
leaves the same state as `solve`. -/
theorem solveWithHintEff_eq (s : DependencySolver N S U) (o : Orders) (o' : List (Job N U) → Orders) (q : Request N U) :
    s.solveWithHintEff o o' q = (s.solveWithHint o o' q, afterSolve s q.modifiers) := by
  unfold DependencySolver.solveWithHintEff DependencySolver.solveWithHint
  rw [solveEff_eq]
  cases s.solve o q with
  | ok t => rfl
  | error e => cases e with
    | sat e => cases e with
      | satisfiability u =>
        simp only [afterSolve]
        have hm : (convertUpgrade q s.remote s.installed).modifiers = q.modifiers := convertUpgrade_modifiers _ _ _
        have hcb := minimalUnsatEff_eq (hintCallbackEff o' q.modifiers) (hintCallback s o' q.modifiers)
          (afterSolve s q.modifiers) (hintCallbackEff_eq s o' q.modifiers)
        unfold minimalUnsatisfiableSubsetEff minimalUnsatisfiableSubset
        have h0 := hintCallbackEff_eq s o' q.modifiers (convertUpgrade q s.remote s.installed).jobs
        simp only [afterSolve] at h0 hcb
        simp only [hm, h0]
        cases hintCallback s o' q.modifiers (convertUpgrade q s.remote s.installed).jobs with
        | error e => rfl
        | ok b => cases b with
          | true => rfl
          | false =>
            simp only [hcb]
            cases minimalUnsat (hintCallback s o' q.modifiers) ((convertUpgrade q s.remote s.installed).jobs.length + 1)
              (convertUpgrade q s.remote s.installed).jobs [] with
            | ok j => rfl
            | error e => cases e <;> rfl
      | _ => rfl
    | _ => rfl

/-! ### the pool and its modifiers -/

theorem addProvides_setModifiers (p : Package N S U) (m : Option (Modifiers N)) : ∀ (cs : List (CTuple N S)) (pool : Pool N S U),
    Pool.addProvides p cs { pool with modifiers := m } =
      ({ (Pool.addProvides p cs pool).1 with modifiers := m }, (Pool.addProvides p cs pool).2)
  | [], pool => rfl
  | c :: cs, pool => by
    unfold Pool.addProvides
    split
    · rfl
    · split
      · rfl
      · next req _ _ =>
        exact addProvides_setModifiers p m cs
          { pool with
            packagesByName :=
              dset pool.packagesByName req.name ((dget pool.packagesByName req.name).getD [] ++ [p]) }

theorem addPackages_setModifiers (m : Option (Modifiers N)) : ∀ (ps : List (Package N S U)) (pool : Pool N S U),
    Pool.addPackages ps { pool with modifiers := m } =
      ({ (Pool.addPackages ps pool).1 with modifiers := m }, (Pool.addPackages ps pool).2)
  | [], pool => rfl
  | p :: ps, pool => by
    have h : Pool.addPackage p { pool with modifiers := m } =
        ({ (Pool.addPackage p pool).1 with modifiers := m }, (Pool.addPackage p pool).2) :=
      addProvides_setModifiers p m p.provides
        { pool with
          nextId := pool.nextId + 1
          idToPackage := dset pool.idToPackage pool.nextId p
          packageToId := dset pool.packageToId p.key pool.nextId }
    unfold Pool.addPackages
    rw [h]
    rcases hp : Pool.addPackage p pool with ⟨pool', _ | e⟩
    · exact addPackages_setModifiers m ps pool'
    · rfl

theorem addRepositories_setModifiers (m : Option (Modifiers N)) : ∀ (rs : List (Repository N S U)) (pool : Pool N S U),
    Pool.addRepositories rs { pool with modifiers := m } =
      ({ (Pool.addRepositories rs pool).1 with modifiers := m }, (Pool.addRepositories rs pool).2)
  | [], pool => rfl
  | r :: rs, pool => by
    unfold Pool.addRepositories
    rw [addPackages_setModifiers]
    rcases hp : Pool.addPackages r.iter pool with ⟨pool', _ | e⟩
    · exact addRepositories_setModifiers m rs pool'
    · rfl

theorem addRepositories_snoc (r : Repository N S U) : ∀ (rs : List (Repository N S U)) (pool pool' : Pool N S U),
    Pool.addRepositories rs pool = (pool', none) →
    Pool.addRepositories (rs ++ [r]) pool = pool'.addPackages r.iter
  | [], pool, pool', h => by
    cases h
    rcases hp : Pool.addPackages r.iter pool with ⟨pool', _ | e⟩ <;> simp [Pool.addRepositories, hp]
  | r0 :: rs, pool, pool', h => by
    rw [List.cons_append]
    unfold Pool.addRepositories at h ⊢
    rcases hp : Pool.addPackages r0.iter pool with ⟨pool1, _ | e⟩
    · rw [hp] at h
      exact addRepositories_snoc r rs pool1 pool' h
    · rw [hp] at h
      cases h

/-! ### C63 -/

/-- C63: `solve` and `solve_with_hint` give the same answer, and leave the same state, on two solvers that differ only in
the modifiers of their pools. -/
theorem C63_modifiers_irrelevant {s t : DependencySolver N S U} (h : SameButModifiers s t) (o : Orders)
    (o' : List (Job N U) → Orders) (q : Request N U) :
    s.solveEff o q = t.solveEff o q ∧ s.solveWithHintEff o o' q = t.solveWithHintEff o o' q := by
  obtain ⟨m, rfl⟩ := h.eq
  exact ⟨rfl, rfl⟩

/-- C63: solving a request, whatever the outcome, leaves everything as it was - the repositories, the flags, the ids and
the packages of the pool, and the providers of every requirement that is looked up without modifiers - except that the
pool then has the modifiers of the request. -/
theorem C63_solve_leaves (s : DependencySolver N S U) (o : Orders) (o' : List (Job N U) → Orders) (q : Request N U) :
    ∀ s' ∈ [(s.solveEff o q).2, (s.solveWithHintEff o o' q).2],
      s'.remote = s.remote ∧ s'.installed = s.installed ∧ s'.usePruning = s.usePruning ∧ s'.strict = s.strict ∧
      (∀ p, s'.pool.packageId p = s.pool.packageId p) ∧ (∀ i, s'.pool.idToPkg i = s.pool.idToPkg i) ∧
      s'.pool.packageIds = s.pool.packageIds ∧ (∀ n, s'.pool.nameToPackages n = s.pool.nameToPackages n) ∧
      (∀ r, s'.pool.whatProvides r false = s.pool.whatProvides r false) ∧
      s'.pool.modifiers = (if q.modifiers.targets = [] then none else some q.modifiers) := by
  rw [solveEff_eq, solveWithHintEff_eq]
  intro s' hs
  simp only [List.mem_cons, List.not_mem_nil, or_false, or_self] at hs
  subst hs
  exact ⟨rfl, rfl, rfl, rfl, fun _ => rfl, fun _ => rfl, rfl, fun _ => rfl, fun _ => rfl, rfl⟩

/-- One call on two solvers that differ only in the modifiers of their pools. -/
theorem step_same {s t : DependencySolver N S U} (h : SameButModifiers s t) (e : Event N S U) :
    SameButModifiers (e.step s).1 (e.step t).1 ∧ (e.step s).2 = (e.step t).2 := by
  obtain ⟨m, rfl⟩ := h.eq
  cases e with
  | solve o q => exact ⟨SameButModifiers.refl _, rfl⟩
  | solveWithHint o o' q => exact ⟨SameButModifiers.refl _, rfl⟩
  | setModifiers m => exact ⟨SameButModifiers.refl _, rfl⟩
  | addRemote r => exact ⟨⟨rfl, rfl, rfl, rfl, rfl, rfl, rfl, rfl⟩, rfl⟩
  | addInstalled p => exact ⟨⟨rfl, rfl, rfl, rfl, rfl, rfl, rfl, rfl⟩, rfl⟩
  | setFlags a b => exact ⟨⟨rfl, rfl, rfl, rfl, rfl, rfl, rfl, rfl⟩, rfl⟩
  | addRepository r =>
    simp only [Event.step]
    rw [addPackages_setModifiers]
    rcases hp : Pool.addPackages r.iter t.pool with ⟨pool', _ | e⟩
    · exact ⟨⟨rfl, rfl, rfl, rfl, rfl, rfl, rfl, rfl⟩, rfl⟩
    · exact ⟨⟨rfl, rfl, rfl, rfl, rfl, rfl, rfl, rfl⟩, rfl⟩

/-- One call that solves, on one of two solvers that differ only in the modifiers of their pools. -/
theorem step_solve {s t : DependencySolver N S U} (h : SameButModifiers s t) (e : Event N S U) (he : e.isSolve = true) :
    SameButModifiers (e.step s).1 t := by
  have : ∀ m : Modifiers N, SameButModifiers (afterSolve s m) t := fun m =>
    ⟨h.remote, h.installed, h.usePruning, h.strict, h.nextId, h.packageToId, h.idToPackage, h.packagesByName⟩
  cases e with
  | solve o q => simp only [Event.step]; rw [solveEff_eq]; exact this _
  | solveWithHint o o' q => simp only [Event.step]; rw [solveWithHintEff_eq]; exact this _
  | _ => simp [Event.isSolve] at he

theorem run_erase (es : List (Event N S U)) : ∀ s t : DependencySolver N S U, SameButModifiers s t →
    SameButModifiers (runEvents es s).1 (runEvents (es.filter (fun e => !e.isSolve)) t).1 := by
  induction es with
  | nil => intro s t h; exact h
  | cons e es ih =>
    intro s t h
    cases he : e.isSolve with
    | true =>
      have : (e :: es).filter (fun e => !e.isSolve) = es.filter (fun e => !e.isSolve) := by simp [he]
      rw [this]
      exact ih _ _ (step_solve h e he)
    | false =>
      have : (e :: es).filter (fun e => !e.isSolve) = e :: es.filter (fun e => !e.isSolve) := by simp [he]
      rw [this]
      exact ih _ _ (step_same h e).1

/-- C63: after any session - solving requests with or without success, adding repositories to the pool, setting its
modifiers, changing the repositories and the flags of the solver - the answer to a request is the one that is given after
the same session without any of the solved requests. -/
theorem C63_history_irrelevant (es : List (Event N S U)) (s : DependencySolver N S U) (o : Orders)
    (o' : List (Job N U) → Orders) (q : Request N U) :
    (runEvents es s).1.solveEff o q = (runEvents (es.filter (fun e => !e.isSolve)) s).1.solveEff o q ∧
    (runEvents es s).1.solveWithHintEff o o' q =
      (runEvents (es.filter (fun e => !e.isSolve)) s).1.solveWithHintEff o o' q :=
  C63_modifiers_irrelevant (run_erase es s s (SameButModifiers.refl s)) o o' q

/-- C63: in particular, after any number of solved requests the answer is the one of the solver as it was first made. -/
theorem C63_reuse (es : List (Event N S U)) (hes : ∀ e ∈ es, e.isSolve = true) (s : DependencySolver N S U) (o : Orders)
    (o' : List (Job N U) → Orders) (q : Request N U) :
    ((runEvents es s).1.solveEff o q).1 = s.solve o q ∧
    ((runEvents es s).1.solveWithHintEff o o' q).1 = s.solveWithHint o o' q := by
  have h : es.filter (fun e => !e.isSolve) = [] := by
    rw [List.filter_eq_nil_iff]
    intro e he
    simp [hes e he]
  have := C63_history_irrelevant es s o o' q
  rw [h] at this
  rw [this.1, this.2, solveWithHintEff_eq]
  exact ⟨rfl, rfl⟩

theorem step_built {rs : List (Repository N S U)} {s : DependencySolver N S U} (h : ∃ m, Built rs m s.pool)
    (e : Event N S U) (hr : ∀ x, (e.step s).2 ≠ .raised x) : ∃ m, Built (rs ++ addedTo [e]) m (e.step s).1.pool := by
  obtain ⟨m, m0, pool0, h1, h2⟩ := h
  have hsolve : ∀ m : Modifiers N, ∃ m', Built (rs ++ []) m' (afterSolve s m).pool := by
    intro m
    rw [List.append_nil]
    exact ⟨_, m0, pool0, h1, by simp only [afterSolve, h2]; rfl⟩
  cases e with
  | solve o q => simp only [Event.step]; rw [solveEff_eq]; exact hsolve _
  | solveWithHint o o' q => simp only [Event.step]; rw [solveWithHintEff_eq]; exact hsolve _
  | setModifiers m => exact ⟨m, m0, pool0, by simpa [addedTo] using h1, by simp only [Event.step, h2]⟩
  | addRemote r => exact ⟨m, m0, pool0, by simpa [addedTo] using h1, h2⟩
  | addInstalled p => exact ⟨m, m0, pool0, by simpa [addedTo] using h1, h2⟩
  | setFlags a b => exact ⟨m, m0, pool0, by simpa [addedTo] using h1, h2⟩
  | addRepository r =>
    have h3 := addRepositories_snoc r rs _ _ h1
    simp only [Event.step] at hr ⊢
    rw [h2, addPackages_setModifiers] at hr ⊢
    rcases hp : Pool.addPackages r.iter pool0 with ⟨pool', _ | e⟩
    · rw [hp] at h3
      exact ⟨m, m0, pool', h3, rfl⟩
    · rw [hp] at hr
      exact absurd rfl (hr e)

theorem addedTo_cons (e : Event N S U) (es : List (Event N S U)) : addedTo (e :: es) = addedTo [e] ++ addedTo es := by
  cases e <;> rfl

/-- C63: after any session in which `add_repository` did not raise, the pool is, but for its modifiers, the one that is
made at once from the repositories it was first made from and those that were added to it, in this order; so the answer to
a request is the one of a solver with that new pool. -/
theorem C63_fresh_pool {rs : List (Repository N S U)} (es : List (Event N S U)) (s : DependencySolver N S U)
    (hs : ∃ m, Built rs m s.pool) (hr : NoneRaised (runEvents es s).2) (m : Option (Modifiers N)) :
    ∃ pool, Pool.addRepositories (rs ++ addedTo es) (Pool.empty m) = (pool, none) ∧
      ∀ o o' q,
        (runEvents es s).1.solveEff o q = ({ (runEvents es s).1 with pool := pool } : DependencySolver N S U).solveEff o q ∧
        (runEvents es s).1.solveWithHintEff o o' q =
          ({ (runEvents es s).1 with pool := pool } : DependencySolver N S U).solveWithHintEff o o' q := by
  have key : ∀ (es : List (Event N S U)) (rs : List (Repository N S U)) (s : DependencySolver N S U),
      (∃ m, Built rs m s.pool) → NoneRaised (runEvents es s).2 →
      ∃ m, Built (rs ++ addedTo es) m (runEvents es s).1.pool := by
    intro es
    induction es with
    | nil => intro rs s h _; rw [addedTo, List.append_nil]; exact h
    | cons e es ih =>
      intro rs s h hr
      have h1 := step_built h e (fun x hx => hr x (by simp only [runEvents]; rw [hx]; exact List.mem_cons_self))
      rw [addedTo_cons, ← List.append_assoc]
      exact ih _ _ h1 (fun x hx => hr x (List.mem_cons_of_mem _ hx))
  obtain ⟨m1, m0, pool0, h1, h2⟩ := key es rs s hs hr
  refine ⟨{ pool0 with modifiers := m }, ?_, ?_⟩
  · have h3 := addRepositories_setModifiers m (rs ++ addedTo es) (Pool.empty m0)
    rw [h1] at h3
    exact h3
  · intro o o' q
    have hsame : SameButModifiers (runEvents es s).1
        { (runEvents es s).1 with
          pool := { pool0 with
            modifiers := m } } := by
      refine ⟨rfl, rfl, rfl, rfl, ?_, ?_, ?_, ?_⟩ <;> rw [h2]
    exact C63_modifiers_irrelevant hsame o o' q

/-- C63: the trace that a solved request leaves: until the modifiers of the pool are set again, a requirement is looked up
in the pool with the modifiers of the last request. -/
theorem C63_lookup_after {rs : List (Repository N S U)} (s : DependencySolver N S U) (hs : ∃ m, Built rs m s.pool)
    (o : Orders) (q : Request N U) (r : Requirement N U) (res : List (Package N S U))
    (h : (s.solveEff o q).2.pool.whatProvides r true = .ok res) (p : Package N S U) :
    p ∈ res ↔ p ∈ allPackages rs ∧ Meets (some q.modifiers) true r p := by
  have hsol : Built rs (activeModifiers q.modifiers) (s.solveEff o q).2.pool := by
    obtain ⟨m, m0, pool0, h1, h2⟩ := hs
    rw [solveEff_eq]
    exact ⟨m0, pool0, h1, by simp only [afterSolve, h2]⟩
  have hmod : (s.solveEff o q).2.pool.modifiers = activeModifiers q.modifiers := by rw [solveEff_eq]; rfl
  rw [mem_whatProvides hsol.ok h p, hmod, meets_active]

/-! ### a concrete session -/

namespace HistoryExample
open Verif.Pkg.Example Verif.Solve.Example

/-- Package 1 in versions 1 and 2, package 2 version 1 that needs package 1 in version 1, and package 3 that needs package
1 in version 2; nothing is installed. -/
def s0 : DependencySolver Nat Str Nat :=
  solver [] [pkg 1 1 1, pkg 1 1 2, pkg 1 2 1 [depc 1 (.equal (v 1))], pkg 1 3 1 [depc 1 (.equal (v 2))]]

/-- package 4 needs package 3 -/
def more : Repository Nat Str Nat := Repository.ofList [pkg 2 4 1 [dep 3]]

/-- Packages 2 and 3 together are impossible, unless the version of package 1 does not matter. -/
def both : Request Nat Nat := request [install (req 2), install (req 3)]
def bothAny : Request Nat Nat :=
  { both with
    modifiers := ⟨[1], [], []⟩ }

def session : List (Event Nat Str Nat) :=
  [.solve insertionOrder both, .solve insertionOrder bothAny, .addRepository more,
    .solveWithHint insertionOrder (fun _ => insertionOrder) both, .setModifiers (some ⟨[], [], [1]⟩)]

/-- an answer that can be compared: was the request solved? -/
def Answer.kind : Answer Nat Str Nat → Option (Option Nat)
  | .none => none
  | .solved (.ok t) => some (some t.operations.length)
  | .solved (.error _) => some none
  | .raised _ => none

theorem s0_built : ∃ m, Built [Repository.ofList [], Repository.ofList [pkg 1 1 1, pkg 1 1 2,
    pkg 1 2 1 [depc 1 (.equal (v 1))], pkg 1 3 1 [depc 1 (.equal (v 2))]]] m s0.pool :=
  ⟨none, none, s0.pool, rfl, rfl⟩

/-- The session: the first request has no solution, the second (with modifiers) has one, the third again has none. -/
example : (runEvents session s0).2.map Answer.kind = [some none, some (some 3), none, some none, none] := by decide +kernel

/-- the hypotheses of `C63_fresh_pool` hold -/
theorem session_ok : NoneRaised (runEvents session s0).2 := by
  have h : (runEvents session s0).2.all (fun a => match a with | .raised _ => false | _ => true) = true := by
    decide +kernel
  intro e he
  have := List.all_eq_true.1 h _ he
  simp at this

example : ∃ pool, Pool.addRepositories ([Repository.ofList [], Repository.ofList [pkg 1 1 1, pkg 1 1 2,
    pkg 1 2 1 [depc 1 (.equal (v 1))], pkg 1 3 1 [depc 1 (.equal (v 2))]]] ++ [more]) (Pool.empty none) = (pool, none) ∧
    ∀ o o' q,
      (runEvents session s0).1.solveEff o q =
        ({ (runEvents session s0).1 with pool := pool } : DependencySolver Nat Str Nat).solveEff o q ∧
      (runEvents session s0).1.solveWithHintEff o o' q =
        ({ (runEvents session s0).1 with pool := pool } : DependencySolver Nat Str Nat).solveWithHintEff o o' q :=
  C63_fresh_pool session s0 s0_built session_ok none

/-- after the session, package 4 can be installed, with packages 3 and 1, although the last request failed and the pool
was left with other modifiers -/
example : Answer.kind (.solved ((runEvents session s0).1.solve insertionOrder (request [install (req 4)]))) =
    some (some 3) := by decide +kernel

/-- the trace in the pool: after the request with modifiers the pool gives more providers for a requirement -/
example : ((s0.pool.whatProvides (req 1 [.equal (v 1)])).toOption.map List.length,
    ((s0.solveEff insertionOrder bothAny).2.pool.whatProvides (req 1 [.equal (v 1)])).toOption.map List.length) =
    (some 1, some 2) := by decide +kernel

end HistoryExample

end Verif.Props
