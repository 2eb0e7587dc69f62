import Verif.Props.Solve
import Verif.Props.Mus
/-
Property C50: `solve_with_hint`.
-/
set_option linter.unusedSectionVars false
namespace Verif.Props
open Verif Verif.Pkg Verif.Solve Verif.Rules

variable {N S U : Type} [LinearOrder N] [DecidableEq S] [LinearOrder U] [Syntax S U]
variable {rs : List (Repository N S U)} {s : DependencySolver N S U}

/-! ### callbacks that may raise -/

theorem minimalUnsat_agree {α ε : Type} {cb : List α → Except ε Bool} {f : List α → Bool} {P : α → Prop}
    (hcb : ∀ l b, (∀ x ∈ l, P x) → cb l = .ok b → f l = b) {fuel : Nat} {clauses incl r : List α}
    (h1 : ∀ x ∈ clauses, P x) (h2 : ∀ x ∈ incl, P x) (h : minimalUnsat cb fuel clauses incl = .ok r) :
    minimalUnsat (ε := ε) (fun l => .ok (f l)) fuel clauses incl = .ok r ∧ ∀ x ∈ r, P x := by
  induction fuel generalizing clauses incl r with
  | zero => simp [minimalUnsat] at h
  | succ fuel ih =>
    unfold minimalUnsat at h ⊢
    split at h
    · next hl => rw [if_pos hl]; cases h; exact ⟨rfl, h1⟩
    · next hl =>
      rw [if_neg hl]
      simp only at h ⊢
      have hA : ∀ x ∈ (split clauses).1, P x := fun x hx => h1 x (List.mem_of_mem_take hx)
      have hB : ∀ x ∈ (split clauses).2, P x := fun x hx => h1 x (List.mem_of_mem_drop hx)
      have app : ∀ l l' : List α, (∀ x ∈ l, P x) → (∀ x ∈ l', P x) → ∀ x ∈ l ++ l', P x := by
        intro l l' hl hl' x hx
        rcases List.mem_append.1 hx with hx | hx
        · exact hl x hx
        · exact hl' x hx
      cases eA : cb ((split clauses).1 ++ incl) with
      | error e => rw [eA] at h; simp at h
      | ok bA =>
        rw [hcb _ _ (app _ _ hA h2) eA]
        rw [eA] at h
        cases bA with
        | false => exact ih hA h2 h
        | true =>
          simp only at h ⊢
          cases eB : cb ((split clauses).2 ++ incl) with
          | error e => rw [eB] at h; simp at h
          | ok bB =>
            rw [hcb _ _ (app _ _ hB h2) eB]
            rw [eB] at h
            cases bB with
            | false => exact ih hB h2 h
            | true =>
              simp only at h ⊢
              cases ea : minimalUnsat cb fuel (split clauses).1 ((split clauses).2 ++ incl) with
              | error e => rw [ea] at h; simp at h
              | ok a =>
                obtain ⟨ka, pa⟩ := ih hA (app _ _ hB h2) ea
                rw [ea] at h
                rw [ka]
                simp only at h ⊢
                cases eb : minimalUnsat cb fuel (split clauses).2 (a ++ incl) with
                | error e => rw [eb] at h; simp at h
                | ok b =>
                  obtain ⟨kb, pb⟩ := ih hB (app _ _ pa h2) eb
                  rw [eb] at h
                  rw [kb]
                  simp only [Except.ok.injEq] at h ⊢
                  subst h
                  exact ⟨rfl, app _ _ pa pb⟩

theorem mus_agree {α ε : Type} {cb : List α → Except ε Bool} {f : List α → Bool} {P : α → Prop}
    (hcb : ∀ l b, (∀ x ∈ l, P x) → cb l = .ok b → f l = b) {fuel : Nat} {clauses r : List α}
    (h1 : ∀ x ∈ clauses, P x) (h : minimalUnsatisfiableSubset cb fuel clauses = .ok r) :
    minimalUnsatisfiableSubset (ε := ε) (fun l => .ok (f l)) fuel clauses = .ok r := by
  unfold minimalUnsatisfiableSubset at h ⊢
  cases e : cb clauses with
  | error e' => rw [e] at h; simp at h
  | ok b =>
    rw [e] at h
    simp only [hcb _ _ h1 e]
    cases b with
    | true => simp at h
    | false => exact (minimalUnsat_agree hcb h1 (by simp) h).1

theorem minimalUnsat_fuel {α ε : Type} (cb : List α → Except ε Bool) {fuel : Nat} {clauses incl : List α}
    (hf : clauses.length ≤ fuel) (hne : clauses ≠ []) : minimalUnsat cb fuel clauses incl ≠ .error .outOfFuel := by
  induction fuel generalizing clauses incl with
  | zero => exact absurd (List.length_eq_zero_iff.1 (by omega)) hne
  | succ fuel ih =>
    have hpos : 0 < clauses.length := List.length_pos_iff.2 hne
    unfold minimalUnsat
    split
    · simp
    · next hl =>
      have hlA : (split clauses).1.length = clauses.length / 2 := by simp [split]; omega
      have hlB : (split clauses).2.length = clauses.length - clauses.length / 2 := by simp [split]
      simp only
      generalize hA : (split clauses).1 = A at *
      generalize hB : (split clauses).2 = B at *
      have hAne : A ≠ [] := by intro e; subst e; simp at hlA; omega
      have hBne : B ≠ [] := by intro e; subst e; simp at hlB; omega
      split
      · simp
      · exact ih (by omega) hAne
      · split
        · simp
        · exact ih (by omega) hBne
        · split
          · next e he => intro hh; cases hh; exact ih (by omega) hAne he
          · split
            · next e he => intro hh; cases hh; exact ih (by omega) hBne he
            · simp

theorem minimalUnsat_cb {α ε : Type} {cb : List α → Except ε Bool} {fuel : Nat} {clauses incl : List α} {e : ε}
    (h : minimalUnsat cb fuel clauses incl = .error (.cb e)) : ∃ l, cb l = .error e := by
  induction fuel generalizing clauses incl with
  | zero => simp [minimalUnsat] at h
  | succ fuel ih =>
    unfold minimalUnsat at h
    split at h
    · simp at h
    · simp only at h
      split at h
      · next e' he => cases h; exact ⟨_, he⟩
      · exact ih h
      · split at h
        · next e' he => cases h; exact ⟨_, he⟩
        · exact ih h
        · split at h
          · next e' he => cases h; exact ih he
          · split at h
            · next e' he => cases h; exact ih he
            · simp at h

theorem mus_cb {α ε : Type} {cb : List α → Except ε Bool} {fuel : Nat} {clauses : List α} {e : ε}
    (h : minimalUnsatisfiableSubset cb fuel clauses = .error (.cb e)) : ∃ l, cb l = .error e := by
  unfold minimalUnsatisfiableSubset at h
  split at h
  · next e' he => cases h; exact ⟨_, he⟩
  · simp at h
  · exact minimalUnsat_cb h

/-! ### C50 -/

/-- there is a valid installation for the jobs -/
def CanSatisfy (rs : List (Repository N S U)) (s : DependencySolver N S U) (m : Modifiers N) (jobs : List (Job N U)) : Prop :=
  ∃ I, ValidInstall (allPackages rs) (some m) (InstalledKeys s) jobs I

theorem CanSatisfy.mono {m : Modifiers N} {l l' : List (Job N U)} (h : CanSatisfy rs s m l) (hsub : ∀ j ∈ l', j ∈ l) :
    CanSatisfy rs s m l' := by
  obtain ⟨I, hI⟩ := h
  exact ⟨I, hI.consistent, fun j hj => hI.jobs j (hsub j hj)⟩

theorem canSatisfy_nil (rs : List (Repository N S U)) (s : DependencySolver N S U) (m : Modifiers N) :
    CanSatisfy rs s m [] :=
  ⟨fun _ => False, ⟨fun _ h => h.elim, fun _ h => h.elim, fun _ _ h => h.elim, fun _ h => h.elim⟩, by simp⟩

theorem not_upgrade_of_unsat (hs : SolverFor rs s) {o : Orders} {q : Request N U} {u : Sat.UnsatInfo}
    (h : s.solve o q = .error (.sat (.satisfiability u))) : ∀ j ∈ effectiveJobs s q, j.kind ≠ .upgrade := by
  rw [solve_stages] at h
  cases hc : createRules s o (s.solvePool q) (convertUpgrade q s.remote s.installed) with
  | error e => rw [hc] at h; simp at h
  | ok st => exact fun j hj => ((createRules_spec (hs.solvePool q) hs hc).possible j hj).1

theorem hintCallback_spec (hs : SolverFor rs s) (o : List (Job N U) → Orders) (m : Modifiers N) {jobs : List (Job N U)}
    (hj : ∀ j ∈ jobs, j.kind ≠ .upgrade) {b : Bool} (h : hintCallback s o m jobs = .ok b) :
    b = true ↔ CanSatisfy rs s m jobs := by
  have hd := C40_decides hs (o jobs) ⟨m, jobs⟩
  unfold Solves at hd
  rw [effectiveJobs_plain s (q := ⟨m, jobs⟩) hj] at hd
  unfold hintCallback at h
  cases hx : s.solve (o jobs) ⟨m, jobs⟩ with
  | ok t =>
    rw [hx] at h hd
    cases h
    exact ⟨fun _ => hd, fun _ => rfl⟩
  | error e =>
    rw [hx] at h hd
    match e, h, hd with
    | .sat (.satisfiability u), h, hd =>
      cases h
      exact ⟨fun h => by simp at h, fun h => absurd h hd⟩

theorem hintCallback_err (hs : SolverFor rs s) {o : List (Job N U) → Orders} {m : Modifiers N} {jobs : List (Job N U)}
    {e : SErr N U} (h : hintCallback s o m jobs = .error e) : ∃ e', e = .pkg e' := by
  have hd := C40_decides hs (o jobs) ⟨m, jobs⟩
  unfold hintCallback at h
  cases hx : s.solve (o jobs) ⟨m, jobs⟩ with
  | ok t => rw [hx] at h; simp at h
  | error e0 =>
    rw [hx] at h hd
    match e0, h, hd with
    | .sat (.satisfiability u), h, hd => simp at h
    | .pkg e', h, hd => cases h; exact ⟨e', rfl⟩

/-- C50: the outcomes of `solve_with_hint`: a transaction exactly when `solve` returns it; otherwise, if no valid
installation exists, SatisfiabilityErrorWithHint or an exception of the package layer (which `solve` may raise for some of
the jobs); it raises neither SatisfiabilityError nor UnexpectedlySatisfiable. -/
theorem C50_outcomes (hs : SolverFor rs s) (o : Orders) (o' : List (Job N U) → Orders) (q : Request N U) :
    match s.solveWithHint o o' q with
    | .ok t => s.solve o q = .ok t
    | .error (.hint u _) => s.solve o q = .error (.sat (.satisfiability u))
    | .error (.pkg e) => s.solve o q = .error (.pkg e) ∨
        ((∃ u, s.solve o q = .error (.sat (.satisfiability u))) ∧ ∃ jobs, hintCallback s o' q.modifiers jobs = .error (.pkg e))
    | .error (.sat _) => False
    | .error .unexpectedlySatisfiable => False := by
  unfold DependencySolver.solveWithHint
  have hd := C40_decides hs o q
  cases hx : s.solve o q with
  | ok t => simp only
  | error e =>
    rw [hx] at hd
    match e, hd, hx with
    | .pkg e, hd, hx => simp
    | .sat (.satisfiability u), hd, hx =>
      have hup := not_upgrade_of_unsat hs hx
      simp only [convertUpgrade_modifiers]
      have hjobs : (convertUpgrade q s.remote s.installed).jobs = effectiveJobs s q := rfl
      rw [hjobs]
      cases hm : minimalUnsatisfiableSubset (hintCallback s o' q.modifiers) ((effectiveJobs s q).length + 1)
          (effectiveJobs s q) with
      | ok r => simp
      | error e' =>
        cases e' with
        | unexpectedlySatisfiable =>
          simp only
          rw [C23_unexpectedly_satisfiable_iff] at hm
          exact hd ((hintCallback_spec hs o' q.modifiers hup hm).1 rfl)
        | cb e' =>
          obtain ⟨l, hl⟩ := mus_cb hm
          obtain ⟨e'', rfl⟩ := hintCallback_err hs hl
          exact Or.inr ⟨⟨u, rfl⟩, l, hl⟩
        | outOfFuel =>
          exfalso
          unfold minimalUnsatisfiableSubset at hm
          split at hm
          · simp at hm
          · simp at hm
          · next hcb =>
            refine minimalUnsat_fuel (hintCallback s o' q.modifiers) (by omega) ?_ hm
            intro hnil
            have := (hintCallback_spec hs o' q.modifiers hup hcb).2 (by rw [hnil]; exact canSatisfy_nil rs s q.modifiers)
            simp at this

/-- C50: the jobs that SatisfiabilityErrorWithHint carries are some of those of the request, in the same order; no valid
installation satisfies all of them, but for every smaller selection of them there is one. -/
theorem C50_hint_is_minimal (hs : SolverFor rs s) {o : Orders} {o' : List (Job N U) → Orders} {q : Request N U}
    {u : Sat.UnsatInfo} {jobs : List (Job N U)} (h : s.solveWithHint o o' q = .error (.hint u jobs)) :
    jobs.Sublist (effectiveJobs s q) ∧ ¬ CanSatisfy rs s q.modifiers jobs ∧
      ∀ l : List (Job N U), l.Subperm jobs → l.length < jobs.length → CanSatisfy rs s q.modifiers l := by
  classical
  unfold DependencySolver.solveWithHint at h
  have hd := C40_decides hs o q
  cases hx : s.solve o q with
  | ok t => rw [hx] at h; simp at h
  | error e =>
    rw [hx] at h hd
    match e, h, hd, hx with
    | .pkg e, h, hd, hx => simp at h
    | .sat (.satisfiability u'), h, hd, hx =>
      have hup := not_upgrade_of_unsat hs hx
      simp only [convertUpgrade_modifiers] at h
      have hjobs : (convertUpgrade q s.remote s.installed).jobs = effectiveJobs s q := rfl
      rw [hjobs] at h
      cases hm : minimalUnsatisfiableSubset (hintCallback s o' q.modifiers) ((effectiveJobs s q).length + 1)
          (effectiveJobs s q) with
      | error e' =>
        rw [hm] at h
        cases e' with
        | unexpectedlySatisfiable => simp at h
        | outOfFuel => simp at h
        | cb e' =>
          obtain ⟨l, hl⟩ := mus_cb hm
          obtain ⟨e'', rfl⟩ := hintCallback_err hs hl
          simp at h
      | ok r =>
        rw [hm] at h
        simp only [Except.error.injEq, SErr.hint.injEq] at h
        obtain ⟨rfl, rfl⟩ := h
        have hagree := mus_agree (f := fun l => decide (CanSatisfy rs s q.modifiers l)) (P := fun j => j.kind ≠ .upgrade)
          (cb := hintCallback s o' q.modifiers) (fun l b hl hb => by
            have := hintCallback_spec hs o' q.modifiers hl hb
            cases b <;> simpa using this.symm) hup hm
        have hmono : Monotone (fun l => decide (CanSatisfy rs s q.modifiers l)) := by
          intro l l' hsub hl
          simp only [decide_eq_true_eq] at hl ⊢
          exact hl.mono (fun j hj => hsub.subset hj)
        obtain ⟨r', h1, h2, h3, h4⟩ := C22_minimal_unsatisfiable_subset (ε := SErr N U) hmono
          (by simpa using canSatisfy_nil rs s q.modifiers) (clauses := effectiveJobs s q)
          (by rw [decide_eq_false_iff_not]; exact hd) (fuel := (effectiveJobs s q).length + 1) (by omega)
        rw [hagree] at h1
        cases h1
        exact ⟨h2, by simpa using h3, fun l k1 k2 => by simpa using h4 l k1 k2⟩

/-! ### Concrete cases -/

namespace SolveExample
open Verif.Pkg.Example Verif.Solve.Example Verif.Solve.Check

/-- the jobs that the exception carries -/
def hintOf : Except (SErr Nat Nat) (Transaction Nat Str Nat) → Option (List (Job Nat Nat))
  | .error (.hint _ jobs) => some jobs
  | _ => none

/-- Of the three jobs, the first and the last one are in conflict: the remote package 5-1 conflicts with 3. -/
theorem example_hint : hintOf ((solver inst remote).solveWithHint insertionOrder (fun _ => insertionOrder)
    (request [install (req 3), install (req 1), install (req 5)])) = some [install (req 3), install (req 5)] := by
  decide +kernel

theorem hintOf_some {x : Except (SErr Nat Nat) (Transaction Nat Str Nat)} {jobs : List (Job Nat Nat)}
    (h : hintOf x = some jobs) : ∃ u, x = .error (.hint u jobs) := by
  match x, h with
  | .error (.hint u jobs'), h => cases h; exact ⟨u, rfl⟩

/-- so either of them can be dropped -/
example : CanSatisfy (repos inst remote) (solver inst remote) Modifiers.empty [install (req 5)] := by
  obtain ⟨u, hu⟩ := hintOf_some example_hint
  exact (C50_hint_is_minimal forExample hu).2.2 _ (List.Sublist.subperm (by decide)) (by decide)

example : ¬ CanSatisfy (repos inst remote) (solver inst remote) Modifiers.empty [install (req 3), install (req 5)] := by
  obtain ⟨u, hu⟩ := hintOf_some example_hint
  exact (C50_hint_is_minimal forExample hu).2.1

end SolveExample

end Verif.Props
