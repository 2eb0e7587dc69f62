import Verif.Solve.MusCalls
import Verif.Props.Mus
import Verif.Props.Hints
import Mathlib.Data.Nat.Log
/-
Property C115: how often `minimal_unsatisfiable_subset` calls its callback, and `solve_with_hint` calls `solve`, and with what.
-/
set_option linter.unusedSectionVars false
namespace Verif.Props
open Verif Verif.Pkg Verif.Rules Verif.Solve

section
variable {α ε : Type}

/-- the questions asked, the result being the same as without counting -/
theorem minimalUnsatLogged_spec (f : List α → Except ε Bool) (fuel : Nat) : ∀ (clauses incl : List α) (log : List (List α)),
    clauses ≠ [] → ∃ asked : List (List α),
      minimalUnsatEff (logged f) fuel clauses incl log = (minimalUnsat f fuel clauses incl, log ++ asked) ∧
      asked.length ≤ 2 * (clauses.length - 1) ∧ (∀ l ∈ asked, l.Subperm (clauses ++ incl)) ∧
      ∀ r, minimalUnsat f fuel clauses incl = .ok r → r.Sublist clauses ∧
        asked.length ≤ 2 * (r.length * Nat.clog 2 clauses.length) := by
  induction fuel with
  | zero =>
    intro clauses incl log _
    exact ⟨[], by simp [minimalUnsatEff, minimalUnsat], by simp, by simp, by simp [minimalUnsat]⟩
  | succ fuel ih =>
    intro clauses incl log hne
    unfold minimalUnsatEff minimalUnsat
    have hpos : 0 < clauses.length := List.length_pos_iff.2 hne
    split
    · refine ⟨[], by simp, by simp, by simp, ?_⟩
      rintro r hr; cases hr; exact ⟨List.Sublist.refl _, by simp⟩
    · next hl =>
      simp only [logged]
      have hAB : (split clauses).1 ++ (split clauses).2 = clauses := List.take_append_drop _ _
      have hlA : (split clauses).1.length = clauses.length / 2 := by simp [split]; omega
      have hlB : (split clauses).2.length = clauses.length - clauses.length / 2 := by simp [split]
      generalize hA : (split clauses).1 = A at *
      generalize hB : (split clauses).2 = B at *
      have hAne : A ≠ [] := by intro e; subst e; simp at hlA; omega
      have hBne : B ≠ [] := by intro e; subst e; simp at hlB; omega
      have hApos : 0 < A.length := List.length_pos_iff.2 hAne
      have hBpos : 0 < B.length := List.length_pos_iff.2 hBne
      have sA : A.Sublist clauses := by rw [← hAB]; exact List.sublist_append_left _ _
      have sB : B.Sublist clauses := by rw [← hAB]; exact List.sublist_append_right _ _
      have hclog : Nat.clog 2 clauses.length = Nat.clog 2 ((clauses.length + 1) / 2) + 1 := by
        rw [Nat.clog_of_two_le (by decide) (by omega)]; rfl
      have cA : Nat.clog 2 A.length ≤ Nat.clog 2 ((clauses.length + 1) / 2) := Nat.clog_mono_right 2 (by omega)
      have cB : Nat.clog 2 B.length ≤ Nat.clog 2 ((clauses.length + 1) / 2) := Nat.clog_mono_right 2 (by omega)
      have subA : (A ++ incl).Subperm (clauses ++ incl) := (sA.append_right incl).subperm
      have subB : (B ++ incl).Subperm (clauses ++ incl) := (sB.append_right incl).subperm
      generalize Nat.clog 2 ((clauses.length + 1) / 2) = c at *
      have pos1 : ∀ {fuel : Nat} {cl i r : List α}, minimalUnsat f fuel cl i = .ok r → 0 < r.length := by
        intro fuel
        induction fuel with
        | zero => intro cl i r h; simp [minimalUnsat] at h
        | succ fuel ih =>
          intro cl i r h
          unfold minimalUnsat at h
          split at h
          · next h1 => cases h; omega
          · simp only at h
            split at h
            · simp at h
            · exact ih h
            · split at h
              · simp at h
              · exact ih h
              · split at h
                · simp at h
                · next h1 =>
                  split at h
                  · simp at h
                  · next h2 => cases h; rw [List.length_append]; have := ih h1; omega
      cases eA : f (A ++ incl) with
      | error e =>
        refine ⟨[A ++ incl], by simp, ?_, ?_, by simp⟩
        · show 1 ≤ _; omega
        · simpa using subA
      | ok c1 =>
        cases c1 with
        | false =>
          obtain ⟨asked, k1, k2, k3, k4⟩ := ih A incl (log ++ [A ++ incl]) hAne
          refine ⟨(A ++ incl) :: asked, by simp [k1], ?_, ?_, ?_⟩
          · rw [List.length_cons]; omega
          · intro l hl
            rcases List.mem_cons.1 hl with rfl | hl
            · exact subA
            · exact (k3 l hl).trans subA
          · intro r hr
            obtain ⟨h1, h2⟩ := k4 r hr
            refine ⟨h1.trans sA, ?_⟩
            have h3 := pos1 hr
            have h4 := Nat.mul_le_mul_left r.length cA
            rw [hclog, Nat.mul_add, List.length_cons]; omega
        | true =>
          simp only
          cases eB : f (B ++ incl) with
          | error e =>
            refine ⟨[A ++ incl, B ++ incl], by simp, ?_, ?_, by simp⟩
            · show 2 ≤ _; omega
            · simpa using ⟨subA, subB⟩
          | ok c2 =>
            cases c2 with
            | false =>
              obtain ⟨asked, k1, k2, k3, k4⟩ := ih B incl (log ++ [A ++ incl] ++ [B ++ incl]) hBne
              refine ⟨(A ++ incl) :: (B ++ incl) :: asked, by simp only [k1]; simp, ?_, ?_, ?_⟩
              · rw [List.length_cons, List.length_cons]; omega
              · intro l hl
                rcases List.mem_cons.1 hl with rfl | hl
                · exact subA
                rcases List.mem_cons.1 hl with rfl | hl
                · exact subB
                · exact (k3 l hl).trans subB
              · intro r hr
                obtain ⟨h1, h2⟩ := k4 r hr
                refine ⟨h1.trans sB, ?_⟩
                have h3 := pos1 hr
                have h4 := Nat.mul_le_mul_left r.length cB
                rw [hclog, Nat.mul_add, List.length_cons, List.length_cons]; omega
            | true =>
              simp only
              obtain ⟨asked, k1, k2, k3, k4⟩ := ih A (B ++ incl) (log ++ [A ++ incl] ++ [B ++ incl]) hAne
              rw [k1]
              have sub1 : ∀ l ∈ asked, l.Subperm (clauses ++ incl) := by
                intro l hl
                have := k3 l hl
                rwa [← List.append_assoc, hAB] at this
              cases ea : minimalUnsat f fuel A (B ++ incl) with
              | error e =>
                refine ⟨(A ++ incl) :: (B ++ incl) :: asked, by simp, ?_, ?_, by simp⟩
                · rw [List.length_cons, List.length_cons]; omega
                · intro l hl
                  rcases List.mem_cons.1 hl with rfl | hl
                  · exact subA
                  rcases List.mem_cons.1 hl with rfl | hl
                  · exact subB
                  · exact sub1 l hl
              | ok a =>
                obtain ⟨ha1, ha2⟩ := k4 a ea
                have ha3 := pos1 ea
                simp only
                obtain ⟨asked', m1, m2, m3, m4⟩ := ih B (a ++ incl) (log ++ [A ++ incl] ++ [B ++ incl] ++ asked) hBne
                rw [m1]
                have sub2 : ∀ l ∈ asked', l.Subperm (clauses ++ incl) := by
                  intro l hl
                  refine (m3 l hl).trans ?_
                  have p : (B ++ (a ++ incl)).Perm (a ++ B ++ incl) := by
                    rw [← List.append_assoc]; exact List.perm_append_comm.append_right _
                  rw [← hAB]
                  exact p.subperm.trans ((ha1.append_right B).append_right incl).subperm
                have all : ∀ l ∈ (A ++ incl) :: (B ++ incl) :: (asked ++ asked'), l.Subperm (clauses ++ incl) := by
                  intro l hl
                  rcases List.mem_cons.1 hl with rfl | hl
                  · exact subA
                  rcases List.mem_cons.1 hl with rfl | hl
                  · exact subB
                  rcases List.mem_append.1 hl with hl | hl
                  · exact sub1 l hl
                  · exact sub2 l hl
                cases eb : minimalUnsat f fuel B (a ++ incl) with
                | error e =>
                  refine ⟨(A ++ incl) :: (B ++ incl) :: (asked ++ asked'), by simp, ?_, all, by simp⟩
                  rw [List.length_cons, List.length_cons, List.length_append]; omega
                | ok b =>
                  refine ⟨(A ++ incl) :: (B ++ incl) :: (asked ++ asked'), by simp, ?_, all, ?_⟩
                  · rw [List.length_cons, List.length_cons, List.length_append]; omega
                  · intro r hr
                    cases hr
                    obtain ⟨hb1, hb2⟩ := m4 b eb
                    refine ⟨by rw [← hAB]; exact ha1.append hb1, ?_⟩
                    have h4 := Nat.mul_le_mul_left a.length cA
                    have h5 := Nat.mul_le_mul_left b.length cB
                    rw [List.length_cons, List.length_cons, List.length_append, List.length_append, hclog, Nat.mul_add,
                      Nat.add_mul]
                    omega

/-- C115: on `n` clauses (at least one) the callback is called at most `2 n - 1` times, whatever it answers; each time with some of
the clauses, none of them more often than it was given. Counting does not change the result. -/
theorem C115_calls_of_the_callback (f : List α → Except ε Bool) (fuel : Nat) {clauses : List α} (hne : clauses ≠ []) :
    let r := minimalUnsatisfiableSubsetEff (logged f) fuel clauses []
    r.1 = minimalUnsatisfiableSubset f fuel clauses ∧ 1 ≤ r.2.length ∧ r.2.length ≤ 2 * clauses.length - 1 ∧
      ∀ l ∈ r.2, l.Subperm clauses := by
  intro r
  have hpos : 0 < clauses.length := List.length_pos_iff.2 hne
  obtain ⟨asked, k1, k2, k3, -⟩ := minimalUnsatLogged_spec f fuel clauses [] ([] ++ [clauses]) hne
  have hr : r = minimalUnsatisfiableSubsetEff (logged f) fuel clauses [] := rfl
  unfold minimalUnsatisfiableSubsetEff at hr
  unfold minimalUnsatisfiableSubset
  rw [show logged f clauses [] = (f clauses, [] ++ [clauses]) from rfl] at hr
  cases hf : f clauses with
  | error e =>
    rw [hf] at hr; simp only at hr; rw [hr]
    exact ⟨rfl, by simp, by simp; omega, by simpa using List.Subperm.refl clauses⟩
  | ok c =>
    cases c with
    | true =>
      rw [hf] at hr; simp only at hr; rw [hr]
      exact ⟨rfl, by simp, by simp; omega, by simpa using List.Subperm.refl clauses⟩
    | false =>
      rw [hf] at hr; simp only at hr; rw [hr, k1]
      refine ⟨rfl, by simp, by simp; omega, ?_⟩
      intro l hl
      simp only [List.nil_append, List.singleton_append, List.mem_cons] at hl
      rcases hl with rfl | hl
      · exact List.Subperm.refl _
      · simpa using k3 l hl

/-- C115: a small result is found quickly: if it has `k` of the `n` clauses, then the callback is called at most
`1 + 2 k ⌈log₂ n⌉` times. -/
theorem C115_calls_for_a_small_core (f : List α → Except ε Bool) (fuel : Nat) {clauses r : List α} (hne : clauses ≠ [])
    (h : minimalUnsatisfiableSubset f fuel clauses = .ok r) :
    (minimalUnsatisfiableSubsetEff (logged f) fuel clauses []).2.length ≤ 1 + 2 * (r.length * Nat.clog 2 clauses.length) := by
  obtain ⟨asked, k1, -, -, k4⟩ := minimalUnsatLogged_spec f fuel clauses [] ([] ++ [clauses]) hne
  unfold minimalUnsatisfiableSubset at h
  unfold minimalUnsatisfiableSubsetEff
  rw [show logged f clauses [] = (f clauses, [] ++ [clauses]) from rfl]
  cases hf : f clauses with
  | error e => rw [hf] at h; simp at h
  | ok c =>
    rw [hf] at h
    cases c with
    | true => simp at h
    | false =>
      simp only at h ⊢
      rw [k1]
      have := (k4 r h).2
      simp only [List.nil_append, List.singleton_append, List.length_cons]
      omega

end

section
variable {N S U : Type} [LinearOrder N] [DecidableEq S] [LinearOrder U] [Syntax S U]
variable {rs : List (Repository N S U)} {s : DependencySolver N S U}

/-- C115: `solve_with_hint` for a request with `n` jobs (those of the request, unless it is an upgrade) calls `solve` at most `2 n`
times, and once if there are none; first for the request itself, and then for some of its jobs with the same modifiers. -/
theorem C115_calls_of_solve (hs : SolverFor rs s) (o : Orders) (o' : List (Job N U) → Orders) (q : Request N U) :
    let r := s.solveWithHintCalls o o' q
    r.1 = s.solveWithHint o o' q ∧ r.2.length ≤ max 1 (2 * (effectiveJobs s q).length) ∧
      ∃ l, r.2 = q :: l ∧ ∀ q' ∈ l, q'.modifiers = q.modifiers ∧ q'.jobs.Subperm (effectiveJobs s q) := by
  simp only
  unfold DependencySolver.solveWithHintCalls DependencySolver.solveWithHint
  have hd := C40_decides hs o q
  cases hx : s.solve o q with
  | ok t => exact ⟨rfl, Nat.le_max_left _ _, [], rfl, by simp⟩
  | error e =>
    rw [hx] at hd
    match e, hd with
    | .pkg e, _ => exact ⟨rfl, Nat.le_max_left _ _, [], rfl, by simp⟩
    | .sat (.satisfiability u), hd =>
      have hne : effectiveJobs s q ≠ [] := by
        intro h0
        apply hd
        have := canSatisfy_nil rs s q.modifiers
        unfold Solves
        rw [h0]
        exact this
      have hpos : 0 < (effectiveJobs s q).length := List.length_pos_iff.2 hne
      have hjobs : (convertUpgrade q s.remote s.installed).jobs = effectiveJobs s q := rfl
      simp only [convertUpgrade_modifiers, hjobs]
      obtain ⟨k1, -, k3, k4⟩ := C115_calls_of_the_callback (hintCallback s o' q.modifiers) ((effectiveJobs s q).length + 1) hne
      refine ⟨?_, ?_, _, rfl, ?_⟩
      · rw [k1]; rfl
      · rw [List.length_cons, List.length_map]
        refine Nat.le_trans ?_ (Nat.le_max_right _ _)
        omega
      · intro q' hq'
        obtain ⟨l, hl, rfl⟩ := List.mem_map.1 hq'
        exact ⟨rfl, k4 l hl⟩

end

/-! ### concrete cases -/

/-- 5 and 6 conflict: the questions asked about the numbers 1 to 6 (at most 11 and at most 13) -/
def conflicting (l : List Nat) : Except Unit Bool := .ok (!(decide (5 ∈ l) && decide (6 ∈ l)))

example : minimalUnsatisfiableSubsetEff (logged conflicting) 7 [1, 2, 3, 4, 5, 6] [] =
    (.ok [5, 6], [[1, 2, 3, 4, 5, 6], [1, 2, 3], [4, 5, 6], [4], [5, 6], [5], [6]]) := by decide +kernel

/-- the bound of `2 n - 1` is reached -/
example : (minimalUnsatisfiableSubsetEff (logged (ε := Unit) (fun l : List Nat => .ok (decide (l.length < 4)))) 5 [1, 2, 3, 4] []).2 =
    [[1, 2, 3, 4], [1, 2], [3, 4], [1, 3, 4], [2, 3, 4], [3, 1, 2], [4, 1, 2]] := by decide +kernel

section
open Verif.Pkg.Example Verif.Solve.Example SolveExample Verif.Solve.Check

/-- three jobs, of which the last two conflict: `solve` is called 6 times -/
example : ((solver SolveExample.inst SolveExample.remote).solveWithHintCalls insertionOrder (fun _ => insertionOrder)
      (request [remove (req 4), install (req 3), install (req 5)])).2.map Request.jobs =
    [[remove (req 4), install (req 3), install (req 5)], [remove (req 4), install (req 3), install (req 5)], [remove (req 4)],
      [install (req 3), install (req 5)], [install (req 3)], [install (req 5)]] := by decide +kernel

end
end Verif.Props
