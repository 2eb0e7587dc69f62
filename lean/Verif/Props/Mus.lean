import Verif.Solve.Mus
import Batteries.Data.List.Perm
/-
Properties C22 and C23: minimal_unsatisfiable_subset.
`s.Subperm l`: the collection `s` is contained in the collection `l`, in any order, counting repetitions.
-/
namespace Verif.Props
open Verif.Solve

variable {α ε : Type}

/-- A callback that answers (without raising) whether a collection is satisfiable: it does not depend on the order of
the collection, and whatever is contained in a satisfiable collection is satisfiable. -/
def Monotone (f : List α → Bool) : Prop := ∀ s l : List α, s.Subperm l → f l = true → f s = true

/-- `r` is unsatisfiable together with `extra`, and minimal with this property -/
structure MinimalUnsat (f : List α → Bool) (extra r : List α) : Prop where
  unsat : f (r ++ extra) = false
  minimal : ∀ s : List α, s.Subperm r → s.length < r.length → f (s ++ extra) = true

theorem minimalUnsat_spec {f : List α → Bool} (hf : Monotone f) (fuel : Nat) (clauses incl : List α)
    (hfuel : clauses.length ≤ fuel) (hne : clauses ≠ []) (h1 : f (clauses ++ incl) = false) (h2 : f incl = true) :
    ∃ r, minimalUnsat (ε := ε) (fun l => .ok (f l)) fuel clauses incl = .ok r ∧ r.Sublist clauses ∧
      MinimalUnsat f incl r := by
  induction fuel generalizing clauses incl with
  | zero => exact absurd (List.length_eq_zero_iff.1 (by omega)) hne
  | succ fuel ih =>
    unfold minimalUnsat
    have hpos : 0 < clauses.length := List.length_pos_iff.2 hne
    split
    · rename_i hl
      refine ⟨clauses, rfl, List.Sublist.refl _, h1, ?_⟩
      intro s hs hlt
      have : s = [] := List.length_eq_zero_iff.1 (by omega)
      subst this
      simpa using h2
    · rename_i hl
      simp only
      have hAB : (split clauses).1 ++ (split clauses).2 = clauses := List.take_append_drop _ _
      have hlA : (split clauses).1.length = clauses.length / 2 := by simp [split]; omega
      have hlB : (split clauses).2.length = clauses.length - clauses.length / 2 := by simp [split]
      generalize hA : (split clauses).1 = A at *
      generalize hB : (split clauses).2 = B at *
      have hAne : A ≠ [] := by intro e; subst e; simp at hlA; omega
      have hBne : B ≠ [] := by intro e; subst e; simp at hlB; omega
      have sA : A.Sublist clauses := by rw [← hAB]; exact List.sublist_append_left _ _
      have sB : B.Sublist clauses := by rw [← hAB]; exact List.sublist_append_right _ _
      cases eA : f (A ++ incl) with
      | false =>
        obtain ⟨r, k1, k2, k3⟩ := ih A incl (by omega) hAne eA h2
        exact ⟨r, k1, k2.trans sA, k3⟩
      | true =>
        simp only
        cases eB : f (B ++ incl) with
        | false =>
          obtain ⟨r, k1, k2, k3⟩ := ih B incl (by omega) hBne eB h2
          exact ⟨r, k1, k2.trans sB, k3⟩
        | true =>
          simp only
          obtain ⟨a, a1, a2, a3⟩ := ih A (B ++ incl) (by omega) hAne
            (by rw [← List.append_assoc, hAB]; exact h1) eB
          rw [a1]
          simp only
          have hBA : f (B ++ (a ++ incl)) = false := by
            cases hc : f (B ++ (a ++ incl)) with
            | false => rfl
            | true =>
              have := hf (a ++ (B ++ incl)) (B ++ (a ++ incl))
                (by rw [← List.append_assoc, ← List.append_assoc]
                    exact ((List.perm_append_comm).append_right _).subperm) hc
              rw [a3.unsat] at this; cases this
          have hAi : f (a ++ incl) = true :=
            hf _ _ ((a2.append_right incl).subperm) eA
          obtain ⟨b, b1, b2, b3⟩ := ih B (a ++ incl) (by omega) hBne hBA hAi
          rw [b1]
          simp only
          refine ⟨a ++ b, rfl, by rw [← hAB]; exact a2.append b2, ?_, ?_⟩
          · cases hc : f (a ++ b ++ incl) with
            | false => rfl
            | true =>
              have := hf (b ++ (a ++ incl)) (a ++ b ++ incl)
                (by rw [← List.append_assoc]
                    exact ((List.perm_append_comm).append_right _).subperm) hc
              rw [b3.unsat] at this; cases this
          · intro s hs hlt
            obtain ⟨l, hl1, hl2⟩ := hs
            obtain ⟨l1, l2, rfl, s1, s2⟩ := List.sublist_append_iff.1 hl2
            have hlen := hl1.length_eq
            simp only [List.length_append] at hlen hlt
            have hperm : (s ++ incl).Subperm (l1 ++ l2 ++ incl) := ((hl1.symm).append_right _).subperm
            by_cases hc : l1.length < a.length
            · have := a3.minimal l1 s1.subperm hc
              refine hf _ _ (hperm.trans ?_) this
              rw [List.append_assoc]
              exact ((List.Sublist.refl l1).append ((s2.trans b2).append (List.Sublist.refl _))).subperm
            · have := b3.minimal l2 s2.subperm (by omega)
              refine hf _ _ (hperm.trans ?_) this
              have p : (l1 ++ l2 ++ incl).Perm (l2 ++ (l1 ++ incl)) := by
                rw [← List.append_assoc]; exact (List.perm_append_comm).append_right _
              exact p.subperm.trans
                ((List.Sublist.refl l2).append (s1.append (List.Sublist.refl _))).subperm

/-- C22: for a monotone callback that accepts the empty collection and rejects `clauses`, the result is a
sub-sequence of `clauses` that the callback rejects, and every smaller collection contained in it is accepted. The depth
of the recursion is at most the number of clauses. -/
theorem C22_minimal_unsatisfiable_subset {f : List α → Bool} (hf : Monotone f) (h0 : f [] = true) {clauses : List α}
    (h : f clauses = false) {fuel : Nat} (hfuel : clauses.length ≤ fuel) :
    ∃ r, minimalUnsatisfiableSubset (ε := ε) (fun l => .ok (f l)) fuel clauses = .ok r ∧ r.Sublist clauses ∧
      f r = false ∧ ∀ s : List α, s.Subperm r → s.length < r.length → f s = true := by
  unfold minimalUnsatisfiableSubset
  simp only [h]
  have hne : clauses ≠ [] := by rintro rfl; rw [h0] at h; cases h
  obtain ⟨r, k1, k2, k3⟩ := minimalUnsat_spec (ε := ε) hf fuel clauses [] hfuel hne (by simpa using h) h0
  exact ⟨r, k1, k2, by simpa using k3.unsat, fun s h1 h2 => by simpa using k3.minimal s h1 h2⟩

/-- Why C22 asks the callback to accept the empty collection: otherwise the call on no clauses does not end. -/
theorem C22_empty_input_diverges {f : List α → Bool} (h0 : f [] = false) (fuel : Nat) :
    minimalUnsatisfiableSubset (ε := ε) (fun l => .ok (f l)) fuel [] = .error .outOfFuel := by
  unfold minimalUnsatisfiableSubset
  simp only [h0]
  induction fuel with
  | zero => rfl
  | succ fuel ih => unfold minimalUnsat; simp [split, h0, ih]

theorem minimalUnsat_no_unexpected (callback : List α → Except ε Bool) (fuel : Nat) (clauses incl : List α) :
    minimalUnsat callback fuel clauses incl ≠ .error .unexpectedlySatisfiable := by
  induction fuel generalizing clauses incl with
  | zero => unfold minimalUnsat; simp
  | succ fuel ih =>
    unfold minimalUnsat
    split
    · simp
    · simp only
      split
      · simp
      · exact ih _ _
      · split
        · simp
        · exact ih _ _
        · split
          · rename_i e he; intro hh; cases hh; exact ih _ _ he
          · split
            · rename_i e he; intro hh; cases hh; exact ih _ _ he
            · simp

/-- C23: `UnexpectedlySatisfiable` is raised exactly when the callback accepts the whole input. -/
theorem C23_unexpectedly_satisfiable_iff (callback : List α → Except ε Bool) (fuel : Nat) (clauses : List α) :
    minimalUnsatisfiableSubset callback fuel clauses = .error .unexpectedlySatisfiable ↔ callback clauses = .ok true := by
  unfold minimalUnsatisfiableSubset
  cases h : callback clauses with
  | error e => simp
  | ok b =>
    cases b with
    | true => simp
    | false => simp only; simpa using minimalUnsat_no_unexpected callback fuel clauses []

/-- an exception that the callback raises on the whole input is passed on -/
theorem C23_callback_exception (callback : List α → Except ε Bool) (fuel : Nat) (clauses : List α) {e : ε}
    (h : callback clauses = .error e) : minimalUnsatisfiableSubset callback fuel clauses = .error (.cb e) := by
  unfold minimalUnsatisfiableSubset; rw [h]

/-! #### non-vacuity: numbers, unsatisfiable when they sum to 10 or more -/
def sumOk (l : List Nat) : Bool := decide (l.sum < 10)
example : Monotone sumOk := by
  intro s l ⟨l', h1, h2⟩ h
  simp only [sumOk, decide_eq_true_eq] at *
  have : l'.sum ≤ l.sum := by
    clear h1 h
    induction h2 with
    | slnil => simp
    | cons _ _ ih => simp; omega
    | cons_cons _ _ ih => simp; omega
  have := h1.sum_nat
  omega
example : sumOk [] = true ∧ sumOk [3, 4, 1, 5, 2] = false := by decide
example : minimalUnsatisfiableSubset (ε := Unit) (fun l => .ok (sumOk l)) 5 [3, 4, 1, 5, 2] = .ok [3, 5, 2] := rfl

end Verif.Props
