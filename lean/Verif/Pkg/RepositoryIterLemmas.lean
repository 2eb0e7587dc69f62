import Verif.Pkg.RepositoryIter
import Verif.Pkg.RepositoryLemmas
/-
Lemmas about the iteration of a repository that is changed meanwhile.
-/
set_option linter.unusedSectionVars false
namespace Verif.Pkg
open Verif

variable {N S U : Type} [LinearOrder N] [DecidableEq S] [LinearOrder U]

/-- appending to a sorted list and sorting again inserts the new element -/
theorem sortBy_snoc {α κ : Type} [LinearOrder κ] (key : α → κ) (x : α) {l : List α}
    (h : l.Pairwise (fun a b => key a ≤ key b)) :
    ∃ a b, l = a ++ b ∧ sortBy key (l ++ [x]) = a ++ x :: b ∧ (∀ y ∈ a, key y ≤ key x) ∧ ∀ y ∈ b, key x < key y := by
  induction l with
  | nil => exact ⟨[], [], rfl, rfl, by simp, by simp⟩
  | cons y t ih =>
    rw [List.pairwise_cons] at h
    obtain ⟨a, b, e1, e2, h1, h2⟩ := ih h.2
    rw [List.cons_append, sortBy, e2]
    by_cases hyx : key y ≤ key x
    · refine ⟨y :: a, b, by simp [e1], ?_, ?_, h2⟩
      · cases a with
        | nil => simp [insertBy, hyx]
        | cons z a =>
          have := h.1 z (by simp [e1])
          simp [insertBy, this]
      · intro z hz
        rcases List.mem_cons.1 hz with rfl | hz
        · exact hyx
        · exact h1 z hz
    · have ha : a = [] := by
        rw [List.eq_nil_iff_forall_not_mem]
        intro z hz
        exact hyx (le_trans (h.1 z (by simp [e1, hz])) (h1 z hz))
      subst ha
      simp only [List.nil_append] at e1 e2 ⊢
      subst e1
      refine ⟨[], y :: t, rfl, ?_, by simp, ?_⟩
      · simp only [insertBy, hyx, if_false, List.nil_append]
        cases t with
        | nil => rfl
        | cons z t => simp [insertBy, h.1 z (by simp)]
      · intro z hz
        rcases List.mem_cons.1 hz with rfl | hz
        · exact not_le.1 hyx
        · exact h2 z hz

theorem insort_split (x : N) {l : List N} (h : l.Pairwise (· < ·)) :
    ∃ a b, l = a ++ b ∧ insort x l = a ++ x :: b ∧ (∀ y ∈ a, y ≤ x) ∧ ∀ y ∈ b, x < y := by
  induction l with
  | nil => exact ⟨[], [], rfl, rfl, by simp, by simp⟩
  | cons y t ih =>
    rw [List.pairwise_cons] at h
    unfold insort
    split
    · rename_i hxy
      refine ⟨[], y :: t, rfl, rfl, by simp, ?_⟩
      intro z hz
      rcases List.mem_cons.1 hz with rfl | hz
      · exact hxy
      · exact lt_trans hxy (h.1 z hz)
    · rename_i hxy
      obtain ⟨a, b, e1, e2, h1, h2⟩ := ih h.2
      refine ⟨y :: a, b, by simp [e1], by simp [e2], ?_, h2⟩
      intro z hz
      rcases List.mem_cons.1 hz with rfl | hz
      · exact not_lt.1 hxy
      · exact h1 z hz

/-- the lists of a repository after an addition -/
theorem Repository.listOf_add (r : Repository N S U) {l : List (Package N S U)} (h : r.Inv l) (p : Package N S U) :
    (∀ n, n ≠ p.name → (r.addPackage p).listOf n = r.listOf n) ∧
    (∃ a b, r.listOf p.name = a ++ b ∧ (r.addPackage p).listOf p.name = a ++ p :: b ∧
      (∀ q ∈ a, q.version ≤ p.version) ∧ ∀ q ∈ b, p.version < q.version) ∧
    ((p.name ∈ r.names ∧ (r.addPackage p).names = r.names) ∨
      (p.name ∉ r.names ∧ ∃ a b, r.names = a ++ b ∧ (r.addPackage p).names = a ++ p.name :: b ∧
        (∀ n ∈ a, n ≤ p.name) ∧ ∀ n ∈ b, p.name < n)) := by
  have hl : ∀ n, r.listOf n = sortBy Package.version (l.filter (fun p => decide (p.name = n))) := h.get
  have hl' : ∀ n, (r.addPackage p).listOf n =
      sortBy Package.version ((l ++ [p]).filter (fun p => decide (p.name = n))) := (h.add p).get
  refine ⟨?_, ?_, ?_⟩
  · intro n hn
    rw [hl, hl', List.filter_append]
    simp [Ne.symm hn]
  · have e : (r.addPackage p).listOf p.name = sortBy Package.version (r.listOf p.name ++ [p]) := by
      rw [hl', hl, List.filter_append]
      simp only [decide_true, List.filter_cons_of_pos, List.filter_nil]
      rw [sortBy_sortBy_append]
    rw [e]
    exact sortBy_snoc Package.version p (by rw [hl]; exact sortBy_sorted _ _)
  · by_cases hn : p.name ∈ dkeys r.nameToPackages
    · refine Or.inl ⟨(h.keys _).2 hn, ?_⟩
      simp [Repository.addPackage, hn]
    · refine Or.inr ⟨fun hm => hn ((h.keys _).1 hm), ?_⟩
      have : (r.addPackage p).names = insort p.name r.names := by simp [Repository.addPackage, hn]
      rw [this]
      exact insort_split p.name h.sorted

theorem Repository.mem_listOf {r : Repository N S U} {l : List (Package N S U)} (h : r.Inv l) (n : N) (p : Package N S U) :
    p ∈ r.listOf n ↔ p ∈ l ∧ p.name = n := by
  have : r.listOf n = sortBy Package.version (l.filter (fun p => decide (p.name = n))) := h.get n
  rw [this]
  simp

theorem Repository.mem_names {r : Repository N S U} {l : List (Package N S U)} (h : r.Inv l) (n : N) :
    n ∈ r.names ↔ ∃ p ∈ l, p.name = n := by rw [h.keys, h.has]

/-- every name has a package: the loop over the names looks at one name only -/
theorem nextName_eq {r : Repository N S U} {l : List (Package N S U)} (h : r.Inv l) (fuel i : Nat) :
    nextName r (fuel + 1) i = match r.names[i]? with
      | none => (none, ⟨i, none, true⟩)
      | some n => ((r.listOf n)[0]?, ⟨i + 1, some (n, 1), false⟩) := by
  unfold nextName
  cases hn : r.names[i]? with
  | none => rfl
  | some n =>
    simp only
    obtain ⟨p, hp, hpn⟩ := (Repository.mem_names h n).1 (List.mem_of_getElem? hn)
    have hne : (r.listOf n) ≠ [] := List.ne_nil_of_mem ((Repository.mem_listOf h n p).2 ⟨hp, hpn⟩)
    cases hl : r.listOf n with
    | nil => exact absurd hl hne
    | cons q t => rfl

theorem first_listOf {r : Repository N S U} {l : List (Package N S U)} (h : r.Inv l) {i : Nat} {n : N}
    (hn : r.names[i]? = some n) : ∃ p t, r.listOf n = p :: t := by
  obtain ⟨p, hp, hpn⟩ := (Repository.mem_names h n).1 (List.mem_of_getElem? hn)
  have hne : (r.listOf n) ≠ [] := List.ne_nil_of_mem ((Repository.mem_listOf h n p).2 ⟨hp, hpn⟩)
  cases hl : r.listOf n with
  | nil => exact absurd hl hne
  | cons q t => exact ⟨q, t, rfl⟩

/-- an insertion moves no element to the left -/
theorem getElem?_insert_ge {α : Type} (a b : List α) (x y : α) {i : Nat} (h : ∃ k, i ≤ k ∧ (a ++ b)[k]? = some y) :
    ∃ k, i ≤ k ∧ (a ++ x :: b)[k]? = some y := by
  obtain ⟨k, hk, e⟩ := h
  by_cases hka : k < a.length
  · refine ⟨k, hk, ?_⟩
    rw [List.getElem?_append_left hka] at e ⊢
    exact e
  · refine ⟨k + 1, by omega, ?_⟩
    rw [List.getElem?_append_right (by omega)] at e ⊢
    rw [show k + 1 - a.length = (k - a.length) + 1 by omega]
    simpa using e

end Verif.Pkg
