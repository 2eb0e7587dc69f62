import Verif.Graph.Model
import Verif.Graph.Spec
/-
Lemmas about connected_nodes.
-/
set_option linter.unusedSectionVars false
namespace Verif.Graph
open Verif Relation

variable {α ε : Type} [DecidableEq α]

/-- number of members of `U` not in `l` -/
def missing (U l : List α) : Nat := (U.filter (fun x => decide (x ∉ l))).length

theorem missing_lt {U l l' : List α} (h : ∀ x ∈ l, x ∈ l') {y : α} (hy : y ∈ U) (h1 : y ∉ l) (h2 : y ∈ l') :
    missing U l' < missing U l := by
  unfold missing
  induction U with
  | nil => simp at hy
  | cons a U ih =>
    have hle : ∀ U : List α, (U.filter (fun x => decide (x ∉ l'))).length ≤ (U.filter (fun x => decide (x ∉ l))).length := by
      intro U
      induction U with
      | nil => simp
      | cons a U ih =>
        simp only [List.filter_cons, decide_eq_true_eq]
        by_cases ha : a ∈ l
        · have := h a ha; simp [ha, this]; simpa using ih
        · by_cases ha' : a ∈ l'
          · simp [ha, ha']; have := ih; simp at this; omega
          · simp [ha, ha']; simpa using ih
    simp only [List.filter_cons, decide_eq_true_eq]
    rcases List.mem_cons.1 hy with rfl | hy
    · simp [h1, h2]
      have := hle U
      simp at this; omega
    · have := ih hy
      by_cases ha : a ∈ l
      · have hh := h a ha; simp [ha, hh]; simpa using this
      · by_cases ha' : a ∈ l'
        · simp [ha, ha']; have := hle U; simp at this; omega
        · simp [ha, ha']; simpa using this

theorem missing_le (U l : List α) : missing U l ≤ U.length := List.length_filter_le _ _

structure ConnInv (f : α → Except ε (List α)) (n : α) (V0 queue visited : List α) : Prop where
  disj : ∀ x ∈ queue, x ∉ visited
  nd : queue.Nodup
  qreach : ∀ x ∈ queue, ReflTransGen (Step f) n x
  vreach : ∀ x ∈ visited, x ∈ V0 ∨ ReflTransGen (Step f) n x
  base : ∀ x ∈ V0, x ∈ visited
  start : n ∈ visited
  proc : ∀ x ∈ visited, x ∉ V0 ∨ x = n → ∃ nb, f x = .ok nb ∧ ∀ y ∈ nb, y ∈ visited ∨ y ∈ queue

/-- one turn of the loop from a node of the queue -/
theorem ConnInv.step {f : α → Except ε (List α)} {n : α} {V0 queue visited : List α} (h : ConnInv f n V0 queue visited)
    {x : α} (hx : x ∈ queue) {nb : List α} (hf : f x = .ok nb) :
    ConnInv f n V0 (supdate (nb.filter (fun y => decide (y ∉ sadd x visited))) (sdiscard x queue)) (sadd x visited) where
  disj := by
    intro y hy
    simp only [mem_supdate, List.mem_filter, decide_eq_true_eq, mem_sdiscard] at hy
    rcases hy with hy | hy
    · exact hy.2
    · simp only [mem_sadd]; rintro (k | k)
      · exact hy.2 k
      · exact h.disj y hy.1 k
  nd := nodup_supdate _ _ (nodup_sdiscard _ _ h.nd)
  qreach := by
    intro y hy
    simp only [mem_supdate, List.mem_filter, mem_sdiscard] at hy
    rcases hy with hy | hy
    · exact (h.qreach x hx).tail ⟨nb, hf, hy.1⟩
    · exact h.qreach y hy.1
  vreach := by
    intro y hy
    simp only [mem_sadd] at hy
    rcases hy with rfl | hy
    · exact Or.inr (h.qreach _ hx)
    · exact h.vreach y hy
  base := fun y hy => by simp [h.base y hy]
  start := by simp [h.start]
  proc := by
    intro y hy hc
    simp only [mem_sadd] at hy
    by_cases hyx : y = x
    · subst hyx
      refine ⟨nb, hf, ?_⟩
      intro z hz
      by_cases hzv : z ∈ sadd y visited
      · exact Or.inl hzv
      · exact Or.inr (by simp only [mem_supdate, List.mem_filter, decide_eq_true_eq]; exact Or.inl ⟨hz, hzv⟩)
    · obtain ⟨nb', h1, h2⟩ := h.proc y (hy.resolve_left hyx) hc
      refine ⟨nb', h1, ?_⟩
      intro z hz
      rcases h2 z hz with k | k
      · exact Or.inl (by simp [k])
      · by_cases hzx : z = x
        · exact Or.inl (by simp [hzx])
        · exact Or.inr (by simp [k, hzx])

theorem connectedLoop_spec (pop : PopOrder α) (f : α → Except ε (List α)) {n : α} {V0 U : List α}
    (hU : ∀ x, ReflTransGen (Step f) n x → x ∈ U) (fuel : Nat) {queue visited : List α}
    (h : ConnInv f n V0 queue visited) (hf : missing U visited < fuel) :
    (∃ l, connectedLoop pop f fuel queue visited = some (.ok l) ∧ ConnInv f n V0 [] l) ∨
    (∃ x e, connectedLoop pop f fuel queue visited = some (.error e) ∧ ReflTransGen (Step f) n x ∧ f x = .error e) := by
  induction fuel generalizing queue visited with
  | zero => omega
  | succ fuel ih =>
    unfold connectedLoop
    split
    · rename_i hq
      subst hq
      exact Or.inl ⟨visited, rfl, h⟩
    · rename_i hq
      simp only
      have hx := pop.mem fuel queue hq
      generalize pop.pick fuel queue = x at hx
      cases hfx : f x with
      | error e => exact Or.inr ⟨x, e, by simp, h.qreach x hx, hfx⟩
      | ok nb =>
        simp only
        refine ih (h.step hx hfx) ?_
        have := missing_lt (U := U) (l := visited) (l' := sadd x visited) (fun y hy => by simp [hy])
          (hU x (h.qreach x hx)) (h.disj x hx) (by simp)
        omega

theorem connectedNodes_spec (pop : PopOrder α) (f : α → Except ε (List α)) {n : α} {V0 U : List α}
    (hU : ∀ x, ReflTransGen (Step f) n x → x ∈ U) {fuel : Nat} (hf : U.length + 1 < fuel) :
    (∃ l, connectedNodes pop f fuel n V0 = some (.ok l) ∧ ConnInv f n V0 [] l) ∨
    (∃ x e, connectedNodes pop f fuel n V0 = some (.error e) ∧ ReflTransGen (Step f) n x ∧ f x = .error e) := by
  obtain ⟨fuel, rfl⟩ : ∃ k, fuel = k + 1 := ⟨fuel - 1, by omega⟩
  unfold connectedNodes connectedLoop
  rw [if_neg (by simp)]
  have hx : pop.pick fuel [n] = n := by simpa using pop.mem fuel [n] (by simp)
  simp only [hx]
  cases hfx : f n with
  | error e => exact Or.inr ⟨n, e, by simp, .refl, hfx⟩
  | ok nb =>
    simp only
    have hsd : sdiscard n [n] = [] := by simp [sdiscard]
    rw [hsd]
    refine connectedLoop_spec pop f hU fuel ?_ (by have := missing_le U (sadd n V0); omega)
    refine ⟨?_, nodup_supdate _ _ List.nodup_nil, ?_, ?_, ?_, by simp, ?_⟩
    · intro y hy; simp at hy; simp [hy.2]
    · intro y hy; simp at hy; exact .single ⟨nb, hfx, hy.1⟩
    · intro y hy; simp at hy; rcases hy with rfl | hy
      · exact Or.inr .refl
      · exact Or.inl hy
    · intro y hy; simp [hy]
    · intro y hy hc
      have hyn : y = n := by
        simp at hy
        rcases hc with hc | hc
        · exact hy.resolve_right hc
        · exact hc
      subst hyn
      refine ⟨nb, hfx, ?_⟩
      intro z hz
      by_cases hzv : z ∈ sadd y V0
      · exact Or.inl hzv
      · exact Or.inr (by simp only [mem_supdate, List.mem_filter, decide_eq_true_eq]; exact Or.inl ⟨hz, hzv⟩)

end Verif.Graph
