import Verif.Graph.Connected
import Verif.Graph.Lazy
/-
Lemmas about the calls of `neighbor_func` in `connected_nodes`.
-/
set_option linter.unusedSectionVars false
namespace Verif.Graph
open Verif Relation

variable {α ε : Type} [DecidableEq α]

theorem connectedLoopLog_fst (pop : PopOrder α) (f : α → Except ε (List α)) :
    ∀ (fuel : Nat) (queue visited : List α),
      (connectedLoopLog pop f fuel queue visited).1 = connectedLoop pop f fuel queue visited
  | 0, _, _ => rfl
  | fuel + 1, queue, visited => by
    unfold connectedLoopLog connectedLoop
    split
    · rfl
    · simp only
      cases f (pop.pick fuel queue) with
      | error e => rfl
      | ok nb => exact connectedLoopLog_fst pop f fuel _ _

/-- nodes that are visited already may as well not be neighbours -/
def shun (f : α → Except ε (List α)) (V : List α) (x : α) : Except ε (List α) :=
  match f x with
  | .error e => .error e
  | .ok nb => .ok (nb.filter (fun y => decide (y ∉ V)))

theorem step_shun {f : α → Except ε (List α)} {V : List α} {x y : α} : Step (shun f V) x y ↔ Step f x y ∧ y ∉ V := by
  unfold Step shun
  constructor
  · rintro ⟨nb, h1, h2⟩
    split at h1
    · cases h1
    · rename_i nb' h3
      cases h1
      simp only [List.mem_filter, decide_eq_true_eq] at h2
      exact ⟨⟨nb', h3, h2.1⟩, h2.2⟩
  · rintro ⟨⟨nb, h1, h2⟩, h3⟩
    exact ⟨nb.filter (fun y => decide (y ∉ V)), by rw [h1], by simp [h2, h3]⟩

theorem connectedLoopLog_shun (pop : PopOrder α) (f : α → Except ε (List α)) (V : List α) :
    ∀ (fuel : Nat) (queue visited : List α), (∀ x ∈ V, x ∈ visited) →
      connectedLoopLog pop (shun f V) fuel queue visited = connectedLoopLog pop f fuel queue visited
  | 0, _, _, _ => rfl
  | fuel + 1, queue, visited, hV => by
    unfold connectedLoopLog
    split
    · rfl
    · simp only [shun]
      cases hfx : f (pop.pick fuel queue) with
      | error e => rfl
      | ok nb =>
        simp only
        have e : (nb.filter (fun y => decide (y ∉ V))).filter
            (fun x => decide (x ∉ sadd (pop.pick fuel queue) visited)) =
            nb.filter (fun x => decide (x ∉ sadd (pop.pick fuel queue) visited)) := by
          rw [List.filter_filter]
          refine List.filter_congr ?_
          intro y _
          by_cases h : y ∈ V
          · have := hV y h; simp [this]
          · simp [h]
        rw [e, connectedLoopLog_shun pop f V fuel _ _ (fun x hx => by simp [hV x hx])]

/-- the calls of the loop -/
theorem connectedLoopLog_calls (pop : PopOrder α) (f : α → Except ε (List α)) :
    ∀ (fuel : Nat) (queue visited : List α), (∀ x ∈ queue, x ∉ visited) →
      (connectedLoopLog pop f fuel queue visited).2.Nodup ∧
      (∀ x ∈ (connectedLoopLog pop f fuel queue visited).2, x ∉ visited) ∧
      ∀ l, (connectedLoopLog pop f fuel queue visited).1 = some (.ok l) →
        ∀ x, x ∈ l ↔ x ∈ visited ∨ x ∈ (connectedLoopLog pop f fuel queue visited).2
  | 0, _, _, _ => by simp [connectedLoopLog]
  | fuel + 1, queue, visited, hd => by
    unfold connectedLoopLog
    split
    · simp
    · rename_i hq
      have hx := pop.mem fuel queue hq
      generalize pop.pick fuel queue = x at hx
      simp only
      cases hfx : f x with
      | error e => simpa using hd x hx
      | ok nb =>
        simp only
        obtain ⟨h1, h2, h3⟩ := connectedLoopLog_calls pop f fuel
          (supdate (nb.filter (fun y => decide (y ∉ sadd x visited))) (sdiscard x queue)) (sadd x visited) (by
            intro y hy
            simp only [mem_supdate, List.mem_filter, decide_eq_true_eq, mem_sdiscard] at hy
            rcases hy with hy | hy
            · exact hy.2
            · simp only [mem_sadd]; rintro (k | k)
              · exact hy.2 k
              · exact hd y hy.1 k)
        generalize connectedLoopLog pop f fuel
          (supdate (nb.filter (fun y => decide (y ∉ sadd x visited))) (sdiscard x queue)) (sadd x visited) = r at h1 h2 h3
        refine ⟨?_, ?_, ?_⟩
        · rw [List.nodup_cons]
          exact ⟨fun hm => h2 x hm (by simp), h1⟩
        · intro y hy
          rcases List.mem_cons.1 hy with rfl | hy
          · exact hd y hx
          · exact fun hm => h2 y hy (by simp [hm])
        · intro l hl y
          rw [h3 l hl y]
          simp only [mem_sadd, List.mem_cons]
          constructor
          · rintro ((k | k) | k) <;> simp [k]
          · rintro (k | k | k) <;> simp [k]

end Verif.Graph
