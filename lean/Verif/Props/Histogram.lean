import Verif.Props.Logger
import Mathlib.Data.Int.Order.Basic
import Mathlib.Data.List.Basic
/-
Property C73, the order of the lines of the histogram.
-/
namespace Verif.Sat
open Verif

/-- `c.most_common()` in `_log_histogram`: `sorted(c.items(), key=count, reverse=True)`, where `reverse` keeps the order of
equal ones; policy_logger.py:37-40 -/
def Log.mostCommon (log : Log) : List (Int × Nat) := sortBy (fun kv => -(kv.2 : Int)) log.histogram

end Verif.Sat

namespace Verif.Props
open Verif Verif.Sat

theorem insertBy_stable {α κ : Type} [LinearOrder κ] {key : α → κ} {R : α → α → Prop} {x : α} {l : List α}
    (h : l.Pairwise (fun a b => key a < key b ∨ key a = key b ∧ R a b)) (hx : ∀ a ∈ l, R x a) :
    (insertBy key x l).Pairwise (fun a b => key a < key b ∨ key a = key b ∧ R a b) := by
  induction l with
  | nil => simp [insertBy]
  | cons y t ih =>
    unfold insertBy
    rw [List.pairwise_cons] at h
    split
    · next hxy =>
      rw [List.pairwise_cons, List.pairwise_cons]
      refine ⟨fun z hz => ?_, h⟩
      have hle : key x ≤ key z := by
        rcases List.mem_cons.1 hz with rfl | hz'
        · exact hxy
        · rcases h.1 z hz' with h1 | h1
          · exact le_trans hxy (le_of_lt h1)
          · exact h1.1 ▸ hxy
      rcases lt_or_eq_of_le hle with h1 | h1
      · exact .inl h1
      · exact .inr ⟨h1, hx z hz⟩
    · next hxy =>
      rw [List.pairwise_cons]
      refine ⟨fun z hz => ?_, ih h.2 (fun a ha => hx a (List.mem_cons_of_mem _ ha))⟩
      rcases List.mem_cons.1 ((insertBy_perm key x t).mem_iff.1 hz) with rfl | hz
      · exact .inl (lt_of_not_ge hxy)
      · exact h.1 z hz

/-- a stable sort: elements in the order of their keys, and those with the same key in the order in which they were -/
theorem sortBy_stable {α κ : Type} [LinearOrder κ] (key : α → κ) {R : α → α → Prop} {l : List α} (h : l.Pairwise R) :
    (sortBy key l).Pairwise (fun a b => key a < key b ∨ key a = key b ∧ R a b) := by
  induction l with
  | nil => exact List.Pairwise.nil
  | cons x t ih =>
    rw [List.pairwise_cons] at h
    exact insertBy_stable (ih h.2) (fun a ha => h.1 a ((mem_sortBy key t a).1 ha))

theorem mem_sadd' {x y : Int} {l : List Int} : y ∈ sadd x l ↔ y = x ∨ y ∈ l := by
  unfold sadd
  split
  · next h => exact ⟨.inr, fun e => e.elim (fun e => e ▸ h) id⟩
  · simp [or_comm]

/-- the keys of a Counter are in the order of their first occurrences -/
theorem counter_order (l : List Int) :
    (∀ x, x ∈ (l.foldl (fun c x => bump x c) []).map Prod.fst ↔ x ∈ l) ∧
    ((l.foldl (fun c x => bump x c) []).map Prod.fst).Pairwise (fun a b => l.idxOf a < l.idxOf b) := by
  induction l using List.reverseRecOn with
  | nil => simp
  | append_singleton l x ih =>
    rw [List.foldl_append]
    simp only [List.foldl_cons, List.foldl_nil, bump_keys]
    refine ⟨fun y => by rw [mem_sadd', ih.1]; simp [or_comm], ?_⟩
    have hold : ((l.foldl (fun c x => bump x c) []).map Prod.fst).Pairwise
        (fun a b => (l ++ [x]).idxOf a < (l ++ [x]).idxOf b) := by
      refine ih.2.imp_of_mem ?_
      intro a b ha hb hab
      rw [List.idxOf_append_of_mem ((ih.1 a).1 ha), List.idxOf_append_of_mem ((ih.1 b).1 hb)]
      exact hab
    unfold sadd
    split
    · exact hold
    · next hx =>
      rw [List.pairwise_append]
      refine ⟨hold, List.pairwise_singleton _ _, ?_⟩
      intro a ha b hb
      rw [List.mem_singleton] at hb
      subst hb
      rw [List.idxOf_append_of_mem ((ih.1 a).1 ha), List.idxOf_append_of_notMem (fun h => hx ((ih.1 b).2 h))]
      have := List.idxOf_lt_length_of_mem ((ih.1 a).1 ha)
      omega

section
variable {σ : Type}

/-- C73: the lines of the histogram of a search are about the decided variables, each with the number of times it was
decided, those that were decided most often first and, among those that were decided equally often, the one that was decided
first. -/
theorem C73_most_common {pol : Policy σ} {G : List (List Int)} (hG : ∀ c ∈ G, ∀ l ∈ c, l ≠ 0)
    {PI : σ → Prop} (hpol : Reader pol PI) {ps0 : σ} (hps : PI ps0) {req : List Int} {H : List (ASet × Int)} {ps : σ}
    {log : Log} {s : Solver} (h : History (loggedPolicy pol) G (ps0, ⟨req, [], []⟩) H (ps, log) s) :
    (log.mostCommon.map Prod.fst).Nodup ∧
    (∀ v n, 0 < v → ((v, n) ∈ log.mostCommon ↔ 0 < n ∧ n = (H.filter (fun q => decide (q.2 = v ∨ q.2 = -v))).length)) ∧
    log.mostCommon.Pairwise (fun a b => b.2 < a.2 ∨ a.2 = b.2 ∧
      (H.map (fun q => iabs q.2)).idxOf a.1 < (H.map (fun q => iabs q.2)).idxOf b.1) := by
  obtain ⟨hs, -, -⟩ := C73_log_is_faithful hG hpol hps h
  obtain ⟨h1, h2⟩ := C73_histogram hG hpol hps h
  refine ⟨?_, ?_, ?_⟩
  · exact (((sortBy_perm (fun kv : Int × Nat => -(kv.2 : Int)) log.histogram).map Prod.fst).nodup_iff).2 h1
  · intro v n hv
    rw [← h2 v n hv]
    exact mem_sortBy _ _ _
  · have e : log.suggestions.map iabs = H.map (fun q => iabs q.2) := by rw [hs, List.map_map]; rfl
    have h3 := (counter_order (log.suggestions.map iabs)).2
    rw [e, List.pairwise_map] at h3
    have h4 : log.histogram.Pairwise (fun a b => (H.map (fun q => iabs q.2)).idxOf a.1 < (H.map (fun q => iabs q.2)).idxOf b.1) := by
      unfold Log.histogram
      rw [e]
      exact h3
    refine (sortBy_stable (fun kv : Int × Nat => -(kv.2 : Int)) h4).imp ?_
    intro a b hab
    rcases hab with hab | ⟨hab, hr⟩
    · left; omega
    · right; exact ⟨by omega, hr⟩

end

/-! Non-vacuity: the history of `LogExample`, and a log with a variable that is decided twice -/
namespace HistogramEx
open LogExample

example : ∃ H ps s, History (loggedPolicy (rawPolicy ver keep)) G
    (PolState.start [1] [3, 4], Log.empty.addRequirements [3, 4]) H ps s ∧ ps.2.mostCommon = [(1, 1), (4, 1)] := by
  exact ⟨_, _, _, .decision (.conflict (.decision (.start rfl) rfl rfl rfl) rfl rfl) rfl rfl rfl, by decide +kernel⟩

example : ({ required := [], suggestions := [2, 7, -3, 3], changes := [] } : Log).mostCommon = [(3, 2), (2, 1), (7, 1)] := by
  decide +kernel

end HistogramEx

end Verif.Props
