import Mathlib.Order.Defs.LinearOrder
import Batteries.Data.List.Perm
/-
Python's `sorted(xs, key=f)` / `list.sort(key=f)`: the stable sort. (Every stable sort by `f` returns the same list:
`sortBy_unique`, so nothing is lost by using an insertion sort.)
-/
set_option linter.unusedSectionVars false
namespace Verif

variable {α κ : Type} [LinearOrder κ]

def insertBy (key : α → κ) (x : α) : List α → List α
  | [] => [x]
  | y :: t => if key x ≤ key y then x :: y :: t else y :: insertBy key x t

def sortBy (key : α → κ) : List α → List α
  | [] => []
  | x :: t => insertBy key x (sortBy key t)

theorem insertBy_perm (key : α → κ) (x : α) (l : List α) : (insertBy key x l).Perm (x :: l) := by
  induction l with
  | nil => exact List.Perm.refl _
  | cons y t ih =>
    unfold insertBy
    split
    · exact List.Perm.refl _
    · exact (List.Perm.cons y ih).trans (List.Perm.swap x y t)

theorem sortBy_perm (key : α → κ) (l : List α) : (sortBy key l).Perm l := by
  induction l with
  | nil => exact List.Perm.refl _
  | cons x t ih => exact (insertBy_perm key x _).trans (List.Perm.cons x ih)

@[simp] theorem mem_sortBy (key : α → κ) (l : List α) (a : α) : a ∈ sortBy key l ↔ a ∈ l := (sortBy_perm key l).mem_iff

@[simp] theorem length_sortBy (key : α → κ) (l : List α) : (sortBy key l).length = l.length :=
  (sortBy_perm key l).length_eq

theorem insertBy_sorted (key : α → κ) (x : α) (l : List α) (h : l.Pairwise (fun a b => key a ≤ key b)) :
    (insertBy key x l).Pairwise (fun a b => key a ≤ key b) := by
  induction l with
  | nil => simp [insertBy]
  | cons y t ih =>
    unfold insertBy
    rw [List.pairwise_cons] at h
    split
    · next hxy =>
      rw [List.pairwise_cons, List.pairwise_cons]
      refine ⟨?_, h.1, h.2⟩
      intro z hz
      rcases List.mem_cons.1 hz with rfl | hz
      · exact hxy
      · exact le_trans hxy (h.1 z hz)
    · next hxy =>
      rw [List.pairwise_cons]
      refine ⟨?_, ih h.2⟩
      intro z hz
      rcases List.mem_cons.1 ((insertBy_perm key x t).mem_iff.1 hz) with rfl | hz
      · exact le_of_not_ge hxy
      · exact h.1 z hz

theorem sortBy_sorted (key : α → κ) (l : List α) : (sortBy key l).Pairwise (fun a b => key a ≤ key b) := by
  induction l with
  | nil => exact List.Pairwise.nil
  | cons x t ih => exact insertBy_sorted key x _ ih

/-- Stability: elements with a given key keep their relative order. -/
theorem insertBy_filter (key : α → κ) (x : α) (l : List α) (k : κ) :
    (insertBy key x l).filter (fun a => decide (key a = k)) = (x :: l).filter (fun a => decide (key a = k)) := by
  induction l with
  | nil => rfl
  | cons y t ih =>
    unfold insertBy
    split
    · rfl
    · next hxy =>
      have hne : key x ≠ key y := fun e => hxy (le_of_eq e)
      rw [List.filter_cons, ih, List.filter_cons, List.filter_cons, List.filter_cons]
      by_cases h1 : key x = k
      · have : key y ≠ k := fun e => hne (h1.trans e.symm)
        simp [h1, this]
      · simp [h1]

theorem sortBy_filter (key : α → κ) (l : List α) (k : κ) :
    (sortBy key l).filter (fun a => decide (key a = k)) = l.filter (fun a => decide (key a = k)) := by
  induction l with
  | nil => rfl
  | cons x t ih =>
    show (insertBy key x (sortBy key t)).filter _ = _
    rw [insertBy_filter, List.filter_cons, ih, List.filter_cons]

/-- two sorted lists with the same elements of each key, in the same order, are equal -/
theorem sorted_filter_ext (key : α → κ) : ∀ (l l' : List α), l.Pairwise (fun a b => key a ≤ key b) →
    l'.Pairwise (fun a b => key a ≤ key b) →
    (∀ k, l.filter (fun a => decide (key a = k)) = l'.filter (fun a => decide (key a = k))) → l = l'
  | [], [], _, _, _ => rfl
  | [], y :: t, _, _, hf => by
    have := hf (key y)
    simp at this
  | x :: t, [], _, _, hf => by
    have := hf (key x)
    simp at this
  | x :: t, y :: s, h, h', hf => by
    have hx : x ∈ (y :: s) := by
      have : x ∈ (y :: s).filter (fun a => decide (key a = key x)) := by rw [← hf]; simp
      exact (List.mem_filter.1 this).1
    have hy : y ∈ (x :: t) := by
      have : y ∈ (x :: t).filter (fun a => decide (key a = key y)) := by rw [hf]; simp
      exact (List.mem_filter.1 this).1
    rw [List.pairwise_cons] at h h'
    have e : key x = key y := by
      apply le_antisymm
      · rcases List.mem_cons.1 hy with e | k
        · rw [e]
        · exact h.1 y k
      · rcases List.mem_cons.1 hx with e | k
        · rw [e]
        · exact h'.1 x k
    have hh := hf (key x)
    rw [List.filter_cons, List.filter_cons] at hh
    simp only [decide_true, if_true, e.symm] at hh
    rw [List.cons.injEq] at hh
    obtain ⟨rfl, -⟩ := hh
    rw [sorted_filter_ext key t s h.2 h'.2]
    intro k
    have := hf k
    rw [List.filter_cons, List.filter_cons] at this
    split at this
    · exact (List.cons.inj this).2
    · exact this

/-- The result of `sortBy` is the only sorted list in which elements of equal key are in their original order. -/
theorem sortBy_unique (key : α → κ) (l l' : List α) (hs : l'.Pairwise (fun a b => key a ≤ key b))
    (hf : ∀ k, l'.filter (fun a => decide (key a = k)) = l.filter (fun a => decide (key a = k))) :
    l' = sortBy key l :=
  sorted_filter_ext key _ _ hs (sortBy_sorted key l) (fun k => by rw [hf, sortBy_filter])

/-- sorting by an injective key forgets the original order -/
theorem sortBy_perm_eq (key : α → κ) {l l' : List α} (h : l.Perm l')
    (hinj : ∀ a ∈ l, ∀ b ∈ l, key a = key b → a = b) : sortBy key l = sortBy key l' := by
  have hp : (sortBy key l).Perm (sortBy key l') := (sortBy_perm key l).trans (h.trans (sortBy_perm key l').symm)
  refine List.Perm.eq_of_pairwise (le := fun a b => key a ≤ key b) ?_ (sortBy_sorted key l) (sortBy_sorted key l') hp
  intro a b ha hb h1 h2
  exact hinj a ((mem_sortBy key l a).1 ha) b (h.mem_iff.2 ((mem_sortBy key l' b).1 hb)) (le_antisymm h1 h2)

end Verif
