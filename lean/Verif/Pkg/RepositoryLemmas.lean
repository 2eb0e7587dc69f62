import Verif.Pkg.Repository
/-
The repository after a sequence of additions.
-/
set_option linter.unusedSectionVars false
namespace Verif

variable {α κ : Type} [LinearOrder κ]

theorem sortBy_of_sorted (key : α → κ) {l : List α} (h : l.Pairwise (fun a b => key a ≤ key b)) : sortBy key l = l :=
  (sortBy_unique key l l h (fun _ => rfl)).symm

/-- sorting again after an addition at the end is sorting everything -/
theorem sortBy_sortBy_append (key : α → κ) (l l' : List α) : sortBy key (sortBy key l ++ l') = sortBy key (l ++ l') := by
  apply sortBy_unique
  · exact sortBy_sorted _ _
  · intro k
    rw [sortBy_filter, List.filter_append, sortBy_filter, List.filter_append]

theorem sortBy_filter_comm (key : α → κ) (l : List α) (p : α → Bool) :
    (sortBy key l).filter p = sortBy key (l.filter p) := by
  apply sortBy_unique
  · exact (sortBy_sorted key l).filter _
  · intro k
    rw [List.filter_filter, List.filter_filter]
    have : ∀ m : List α, m.filter (fun a => decide (key a = k) && p a) =
        (m.filter (fun a => decide (key a = k))).filter p := by
      intro m; rw [List.filter_filter]; congr 1; funext a; rw [Bool.and_comm]
    rw [this, sortBy_filter, ← this]

end Verif

namespace Verif.Pkg
open Verif

variable {N S U : Type} [LinearOrder N] [DecidableEq S] [LinearOrder U]

theorem mem_insort (x y : N) (l : List N) : y ∈ insort x l ↔ y = x ∨ y ∈ l := by
  induction l with
  | nil => simp [insort]
  | cons z t ih =>
    unfold insort
    split
    · simp
    · simp only [List.mem_cons, ih]
      constructor
      · rintro (h | h | h)
        · exact Or.inr (Or.inl h)
        · exact Or.inl h
        · exact Or.inr (Or.inr h)
      · rintro (h | h | h)
        · exact Or.inr (Or.inl h)
        · exact Or.inl h
        · exact Or.inr (Or.inr h)

theorem insort_sorted {x : N} {l : List N} (h : l.Pairwise (· < ·)) (hx : x ∉ l) : (insort x l).Pairwise (· < ·) := by
  induction l with
  | nil => simp [insort]
  | cons y t ih =>
    rw [List.pairwise_cons] at h
    unfold insort
    split
    · next hxy =>
      rw [List.pairwise_cons, List.pairwise_cons]
      refine ⟨?_, h.1, h.2⟩
      intro z hz
      rcases List.mem_cons.1 hz with rfl | hz
      · exact hxy
      · exact lt_trans hxy (h.1 z hz)
    · next hxy =>
      rw [List.pairwise_cons]
      refine ⟨?_, ih h.2 (fun k => hx (by simp [k]))⟩
      intro z hz
      rcases (mem_insort x z t).1 hz with rfl | hz
      · exact lt_of_le_of_ne (not_lt.1 hxy) (fun e => hx (by simp [e]))
      · exact h.1 z hz

namespace Repository

/-- The contents of the repository after adding the packages of `l`, in that order. -/
structure Inv (r : Repository N S U) (l : List (Package N S U)) : Prop where
  sorted : r.names.Pairwise (· < ·)
  keys : ∀ n, n ∈ r.names ↔ n ∈ dkeys r.nameToPackages
  get : ∀ n, (dget r.nameToPackages n).getD [] = sortBy Package.version (l.filter (fun p => decide (p.name = n)))
  has : ∀ n, n ∈ dkeys r.nameToPackages ↔ ∃ p ∈ l, p.name = n
  len : r.len = l.length

theorem sumLen_dset (d : Dict N (List (Package N S U))) (k : N) (v : List (Package N S U)) :
    ((dset d k v).map (fun kv => kv.2.length)).sum + ((dget d k).getD []).length =
      (d.map (fun kv => kv.2.length)).sum + v.length := by
  induction d with
  | nil => simp [dset, dget]
  | cons kv t ih =>
    unfold dset dget
    split
    · simp only [List.map_cons, List.sum_cons, Option.getD_some]; omega
    · simp only [List.map_cons, List.sum_cons]; omega

theorem Inv.add {r : Repository N S U} {l : List (Package N S U)} (h : r.Inv l) (p : Package N S U) :
    (r.addPackage p).Inv (l ++ [p]) := by
  have hd : ∀ n, (dget (dsetdefault r.nameToPackages p.name []) n).getD [] = (dget r.nameToPackages n).getD [] := by
    intro n
    unfold dsetdefault
    split
    · rfl
    · next e =>
      rw [dget_dset]
      split
      · next e2 => subst e2; rw [e]; rfl
      · rfl
  have hk : ∀ n, n ∈ dkeys (dsetdefault r.nameToPackages p.name []) ∨ n = p.name ↔ n ∈ dkeys r.nameToPackages ∨ n = p.name := by
    intro n
    unfold dsetdefault
    split
    · rfl
    · next e =>
      rw [dkeys_dset]
      split
      · rfl
      · simp
  have hkeys : ∀ n, n ∈ dkeys (r.addPackage p).nameToPackages ↔ n ∈ dkeys r.nameToPackages ∨ n = p.name := by
    intro n
    rw [← hk n]
    unfold addPackage
    simp only
    rw [dkeys_dset]
    split
    · next hm => 
      constructor
      · exact Or.inl
      · rintro (g | rfl)
        · exact g
        · exact hm
    · simp
  constructor
  · unfold addPackage
    simp only
    split
    · next hn => exact insort_sorted h.sorted (fun hm => hn ((h.keys _).1 hm))
    · exact h.sorted
  · intro n
    rw [hkeys]
    unfold addPackage
    simp only
    split
    · rw [mem_insort, h.keys]
      exact Or.comm
    · next hn =>
      rw [h.keys]
      constructor
      · exact Or.inl
      · rintro (g | rfl)
        · exact g
        · exact Classical.not_not.1 hn
  · intro n
    unfold addPackage
    simp only
    rw [dget_dset]
    split
    · next e =>
      subst e
      simp only [Option.getD_some]
      rw [hd, h.get, sortBy_sortBy_append, List.filter_append]
      simp
    · next e =>
      rw [hd, h.get, List.filter_append]
      simp [e]
  · intro n
    rw [hkeys, h.has]
    simp only [List.mem_append, List.mem_singleton]
    constructor
    · rintro (⟨q, hq, e⟩ | rfl)
      · exact ⟨q, Or.inl hq, e⟩
      · exact ⟨p, Or.inr rfl, rfl⟩
    · rintro ⟨q, hq | rfl, rfl⟩
      · exact Or.inl ⟨q, hq, rfl⟩
      · exact Or.inr rfl
  · have e1 : ∀ d : Dict N (List (Package N S U)),
        ((dsetdefault d p.name []).map (fun kv => kv.2.length)).sum = (d.map (fun kv => kv.2.length)).sum := by
      intro d
      unfold dsetdefault
      split
      · rfl
      · next e =>
        have := sumLen_dset d p.name []
        rw [e] at this
        simpa using this
    have hl := h.len
    unfold Repository.len at hl ⊢
    unfold addPackage
    simp only
    have e2 := sumLen_dset (dsetdefault r.nameToPackages p.name []) p.name
        (sortBy Package.version ((dget (dsetdefault r.nameToPackages p.name []) p.name).getD [] ++ [p]))
    rw [e1, hl] at e2
    simp only [length_sortBy, List.length_append, List.length_cons, List.length_nil] at e2 ⊢
    omega

theorem Inv.empty : (Repository.empty : Repository N S U).Inv [] := by
  constructor <;> simp [Repository.empty, dkeys, dget, Repository.len, sortBy]

theorem Inv.update {r : Repository N S U} {l : List (Package N S U)} (h : r.Inv l) (ps : List (Package N S U)) :
    (r.update ps).Inv (l ++ ps) := by
  induction ps generalizing r l with
  | nil => simpa [Repository.update] using h
  | cons p ps ih =>
    have := ih (h.add p)
    rw [List.append_assoc] at this
    exact this

theorem inv_ofList (l : List (Package N S U)) : (Repository.ofList l).Inv l := by
  have := (Inv.empty (N := N) (S := S) (U := U)).update l
  rw [List.nil_append] at this
  exact this

/-- Iteration is the stable sort of the added packages by version, then by name. -/
theorem Inv.iter {r : Repository N S U} {l : List (Package N S U)} (h : r.Inv l) :
    r.iter = sortBy Package.name (sortBy Package.version l) := by
  have hmem : ∀ n, ∀ p ∈ (dget r.nameToPackages n).getD [], p.name = n := by
    intro n p hp
    rw [h.get] at hp
    simp at hp
    exact hp.2
  apply sortBy_unique
  · unfold Repository.iter
    have hs := h.sorted
    generalize r.names = ns at hs
    induction ns with
    | nil => simp
    | cons n ns ih =>
      rw [List.pairwise_cons] at hs
      rw [List.flatMap_cons, List.pairwise_append]
      refine ⟨?_, ih hs.2, ?_⟩
      · rw [List.pairwise_iff_forall_sublist]
        intro a b hab
        have ha := hmem n a (hab.subset (by simp))
        have hb := hmem n b (hab.subset (by simp))
        rw [ha, hb]
      · intro a ha b hb
        rw [List.mem_flatMap] at hb
        obtain ⟨n', hn', hb⟩ := hb
        rw [hmem n a ha, hmem n' b hb]
        exact le_of_lt (hs.1 n' hn')
  · intro k
    rw [sortBy_filter_comm, ← h.get]
    unfold Repository.iter
    have hs := h.sorted
    have hkk := h.keys k
    have : ∀ ns : List N, ns.Pairwise (· < ·) →
        (ns.flatMap (fun n => (dget r.nameToPackages n).getD [])).filter (fun p => decide (p.name = k)) =
          if k ∈ ns then (dget r.nameToPackages k).getD [] else [] := by
      intro ns hns
      induction ns with
      | nil => simp
      | cons n ns ih =>
        rw [List.pairwise_cons] at hns
        rw [List.flatMap_cons, List.filter_append, ih hns.2]
        by_cases hnk : n = k
        · subst hnk
          have h1 : ((dget r.nameToPackages n).getD []).filter (fun p => decide (p.name = n)) =
              (dget r.nameToPackages n).getD [] := by
            rw [List.filter_eq_self]
            intro p hp
            simp [hmem n p hp]
          have h2 : n ∉ ns := fun hh => lt_irrefl _ (hns.1 n hh)
          simp [h1, h2]
        · have h1 : ((dget r.nameToPackages n).getD []).filter (fun p => decide (p.name = k)) = [] := by
            rw [List.filter_eq_nil_iff]
            intro p hp
            simp [hmem n p hp, hnk]
          have h2 : k ≠ n := fun e => hnk e.symm
          simp [h1, h2]
    rw [this _ hs]
    split
    · rfl
    · next hk =>
      have hk' : k ∉ dkeys r.nameToPackages := fun e => hk (hkk.2 e)
      rw [(dget_none_iff _ _).2 hk']
      rfl

end Repository
end Verif.Pkg
