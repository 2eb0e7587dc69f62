import Verif.Pkg.RepositoryLemmas
import Verif.Pkg.PackageSpec
import Mathlib.Data.Nat.Basic
/-
Properties C30-C32: repositories. `l` is an arbitrary sequence of packages; `Repository.ofList l` adds them one after
the other (so does `Repository.update`).
-/
set_option linter.unusedSectionVars false
namespace Verif.Props
open Verif Verif.Pkg

variable {N S U : Type} [LinearOrder N] [DecidableEq S] [LinearOrder U]

/-- `a` may come before `b`: smaller name, or same name and a version that is not greater -/
def NameVersionLE (a b : Package N S U) : Prop := a.name < b.name ∨ (a.name = b.name ∧ a.version ≤ b.version)

theorem iter_sorted (l : List (Package N S U)) :
    (sortBy Package.name (sortBy Package.version l)).Pairwise NameVersionLE := by
  have key : ∀ m : List (Package N S U), m.Pairwise (fun a b => a.name ≤ b.name) →
      (∀ n, (m.filter (fun p => decide (p.name = n))).Pairwise (fun a b => a.version ≤ b.version)) →
      m.Pairwise NameVersionLE := by
    intro m
    induction m with
    | nil => intros; exact List.Pairwise.nil
    | cons x t ih =>
      intro h1 h2
      rw [List.pairwise_cons] at h1 ⊢
      refine ⟨?_, ih h1.2 (fun n => ?_)⟩
      · intro y hy
        rcases lt_or_eq_of_le (h1.1 y hy) with hlt | he
        · exact Or.inl hlt
        · right
          refine ⟨he, ?_⟩
          have := h2 x.name
          rw [List.filter_cons] at this
          simp only [decide_true, if_true, List.pairwise_cons] at this
          exact this.1 y (List.mem_filter.2 ⟨hy, by simp [he]⟩)
      · have := h2 n
        rw [List.filter_cons] at this
        split at this
        · exact (List.pairwise_cons.1 this).2
        · exact this
  apply key
  · exact sortBy_sorted _ _
  · intro n
    rw [sortBy_filter]
    exact (sortBy_sorted _ _).filter _

/-- C30: iteration yields the added packages, each as often as it was added, by name and then by version. -/
theorem C30_iteration (l : List (Package N S U)) :
    (Repository.ofList l).iter.Perm l ∧ (Repository.ofList l).iter.Pairwise NameVersionLE := by
  rw [(Repository.inv_ofList l).iter]
  exact ⟨(sortBy_perm _ _).trans (sortBy_perm _ _), iter_sorted l⟩

/-- C30, for additions to an existing repository: the new packages are there besides the old ones. -/
theorem C30_iteration_after_update (l l' : List (Package N S U)) :
    ((Repository.ofList l).update l').iter.Perm ((Repository.ofList l).iter ++ l') ∧
    ((Repository.ofList l).update l').iter.Pairwise NameVersionLE := by
  rw [((Repository.inv_ofList l).update l').iter, (Repository.inv_ofList l).iter]
  refine ⟨(sortBy_perm _ _).trans ((sortBy_perm _ _).trans ?_), iter_sorted _⟩
  exact ((sortBy_perm _ _).trans (sortBy_perm _ _)).symm.append_right l'

/-- C30: `len()` is the number of additions. -/
theorem C30_len (l : List (Package N S U)) : (Repository.ofList l).len = l.length := (Repository.inv_ofList l).len

/-- C30: membership (up to equality of packages) agrees with iteration. -/
theorem C30_membership (l : List (Package N S U)) (p : Package N S U) :
    (Repository.ofList l).contains p = true ↔ ∃ q ∈ (Repository.ofList l).iter, SamePackage q p := by
  simp only [samePackage_iff]
  have h := Repository.inv_ofList l
  have hm : ∀ q, q ∈ (Repository.ofList l).iter ↔ q ∈ l := fun q => (C30_iteration l).1.mem_iff
  have hg := h.get p.name
  unfold Repository.contains
  constructor
  · intro hc
    split at hc
    · next m e =>
      rw [e, Option.getD_some] at hg
      rw [List.any_eq_true] at hc
      obtain ⟨q, hq, hs⟩ := hc
      rw [hg, mem_sortBy, List.mem_filter] at hq
      exact ⟨q, (hm q).2 hq.1, by simpa [Package.same, eq_comm] using hs⟩
    · simp at hc
  · rintro ⟨q, hq, hk⟩
    have hn : q.name = p.name := congrArg PKey.name hk
    have hq' := (hm q).1 hq
    have hkey : p.name ∈ dkeys (Repository.ofList l).nameToPackages := (h.has _).2 ⟨q, hq', hn⟩
    obtain ⟨m, e⟩ := (mem_dkeys_iff _ _).1 hkey
    rw [e]
    rw [e, Option.getD_some] at hg
    simp only [List.any_eq_true]
    refine ⟨q, ?_, by simp [Package.same, hk]⟩
    rw [hg, mem_sortBy, List.mem_filter]
    exact ⟨hq', by simp [hn]⟩

/-- C31, proved part: if packages of the same name and version that were added are identical, iteration does not depend
on the order of the additions. -/
theorem C31_order_independent_partial {l l' : List (Package N S U)} (h : l.Perm l')
    (huniq : ∀ a ∈ l, ∀ b ∈ l, a.name = b.name → a.version = b.version → a = b) :
    (Repository.ofList l).iter = (Repository.ofList l').iter := by
  refine List.Perm.eq_of_pairwise (le := NameVersionLE) ?_ (C30_iteration l).2 (C30_iteration l').2
    ((C30_iteration l).1.trans (h.trans (C30_iteration l').1.symm))
  intro a b ha hb h1 h2
  have ha' := (C30_iteration l).1.mem_iff.1 ha
  have hb' := h.mem_iff.2 ((C30_iteration l').1.mem_iff.1 hb)
  have hn : a.name = b.name := by
    rcases h1 with h1 | ⟨h1, -⟩
    · rcases h2 with h2 | ⟨h2, -⟩
      · exact absurd (lt_trans h1 h2) (lt_irrefl _)
      · exact h2.symm
    · exact h1
  have hv : a.version = b.version := by
    rcases h1 with h1 | ⟨-, h1⟩
    · rw [hn] at h1; exact absurd h1 (lt_irrefl _)
    · rcases h2 with h2 | ⟨-, h2⟩
      · rw [hn] at h2; exact absurd h2 (lt_irrefl _)
      · exact le_antisymm h1 h2
  exact huniq a ha' b hb' hn hv

/-- C31, proved part: in any case the names and versions come in the same order. -/
theorem C31_names_and_versions_order_independent_partial {l l' : List (Package N S U)} (h : l.Perm l') :
    (Repository.ofList l).iter.map (fun p => (p.name, p.version)) =
      (Repository.ofList l').iter.map (fun p => (p.name, p.version)) := by
  refine List.Perm.eq_of_pairwise (le := fun a b : N × Version U => a.1 < b.1 ∨ (a.1 = b.1 ∧ a.2 ≤ b.2)) ?_ ?_ ?_ ?_
  · rintro ⟨a1, a2⟩ ⟨b1, b2⟩ - - h1 h2
    simp only at h1 h2
    have hn : a1 = b1 := by
      rcases h1 with h1 | ⟨h1, -⟩
      · rcases h2 with h2 | ⟨h2, -⟩
        · exact absurd (lt_trans h1 h2) (lt_irrefl _)
        · exact h2.symm
      · exact h1
    subst hn
    rcases h1 with h1 | ⟨-, h1⟩
    · exact absurd h1 (lt_irrefl _)
    · rcases h2 with h2 | ⟨-, h2⟩
      · exact absurd h2 (lt_irrefl _)
      · rw [le_antisymm h1 h2]
  · exact List.pairwise_map.2 (C30_iteration l).2
  · exact List.pairwise_map.2 (C30_iteration l').2
  · exact ((C30_iteration l).1.trans (h.trans (C30_iteration l').1.symm)).map _

/-- two packages of the same name and version but different dependencies -/
def exP1 : Package Nat Nat Nat := ⟨0, ⟨1, 0⟩, [], [], [], none⟩
def exP2 : Package Nat Nat Nat := ⟨0, ⟨1, 0⟩, [(5, [[]])], [], [], none⟩
def exP3 : Package Nat Nat Nat := ⟨0, ⟨0, 7⟩, [], [], [], none⟩

/-- C31 in full is false of the code: two different packages with the same name and version are listed in the order in
which they were added. -/
theorem C31_violated : ∃ l l' : List (Package Nat Nat Nat), l.Perm l' ∧
    (Repository.ofList l).iter ≠ (Repository.ofList l').iter := by
  refine ⟨[exP1, exP2], [exP2, exP1], List.Perm.swap _ _ _, ?_⟩
  intro h
  have h' : [exP1, exP2] = [exP2, exP1] := h
  rw [List.cons.injEq] at h'
  have := congrArg Package.installRequires h'.1
  simp [exP1, exP2] at this

example : (Repository.ofList [exP1, exP3]).iter = [exP3, exP1] := rfl
example : ∀ a ∈ [exP1, exP3], ∀ b ∈ [exP1, exP3], a.name = b.name → a.version = b.version → a = b := by
  intro a ha b hb _ hv
  simp only [List.mem_cons, List.not_mem_nil, or_false] at ha hb
  rcases ha with rfl | rfl <;> rcases hb with rfl | rfl <;> first | rfl | exact absurd hv (by decide)

/-- C32: `find_packages(name)` returns exactly the added packages of that name, each as often as it was added, from
lowest to highest version. -/
theorem C32_find_packages (l : List (Package N S U)) (n : N) :
    ((Repository.ofList l).findPackages n).Perm (l.filter (fun p => decide (p.name = n))) ∧
    ((Repository.ofList l).findPackages n).Pairwise (fun a b => a.version ≤ b.version) := by
  unfold Repository.findPackages
  rw [(Repository.inv_ofList l).get]
  exact ⟨sortBy_perm _ _, sortBy_sorted _ _⟩

/-- C32: `find_package(name, version)` returns an added package of that name and version, if there is one, ... -/
theorem C32_find_package_found (l : List (Package N S U)) (n : N) (v : Version U)
    (h : ∃ p ∈ l, p.name = n ∧ p.version = v) :
    ∃ p ∈ l, (Repository.ofList l).findPackage n v = .ok p ∧ p.name = n ∧ p.version = v := by
  unfold Repository.findPackage
  have hg := (Repository.inv_ofList l).get n
  rw [hg]
  obtain ⟨q, hq, hqn, hqv⟩ := h
  cases hf : (sortBy Package.version (l.filter (fun p => decide (p.name = n)))).find?
      (fun c => decide (c.version = v)) with
  | none =>
    rw [List.find?_eq_none] at hf
    exact absurd (by simp [hqv]) (hf q (by simp [hq, hqn]))
  | some p =>
    have h1 := List.find?_some hf
    have h2 := List.mem_of_find?_eq_some hf
    simp at h1 h2
    exact ⟨p, h2.1, rfl, h2.2, h1⟩

/-- ... and raises NoPackageFound exactly when there is none, provided that the exception can be composed (see
`C32_find_package_raises_partial` and `C32_violated_dash`). -/
theorem C32_find_package_missing_partial (l : List (Package N S U)) (n : N) (v : Version U) :
    (Repository.ofList l).findPackage n v = .error .noPackageFound ↔ ¬ ∃ p ∈ l, p.name = n ∧ p.version = v := by
  constructor
  · intro h hex
    obtain ⟨p, -, hp, -⟩ := C32_find_package_found l n v hex
    rw [h] at hp
    simp at hp
  · intro h
    unfold Repository.findPackage
    rw [(Repository.inv_ofList l).get]
    have : (sortBy Package.version (l.filter (fun p => decide (p.name = n)))).find?
      (fun c => decide (c.version = v)) = none := by
      rw [List.find?_eq_none]
      intro p hp hv
      simp at hp hv
      exact h ⟨p, hp.1, hp.2, hv⟩
    rw [this]

example : (Repository.ofList [exP1, exP3]).findPackage 0 ⟨0, 7⟩ = .ok exP3 := rfl
example : (Repository.ofList [exP1, exP3]).findPackage 0 ⟨0, 8⟩ = .error .noPackageFound := rfl

end Verif.Props
