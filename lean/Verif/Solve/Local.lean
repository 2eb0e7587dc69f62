import Verif.Solve.Rename
import Verif.Props.Solve
import Mathlib.Logic.Function.Basic
/-
Two pools with the same packages for the names that are asked for: `solve` may do the same with both.
-/
set_option linter.unusedSectionVars false
namespace Verif

/-! ### the numbers of the elements of a sublist -/

/-- the position, from 1, of the `i`-th element that is flagged -/
def subPos : List Bool → Nat → Nat
  | [], i => i
  | _ :: _, 0 => 0
  | true :: bs, i + 1 => subPos bs i + 1
  | false :: bs, i + 1 => subPos bs (i + 1) + 1

theorem subPos_zero (bs : List Bool) : subPos bs 0 = 0 := by cases bs <;> simp [subPos]

theorem subPos_mono (bs : List Bool) : ∀ {i j : Nat}, i < j → subPos bs i < subPos bs j := by
  induction bs with
  | nil => intro i j h; simpa [subPos] using h
  | cons b bs ih =>
    intro i j h
    obtain ⟨j, rfl⟩ : ∃ k, j = k + 1 := ⟨j - 1, by omega⟩
    cases i with
    | zero => cases b <;> simp [subPos]
    | succ i =>
      cases b
      · simp only [subPos]; have := ih h; omega
      · simp only [subPos]; have := ih (i := i) (j := j) (by omega); omega

/-- the renaming of the numbers of a sublist to those of the list -/
def subRen (bs : List Bool) : Ren := ⟨subPos bs, subPos_mono bs, subPos_zero bs⟩

theorem get_subPos {α : Type} (b : α → Bool) (L : List α) : ∀ i : Nat, L[subPos (L.map b) (i + 1) - 1]? = (L.filter b)[i]? := by
  induction L with
  | nil => intro i; simp
  | cons x L ih =>
    intro i
    rw [List.map_cons, List.filter_cons]
    cases hb : b x with
    | true =>
      simp only [subPos, if_true, Nat.add_sub_cancel]
      cases i with
      | zero => simp [subPos_zero]
      | succ i =>
        have := ih i
        have hpos := subPos_mono (L.map b) (Nat.succ_pos i)
        rw [subPos_zero] at hpos
        rw [List.getElem?_cons_succ, ← this]
        obtain ⟨k, hk⟩ : ∃ k, subPos (L.map b) (i + 1) = k + 1 := ⟨_, (Nat.sub_add_cancel hpos).symm⟩
        rw [hk, List.getElem?_cons_succ]
        rfl
    | false =>
      simp only [subPos, Nat.add_sub_cancel]
      have := ih i
      have hpos := subPos_mono (L.map b) (Nat.succ_pos i)
      rw [subPos_zero] at hpos
      obtain ⟨k, hk⟩ : ∃ k, subPos (L.map b) (i + 1) = k + 1 := ⟨_, (Nat.sub_add_cancel hpos).symm⟩
      rw [hk] at this ⊢
      rw [List.getElem?_cons_succ]
      simpa using this

/-! ### iteration orders -/

section
variable {α β : Type} [Nonempty α] {φ : α → β} (hφ : Function.Injective φ)

/-- the order that `order` uses for the renamed elements -/
noncomputable def pullOrder (φ : α → β) (order : List β → List β) (l : List α) : List α :=
  (order (l.map φ)).map (Function.invFun φ)

open Classical in
/-- the order for renamed elements that `order` uses -/
noncomputable def pushOrder (φ : α → β) (order : List α → List α) (l : List β) : List β :=
  if ∀ y ∈ l, ∃ x, φ x = y then (order (l.map (Function.invFun φ))).map φ else l

include hφ

theorem map_inv (l : List α) : (l.map φ).map (Function.invFun φ) = l := by
  rw [List.map_map]
  have : Function.invFun φ ∘ φ = id := funext (Function.leftInverse_invFun hφ)
  rw [this, List.map_id]

omit hφ in
theorem inv_map {l : List β} (h : ∀ y ∈ l, ∃ x, φ x = y) : (l.map (Function.invFun φ)).map φ = l := by
  rw [List.map_map]
  conv => rhs; rw [← List.map_id l]
  apply List.map_congr_left
  intro y hy
  exact Function.invFun_eq (h y hy)

theorem pullOrder_perm {order : List β → List β} (ho : ∀ l, (order l).Perm l) (l : List α) : (pullOrder φ order l).Perm l := by
  unfold pullOrder
  have := (ho (l.map φ)).map (Function.invFun φ)
  rwa [map_inv hφ] at this

omit hφ in
theorem pullOrder_eq {order : List β → List β} (ho : ∀ l, (order l).Perm l) (l : List α) :
    order (l.map φ) = (pullOrder φ order l).map φ := by
  unfold pullOrder
  rw [inv_map]
  intro y hy
  obtain ⟨x, -, hx⟩ := List.mem_map.1 ((ho _).mem_iff.1 hy)
  exact ⟨x, hx⟩

omit hφ in
theorem pushOrder_perm {order : List α → List α} (ho : ∀ l, (order l).Perm l) (l : List β) : (pushOrder φ order l).Perm l := by
  unfold pushOrder
  split
  · next h =>
    have := (ho (l.map (Function.invFun φ))).map φ
    rwa [inv_map h] at this
  · exact List.Perm.refl _

theorem pushOrder_eq (order : List α → List α) (l : List α) : pushOrder φ order (l.map φ) = (order l).map φ := by
  unfold pushOrder
  rw [if_pos, map_inv hφ]
  intro y hy
  obtain ⟨x, -, hx⟩ := List.mem_map.1 hy
  exact ⟨x, hx⟩

end

namespace Solve
open Verif.Pkg Verif.Graph Verif.Rules Verif.Props

theorem lit_inj' (f : Ren) : Function.Injective f.lit := fun _ _ h => f.lit_injective h
theorem nat_inj' (f : Ren) : Function.Injective f.nat := fun _ _ h => f.nat_inj.1 h

/-- the orders of the renamed run, for the other one -/
noncomputable def Orders.pull (f : Ren) (o : Orders) : Orders where
  policy n := pullOrder f.lit (o.policy n)
  policyPerm n := pullOrder_perm (lit_inj' f) (o.policyPerm n)
  prefer := pullOrder f.nat o.prefer
  preferPerm := pullOrder_perm (nat_inj' f) o.preferPerm
  installed := pullOrder f.nat o.installed
  installedPerm := pullOrder_perm (nat_inj' f) o.installedPerm
  roots := pullOrder f.lit o.roots
  rootsPerm := pullOrder_perm (lit_inj' f) o.rootsPerm
  pop :=
    { pick := fun n l => Function.invFun f.lit (o.pop.pick n (l.map f.lit))
      mem := by
        intro n l hl
        have := o.pop.mem n (l.map f.lit) (by simpa using hl)
        obtain ⟨x, hx, e⟩ := List.mem_map.1 this
        rw [← e, Function.leftInverse_invFun (lit_inj' f)]
        exact hx }

theorem Orders.pull_rel (f : Ren) (o : Orders) : OrdersRel f (o.pull f) o where
  policy n := pullOrder_eq (o.policyPerm n)
  prefer := pullOrder_eq o.preferPerm
  installed := pullOrder_eq o.installedPerm
  roots := pullOrder_eq o.rootsPerm
  pop n l hl := by
    have := o.pop.mem n (l.map f.lit) (by simpa using hl)
    obtain ⟨x, hx, e⟩ := List.mem_map.1 this
    show _ = f.lit (Function.invFun f.lit (o.pop.pick n (l.map f.lit)))
    rw [Function.invFun_eq ⟨x, e⟩]

open Classical in
/-- the orders of a run, for the renamed one -/
noncomputable def Orders.push (f : Ren) (o : Orders) : Orders where
  policy n := pushOrder f.lit (o.policy n)
  policyPerm n := pushOrder_perm (o.policyPerm n)
  prefer := pushOrder f.nat o.prefer
  preferPerm := pushOrder_perm o.preferPerm
  installed := pushOrder f.nat o.installed
  installedPerm := pushOrder_perm o.installedPerm
  roots := pushOrder f.lit o.roots
  rootsPerm := pushOrder_perm o.rootsPerm
  pop :=
    { pick := fun n l => if ∀ y ∈ l, ∃ x, f.lit x = y then f.lit (o.pop.pick n (l.map (Function.invFun f.lit))) else l.headD 0
      mem := by
        intro n l hl
        split
        · next h =>
          have := o.pop.mem n (l.map (Function.invFun f.lit)) (by simpa using hl)
          have h2 := List.mem_map_of_mem (f := f.lit) this
          rwa [inv_map h] at h2
        · cases l with
          | nil => exact absurd rfl hl
          | cons a t => simp }

open Classical in
theorem Orders.push_rel (f : Ren) (o : Orders) : OrdersRel f o (o.push f) where
  policy n := pushOrder_eq (lit_inj' f) (o.policy n)
  prefer := pushOrder_eq (nat_inj' f) o.prefer
  installed := pushOrder_eq (nat_inj' f) o.installed
  roots := pushOrder_eq (lit_inj' f) o.roots
  pop n l hl := by
    show (if ∀ y ∈ l.map f.lit, ∃ x, f.lit x = y then f.lit (o.pop.pick n ((l.map f.lit).map (Function.invFun f.lit))) else _) = _
    rw [if_pos, map_inv (lit_inj' f)]
    intro y hy
    obtain ⟨x, -, hx⟩ := List.mem_map.1 hy
    exact ⟨x, hx⟩

/-! ### the pool of the packages that matter -/

variable {N S U : Type} [LinearOrder N] [DecidableEq S] [LinearOrder U] [Syntax S U]

theorem lastId_filter (k : PKey N S U) (b : Package N S U → Bool) (L : List (Package N S U)) (hb : ∀ q ∈ L, q.key = k → b q = true) :
    lastId k L = (lastId k (L.filter b)).map (subPos (L.map b)) := by
  induction L with
  | nil => rfl
  | cons q L ih =>
    have ih := ih (fun q hq => hb q (by simp [hq]))
    rw [List.map_cons, List.filter_cons, lastId, ih]
    cases hq : b q with
    | true =>
      simp only [if_true]
      rw [lastId]
      cases lastId k (L.filter b) with
      | none =>
        simp only [Option.map]
        split
        · simp [subPos, subPos_zero]
        · rfl
      | some i => simp [subPos]
    | false =>
      have hne : q.key ≠ k := fun e => by rw [hb q (by simp) e] at hq; cases hq
      cases hl : lastId k (L.filter b) with
      | none => simp [hne, hl]
      | some i =>
        obtain ⟨h0, -⟩ := lastId_some hl
        obtain ⟨j, rfl⟩ : ∃ j, i = j + 1 := ⟨i - 1, by omega⟩
        simp [subPos, hl]

theorem addProvides_any (p : Package N S U) (cs : List (CTuple N S)) : ∀ pool pool' : Pool N S U,
    (Pool.addProvides p cs pool).2 = (Pool.addProvides p cs pool').2 := by
  induction cs with
  | nil => intro pool pool'; rfl
  | cons c cs ih =>
    intro pool pool'
    rw [Pool.addProvides, Pool.addProvides]
    cases fromConstraints (U := U) .plain c with
    | error e => rfl
    | ok req =>
      simp only
      split
      · rfl
      · exact ih _ _

/-- the package can be entered in a pool -/
def Enters (p : Package N S U) : Prop := ∀ pool : Pool N S U, (pool.addPackage p).2 = none

theorem enters_of {p : Package N S U} {pool : Pool N S U} (h : (pool.addPackage p).2 = none) : Enters p := by
  intro pool'
  unfold Pool.addPackage at *
  rw [← h]
  exact addProvides_any _ _ _ _

theorem addPackages_none (ps : List (Package N S U)) : ∀ pool : Pool N S U, (pool.addPackages ps).2 = none ↔ ∀ p ∈ ps, Enters p := by
  induction ps with
  | nil => intro pool; simp [Pool.addPackages]
  | cons p ps ih =>
    intro pool
    cases hp : pool.addPackage p with
    | mk pool' r =>
      cases r with
      | some e =>
        have e1 : pool.addPackages (p :: ps) = (pool', some e) := by simp only [Pool.addPackages, hp]
        rw [e1]
        simp only [reduceCtorEq, List.mem_cons, forall_eq_or_imp, false_iff, not_and]
        intro h
        have := h pool
        rw [hp] at this
        simp at this
      | none =>
        have e1 : pool.addPackages (p :: ps) = pool'.addPackages ps := by simp only [Pool.addPackages, hp]
        rw [e1, ih]
        simp only [List.mem_cons, forall_eq_or_imp]
        exact ⟨fun h => ⟨enters_of (by rw [hp]), h⟩, fun h => h.2⟩

theorem addRepositories_enters (rs : List (Repository N S U)) : ∀ pool : Pool N S U, (Pool.addRepositories rs pool).2 = none →
    ∀ p ∈ allPackages rs, Enters p := by
  induction rs with
  | nil => intro pool _ p hp; simp [allPackages] at hp
  | cons r rs ih =>
    intro pool h p hp
    cases hp' : pool.addPackages r.iter with
    | mk pool' e =>
      cases e with
      | some e =>
        have e1 : Pool.addRepositories (r :: rs) pool = (pool', some e) := by simp only [Pool.addRepositories, hp']
        rw [e1] at h; simp at h
      | none =>
        have e1 : Pool.addRepositories (r :: rs) pool = Pool.addRepositories rs pool' := by
          simp only [Pool.addRepositories, hp']
        rw [e1] at h
        unfold allPackages at hp
        rw [List.flatMap_cons, List.mem_append] at hp
        rcases hp with hp | hp
        · exact (addPackages_none _ pool).1 (by rw [hp']) p hp
        · exact ih _ h p hp

theorem addRepositories_of_enters (rs : List (Repository N S U)) : ∀ pool : Pool N S U, (∀ p ∈ allPackages rs, Enters p) →
    (Pool.addRepositories rs pool).2 = none := by
  induction rs with
  | nil => intro pool _; rfl
  | cons r rs ih =>
    intro pool h
    unfold allPackages at h
    rw [List.flatMap_cons] at h
    have h1 := (addPackages_none r.iter pool).2 (fun p hp => h p (List.mem_append.2 (.inl hp)))
    cases hp' : pool.addPackages r.iter with
    | mk pool' e =>
      rw [hp'] at h1
      simp only at h1
      subst h1
      have e1 : Pool.addRepositories (r :: rs) pool = Pool.addRepositories rs pool' := by
        simp only [Pool.addRepositories, hp']
      rw [e1]
      exact ih pool' (fun p hp => h p (List.mem_append.2 (.inr hp)))

/-- any list is the list of the packages of some repositories -/
theorem allPackages_single (l : List (Package N S U)) : allPackages (l.map (fun p => Repository.ofList [p])) = l := by
  induction l with
  | nil => rfl
  | cons p l ih =>
    unfold allPackages at *
    rw [List.map_cons, List.flatMap_cons, ih]
    have : (Repository.ofList [p]).iter = [p] := by
      have := (C30_iteration [p]).1
      exact List.perm_singleton.1 this
    rw [this]; rfl

/-- a pool with just these packages -/
theorem exists_pool (l : List (Package N S U)) (hl : ∀ p ∈ l, Enters p) (m : Option (Modifiers N)) :
    ∃ pool : Pool N S U, pool.OK l ∧ pool.modifiers = m := by
  have h1 := (addPackages_none l (Pool.empty m)).2 hl
  obtain ⟨done, -, h2, h3⟩ := (Pool.IdInv.empty (S := S) (U := U) m).addAll l
  rw [h3 h1, List.nil_append] at h2
  have h4 := (Pool.NameInv.empty (S := S) (U := U) m).addAll h1
  rw [List.nil_append] at h4
  exact ⟨_, ⟨h2, h4⟩, Pool.addPackages_modifiers l _⟩

theorem providersIn_filter (b : Package N S U → Bool) (L : List (Package N S U)) (n : N) (hb : ∀ p ∈ L, n ∈ p.provNames → b p = true) :
    providersIn (L.filter b) n = providersIn L n := by
  induction L with
  | nil => rfl
  | cons p L ih =>
    have ih := ih (fun p hp => hb p (by simp [hp]))
    rw [List.filter_cons]
    split
    · unfold providersIn at *
      rw [List.flatMap_cons, List.flatMap_cons, ih]
    · next h =>
      have hn : n ∉ p.provNames := fun hn => h (hb p (by simp) hn)
      have : providersIn (p :: L) n = providersIn L n := by
        unfold providersIn
        rw [List.flatMap_cons, List.count_eq_zero.2 hn]
        rfl
      rw [this, ih]

theorem names_filter {pool pool' : Pool N S U} {b : Package N S U → Bool} {L : List (Package N S U)} (h : pool.NameInv (L.filter b))
    (h' : pool'.NameInv L) {n : N} (hb : ∀ p ∈ L, n ∈ p.provNames → b p = true) :
    dget pool'.packagesByName n = dget pool.packagesByName n := by
  have h1 := h.get n
  have h2 := h'.get n
  rw [providersIn_filter b L n hb, ← h2] at h1
  have h3 := h.has n
  have h4 := h'.has n
  have h5 : n ∈ dkeys pool.packagesByName ↔ n ∈ dkeys pool'.packagesByName := by
    rw [h3, h4]
    constructor
    · rintro ⟨p, hp, hn⟩; exact ⟨p, (List.mem_filter.1 hp).1, hn⟩
    · rintro ⟨p, hp, hn⟩; exact ⟨p, List.mem_filter.2 ⟨hp, hb p hp hn⟩, hn⟩
  rw [mem_dkeys_iff, mem_dkeys_iff] at h5
  cases hd : dget pool.packagesByName n with
  | none =>
    cases hd' : dget pool'.packagesByName n with
    | none => rfl
    | some v =>
      obtain ⟨w, hw⟩ := h5.2 ⟨v, hd'⟩
      rw [hd] at hw; cases hw
  | some v =>
    obtain ⟨w, hw⟩ := h5.1 ⟨v, hd⟩
    rw [hd, hw] at h1
    simp only [Option.getD_some] at h1
    rw [hw, h1]

/-- the packages that provide names of `A`, renumbered -/
theorem sub_filter {A : N → Prop} {pool pool' : Pool N S U} {b : Package N S U → Bool} {L : List (Package N S U)}
    (hb : ∀ p, b p = true ↔ ∃ n, A n ∧ n ∈ p.provNames) (h : pool.OK (L.filter b)) (h' : pool'.OK L)
    (hm : pool'.modifiers = pool.modifiers)
    (hc : ∀ p ∈ L, b p = true → A p.name ∧ (∀ t ∈ p.installRequires, A t.1) ∧ (∀ t ∈ p.conflicts, A t.1)) :
    Sub (subRen (L.map b)) A (L.filter b) pool pool' where
  names n hn := names_filter h.names h'.names (fun p _ hp => (hb p).2 ⟨n, hn, hp⟩)
  ids p hp := by
    unfold Pool.packageId
    rw [h.ids.pid, h'.ids.pid, lastId_filter p.key b L]
    · cases lastId p.key (L.filter b) <;> rfl
    · intro q _ hk
      refine (hb q).2 ⟨p.name, hp, ?_⟩
      rw [← (key_fields hk).1]
      simp [Package.provNames]
  back i := by
    rw [h.ids.get, h'.ids.get]
    cases i with
    | zero => simp [subRen, subPos_zero]
    | succ i =>
      have hpos := subPos_mono (L.map b) (Nat.succ_pos i)
      rw [subPos_zero] at hpos
      have e : (subRen (L.map b)).nat (i + 1) = subPos (L.map b) (i + 1) := rfl
      rw [e, if_neg (Nat.pos_iff_ne_zero.1 hpos), if_neg (Nat.succ_ne_zero i), get_subPos]
      rfl
  mods := hm
  closed p hp := hc p (List.mem_filter.1 hp).1 (List.mem_filter.1 hp).2
  ok := h
  ok' := ⟨L, h'⟩

open Classical in
/-- two pools with the same packages for the names `A`, which are all the names that matter -/
theorem solveIn_local {A : N → Prop} {pool pool' : Pool N S U} {L L' : List (Package N S U)} (h : pool.OK L) (h' : pool'.OK L')
    (hm : pool'.modifiers = pool.modifiers) (he : ∀ p ∈ L, Enters p)
    (hc : ∀ p ∈ L, (∃ n, A n ∧ n ∈ p.provNames) → A p.name ∧ (∀ t ∈ p.installRequires, A t.1) ∧ (∀ t ∈ p.conflicts, A t.1))
    (hs : L.filter (fun p => decide (∃ n, A n ∧ n ∈ p.provNames)) = L'.filter (fun p => decide (∃ n, A n ∧ n ∈ p.provNames)))
    {s s' : DependencySolver N S U} (hinst : s'.installed = s.installed) (hstrict : s'.strict = s.strict)
    (hprune : s'.usePruning = s.usePruning) (hA : ∀ p ∈ s.installed.iter, A p.name) (o : Orders) :
    ∃ o', ∀ q : Request N U, (∀ j ∈ q.jobs, ∀ r, j.requirement = some r → A r.name) →
      solveIn s' o' pool' q = solveIn s o pool q := by
  set b : Package N S U → Bool := fun p => decide (∃ n, A n ∧ n ∈ p.provNames) with hbd
  have hb : ∀ p, b p = true ↔ ∃ n, A n ∧ n ∈ p.provNames := fun p => by simp [hbd]
  obtain ⟨pool0, h0, hm0⟩ := exists_pool (L.filter b) (fun p hp => he p (List.mem_filter.1 hp).1) pool.modifiers
  have s1 := sub_filter hb h0 h hm0.symm (fun p hp hp' => hc p hp ((hb p).1 hp'))
  have h0' : pool0.OK (L'.filter b) := by rw [← hs]; exact h0
  have s2 := sub_filter hb h0' h' (by rw [hm, hm0]) (fun p hp hp' => by
    have : p ∈ L'.filter b := List.mem_filter.2 ⟨hp, hp'⟩
    rw [← hs] at this
    exact hc p (List.mem_filter.1 this).1 ((hb p).1 hp'))
  refine ⟨(o.pull (subRen (L.map b))).push (subRen (L'.map b)), fun q hq => ?_⟩
  rw [solveIn_ren s2 hinst hstrict hprune hA (Orders.push_rel _ _) q hq]
  exact (solveIn_ren s1 rfl rfl rfl hA (Orders.pull_rel _ o) q hq).symm

/-! ### upgrade requests -/

/-- the packages that an upgrade asks for depend on the remote packages that have the names of the installed ones -/
theorem convertUpgrade_congr {s s' : DependencySolver N S U} (hinst : s'.installed = s.installed) (q : Request N U)
    (hr : (∃ j ∈ q.jobs, j.kind = .upgrade) → ∀ p ∈ s.installed.iter,
      (remotePackages s).filter (fun r => decide (r.name = p.name)) = (remotePackages s').filter (fun r => decide (r.name = p.name))) :
    convertUpgrade q s'.remote s'.installed = convertUpgrade q s.remote s.installed := by
  unfold convertUpgrade
  rw [hinst]
  split
  · next j hj =>
    split
    · next hk =>
      simp only
      congr 2
      apply List.filterMap_congr
      intro p hp
      have h1 := (merged_inv s.remote (Repository.Inv.empty (N := N) (S := S) (U := U))).get p.name
      have h2 := (merged_inv s'.remote (Repository.Inv.empty (N := N) (S := S) (U := U))).get p.name
      rw [List.nil_append] at h1 h2
      unfold Repository.findPackages
      rw [h1, h2]
      have := hr ⟨j, by rw [hj]; simp, hk⟩ p hp
      unfold remotePackages at this
      rw [this]
    · rfl
  · rfl

/-- the jobs of an upgrade are about installed names -/
theorem convertUpgrade_names {A : N → Prop} (remote : List (Repository N S U)) (inst : Repository N S U) (q : Request N U)
    (hq : ∀ j ∈ q.jobs, ∀ r, j.requirement = some r → A r.name) (hA : ∀ p ∈ inst.iter, A p.name) :
    ∀ j ∈ (convertUpgrade q remote inst).jobs, ∀ r, j.requirement = some r → A r.name := by
  unfold convertUpgrade
  split
  · next j0 hj0 =>
    split
    · intro j hj r hr
      simp only [List.mem_map, List.mem_filterMap] at hj
      obtain ⟨p', ⟨p, hp, hl⟩, rfl⟩ := hj
      simp only [Option.some.injEq] at hr
      subst hr
      have h1 := (merged_inv remote (Repository.Inv.empty (N := N) (S := S) (U := U))).get p.name
      have hm := List.mem_of_getLast? hl
      unfold Repository.findPackages at hm
      rw [h1, (sortBy_perm _ _).mem_iff] at hm
      have : p'.name = p.name := by simpa using (List.mem_filter.1 hm).2
      show A p'.name
      rw [this]
      exact hA p hp
    · exact hq
  · exact hq

/-! ### unsatisfiable requests -/

theorem minimalUnsat_congr {α ε : Type} {cb cb' : List α → Except ε Bool} {P : α → Prop}
    (h : ∀ l, (∀ x ∈ l, P x) → cb' l = cb l) (n : Nat) : ∀ l i : List α, (∀ x ∈ l, P x) → (∀ x ∈ i, P x) →
    minimalUnsat cb' n l i = minimalUnsat cb n l i ∧ ∀ r, minimalUnsat cb n l i = .ok r → ∀ x ∈ r, P x := by
  induction n with
  | zero => intro l i _ _; exact ⟨rfl, fun r hr => by simp [minimalUnsat] at hr⟩
  | succ n ih =>
    intro l i hl hi
    rw [minimalUnsat, minimalUnsat]
    have hA : ∀ x ∈ (split l).1, P x := fun x hx => hl x (List.mem_of_mem_take hx)
    have hB : ∀ x ∈ (split l).2, P x := fun x hx => hl x (List.mem_of_mem_drop hx)
    have app : ∀ {a b : List α}, (∀ x ∈ a, P x) → (∀ x ∈ b, P x) → ∀ x ∈ a ++ b, P x := by
      intro a b ha hb x hx
      rcases List.mem_append.1 hx with hx | hx
      · exact ha x hx
      · exact hb x hx
    split
    · exact ⟨rfl, fun r hr => by cases hr; exact hl⟩
    · simp only
      rw [h _ (app hA hi), h _ (app hB hi)]
      cases cb ((split l).1 ++ i) with
      | error e => exact ⟨rfl, fun r hr => by simp at hr⟩
      | ok c =>
        cases c with
        | false => exact ih _ _ hA hi
        | true =>
          simp only
          cases cb ((split l).2 ++ i) with
          | error e => exact ⟨rfl, fun r hr => by simp at hr⟩
          | ok c =>
            cases c with
            | false => exact ih _ _ hB hi
            | true =>
              simp only
              obtain ⟨e1, k1⟩ := ih _ _ hA (app hB hi)
              rw [e1]
              cases h1 : minimalUnsat cb n (split l).1 ((split l).2 ++ i) with
              | error e => exact ⟨rfl, fun r hr => by simp at hr⟩
              | ok a =>
                simp only
                have ha := k1 a h1
                obtain ⟨e2, k2⟩ := ih _ _ hB (app ha hi)
                rw [e2]
                cases h2 : minimalUnsat cb n (split l).2 (a ++ i) with
                | error e => exact ⟨rfl, fun r hr => by simp at hr⟩
                | ok b =>
                  refine ⟨rfl, fun r hr => ?_⟩
                  cases hr
                  exact app ha (k2 b h2)

theorem minimalUnsatisfiableSubset_congr {α ε : Type} {cb cb' : List α → Except ε Bool} {P : α → Prop}
    (h : ∀ l, (∀ x ∈ l, P x) → cb' l = cb l) (n : Nat) (l : List α) (hl : ∀ x ∈ l, P x) :
    minimalUnsatisfiableSubset cb' n l = minimalUnsatisfiableSubset cb n l := by
  unfold minimalUnsatisfiableSubset
  rw [h l hl]
  split
  · rfl
  · rfl
  · exact (minimalUnsat_congr h n l [] hl (by simp)).1

end Solve
end Verif
