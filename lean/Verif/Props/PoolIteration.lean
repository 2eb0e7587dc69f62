import Verif.Props.Pools
/-
Property C139: what iterating over a pool gives.
-/
set_option linter.unusedSectionVars false
namespace Verif.Pkg
open Verif

variable {N S U : Type} [DecidableEq N] [DecidableEq S] [LinearOrder U] [Syntax S U]

/-- `iter_packages()`: the keys of the dict `_package_to_id_`, in the order in which they were first set; pool.py:122-125.
A dict keeps the object with which a key was first set, also when an equal object is set later (pool.py:52). The model's
`packageToId` has only what the comparison of packages looks at (`PKey`), so that the object is looked up among those that
got an id (pool.py:51): the first one that is equal. -/
def Pool.iterPackages (pool : Pool N S U) : List (Package N S U) :=
  (dkeys pool.packageToId).filterMap (fun k => (pool.idToPackage.map Prod.snd).find? (fun p => decide (p.key = k)))

/-- the packages of a list without those that are equal to an earlier one -/
def firstOnes : List (Package N S U) → List (Package N S U)
  | [] => []
  | p :: t => p :: (firstOnes t).filter (fun q => decide (q.key ≠ p.key))

theorem mem_firstOnes_key {l : List (Package N S U)} {k : PKey N S U} :
    k ∈ (firstOnes l).map Package.key ↔ k ∈ l.map Package.key := by
  induction l with
  | nil => rfl
  | cons p t ih =>
    simp only [firstOnes, List.map_cons, List.mem_cons, ← ih]
    by_cases h : k = p.key
    · simp [h]
    · simp only [h, false_or, List.mem_map, List.mem_filter, decide_eq_true_eq]
      constructor
      · rintro ⟨q, ⟨hq, -⟩, e⟩; exact ⟨q, hq, e⟩
      · rintro ⟨q, hq, e⟩; exact ⟨q, ⟨hq, fun c => h (e.symm.trans c)⟩, e⟩

theorem firstOnes_append (l : List (Package N S U)) (p : Package N S U) :
    firstOnes (l ++ [p]) = if p.key ∈ l.map Package.key then firstOnes l else firstOnes l ++ [p] := by
  induction l with
  | nil => simp [firstOnes]
  | cons q t ih =>
    simp only [List.cons_append, firstOnes, ih, List.map_cons, List.mem_cons]
    by_cases h1 : p.key ∈ t.map Package.key
    · simp only [h1, if_true, or_true]
    · simp only [h1, if_false, or_false]
      by_cases h2 : p.key = q.key
      · simp [h2]
      · simp [h2]

theorem firstOnes_sublist (l : List (Package N S U)) : (firstOnes l).Sublist l := by
  induction l with
  | nil => exact List.Sublist.slnil
  | cons p t ih => exact (List.filter_sublist.trans ih).cons_cons p

theorem firstOnes_pairwise (l : List (Package N S U)) : (firstOnes l).Pairwise (fun p q => p.key ≠ q.key) := by
  induction l with
  | nil => exact List.Pairwise.nil
  | cons p t ih =>
    refine List.Pairwise.cons ?_ (ih.filter _)
    intro q hq
    have := (List.mem_filter.1 hq).2
    simp only [decide_eq_true_eq] at this
    exact fun e => this e.symm

theorem mem_firstOnes {l : List (Package N S U)} {p : Package N S U} :
    p ∈ firstOnes l ↔ ∃ i : Nat, l[i]? = some p ∧ ∀ (j : Nat) (q : Package N S U), j < i → l[j]? = some q → q.key ≠ p.key := by
  induction l with
  | nil => simp [firstOnes]
  | cons a t ih =>
    simp only [firstOnes, List.mem_cons, List.mem_filter, ih, decide_eq_true_eq]
    constructor
    · rintro (rfl | ⟨⟨i, hi, hf⟩, hk⟩)
      · exact ⟨0, rfl, fun j q h => absurd h (Nat.not_lt_zero _)⟩
      · refine ⟨i + 1, by simpa using hi, ?_⟩
        rintro (_ | j) q hj hq
        · simp only [List.getElem?_cons_zero, Option.some.injEq] at hq
          subst hq; exact fun e => hk e.symm
        · exact hf j q (by omega) (by simpa using hq)
    · rintro ⟨(_ | i), hi, hf⟩
      · left; simpa using hi.symm
      · right
        refine ⟨⟨i, by simpa using hi, fun j q hj hq => hf (j + 1) q (by omega) (by simpa using hq)⟩, ?_⟩
        exact fun e => hf 0 a (by omega) rfl e.symm

/-- each key of a list of packages without equal ones finds the first package with that key -/
theorem find_firstOnes {l : List (Package N S U)} {p : Package N S U} (h : p ∈ firstOnes l) :
    l.find? (fun q => decide (q.key = p.key)) = some p := by
  induction l with
  | nil => simp [firstOnes] at h
  | cons a t ih =>
    simp only [firstOnes, List.mem_cons, List.mem_filter, decide_eq_true_eq] at h
    rcases h with rfl | ⟨h, hk⟩
    · simp
    · rw [List.find?_cons_of_neg (by simpa using fun e => hk e.symm)]
      exact ih h

theorem dset_fresh {κ β : Type} [DecidableEq κ] {d : Dict κ β} {k : κ} (h : k ∉ dkeys d) (v : β) :
    dset d k v = d ++ [(k, v)] := by
  induction d with
  | nil => rfl
  | cons kv t ih =>
    simp only [dkeys, List.map_cons, List.mem_cons, not_or] at h
    unfold dset
    rw [if_neg (fun e => h.1 e.symm), ih h.2]
    rfl

/-- the two dicts of the pool are those of the list `l` of packages in the order in which they were entered -/
structure Pool.IterInv (pool : Pool N S U) (l : List (Package N S U)) : Prop extends pool.IdInv l where
  vals : pool.idToPackage.map Prod.snd = l
  keys : dkeys pool.packageToId = (firstOnes l).map Package.key

theorem Pool.IterInv.empty (m : Option (Modifiers N)) : (Pool.empty m : Pool N S U).IterInv [] :=
  ⟨Pool.IdInv.empty m, rfl, rfl⟩

theorem Pool.IterInv.add {pool : Pool N S U} {l : List (Package N S U)} (h : pool.IterInv l) (p : Package N S U) :
    (pool.addPackage p).1.IterInv (l ++ [p]) := by
  refine ⟨h.toIdInv.add p, ?_, ?_⟩
  all_goals
    unfold addPackage
    obtain ⟨e1, -, e3, -⟩ := addProvides_ids p p.provides
      { pool with
        nextId := pool.nextId + 1
        idToPackage := dset pool.idToPackage pool.nextId p
        packageToId := dset pool.packageToId p.key pool.nextId }
  · rw [e1]
    simp only
    rw [dset_fresh, List.map_append, h.vals]
    · rfl
    · rw [h.ids, h.next, List.mem_range'_1]; omega
  · rw [e3]
    simp only
    rw [dkeys_dset, h.keys, firstOnes_append]
    simp only [mem_firstOnes_key]
    split <;> simp

theorem Pool.IterInv.addAll {pool : Pool N S U} {l : List (Package N S U)} (h : pool.IterInv l)
    (ps : List (Package N S U)) : ∃ done, done <+: ps ∧ (pool.addPackages ps).1.IterInv (l ++ done) ∧
      ((pool.addPackages ps).2 = none → done = ps) := by
  induction ps generalizing pool l with
  | nil => exact ⟨[], List.prefix_rfl, by simpa [Pool.addPackages] using h, fun _ => rfl⟩
  | cons p ps ih =>
    have h1 := h.add p
    cases hp : pool.addPackage p with
    | mk pool' r =>
      rw [hp] at h1
      cases r with
      | some e =>
        have e1 : pool.addPackages (p :: ps) = (pool', some e) := by simp only [Pool.addPackages, hp]
        exact ⟨[p], ⟨ps, rfl⟩, by rw [e1]; exact h1, by rw [e1]; simp⟩
      | none =>
        have e1 : pool.addPackages (p :: ps) = pool'.addPackages ps := by simp only [Pool.addPackages, hp]
        obtain ⟨done, g1, g2, g3⟩ := ih h1
        rw [e1]
        refine ⟨p :: done, ?_, ?_, ?_⟩
        · obtain ⟨t, rfl⟩ := g1
          exact ⟨t, rfl⟩
        · rw [List.append_assoc] at g2; exact g2
        · intro e; rw [g3 e]

theorem filterMap_find {f : PKey N S U → Option (Package N S U)} : ∀ {l : List (Package N S U)}, (∀ p ∈ l, f p.key = some p) →
    (l.map Package.key).filterMap f = l
  | [], _ => rfl
  | p :: t, h => by
    rw [List.map_cons, List.filterMap_cons_some (h p (List.mem_cons_self ..)),
      filterMap_find (fun q hq => h q (List.mem_cons_of_mem _ hq))]

theorem Pool.IterInv.iter_eq {pool : Pool N S U} {l : List (Package N S U)} (h : pool.IterInv l) :
    pool.iterPackages = firstOnes l := by
  unfold iterPackages
  rw [h.keys, h.vals]
  exact filterMap_find (fun p hp => find_firstOnes hp)

/-- the loops over `iter_packages()` of the model (`Solve/Compute.lean`, `Solve/Named.lean`) are over these packages -/
theorem Pool.IterInv.iter_keys {pool : Pool N S U} {l : List (Package N S U)} (h : pool.IterInv l) :
    pool.iterPackages.map Package.key = dkeys pool.packageToId := by
  rw [h.iter_eq, h.keys]

theorem lastId_max {k : PKey N S U} {l : List (Package N S U)} {i j : Nat} {p : Package N S U} (h : lastId k l = some i)
    (hj : l[j]? = some p) (hp : p.key = k) : j + 1 ≤ i := by
  induction l generalizing i j with
  | nil => simp at hj
  | cons q t ih =>
    unfold lastId at h
    cases ht : lastId k t with
    | some i' =>
      rw [ht] at h; cases h
      cases j with
      | zero => omega
      | succ j => have := ih ht (by simpa using hj); omega
    | none =>
      rw [ht] at h
      cases j with
      | zero => simp only at h; split at h <;> simp_all
      | succ j =>
        exfalso
        have := lastId_isSome.2 ⟨p, List.mem_of_getElem? (by simpa using hj : t[j]? = some p), hp⟩
        rw [ht] at this; simp at this

end Verif.Pkg

namespace Verif.Props
open Verif Verif.Pkg

variable {N S U : Type} [LinearOrder N] [DecidableEq S] [LinearOrder U] [Syntax S U]

theorem runAdds_iterInv (m : Option (Modifiers N)) (rs : List (Repository N S U)) : ∃ l, (runAdds m rs).IterInv l := by
  induction rs using List.reverseRecOn with
  | nil => exact ⟨[], Pool.IterInv.empty m⟩
  | append_singleton rs r ih =>
    obtain ⟨l, hl⟩ := ih
    obtain ⟨d, -, h, -⟩ := hl.addAll r.iter
    refine ⟨l ++ d, ?_⟩
    unfold runAdds at h ⊢
    rw [List.foldl_append]
    exact h

/-- without an exception, all packages of the repositories are in the pool -/
theorem iterInv_addRepositories (rs : List (Repository N S U)) :
    ∀ {pool : Pool N S U} {l : List (Package N S U)}, pool.IterInv l → (Pool.addRepositories rs pool).2 = none →
      (Pool.addRepositories rs pool).1.IterInv (l ++ rs.flatMap Repository.iter) := by
  induction rs with
  | nil => intro pool l h _; simpa [Pool.addRepositories] using h
  | cons r rs ih =>
    intro pool l h hok
    cases hp : pool.addPackages r.iter with
    | mk pool' e =>
      cases e with
      | some e =>
        have e1 : Pool.addRepositories (r :: rs) pool = (pool', some e) := by simp only [Pool.addRepositories, hp]
        rw [e1] at hok; simp at hok
      | none =>
        have e1 : Pool.addRepositories (r :: rs) pool = Pool.addRepositories rs pool' := by
          simp only [Pool.addRepositories, hp]
        rw [e1] at hok ⊢
        obtain ⟨done, -, g2, g3⟩ := h.addAll r.iter
        rw [g3 (by rw [hp])] at g2
        rw [hp] at g2
        have := ih g2 hok
        rw [List.append_assoc] at this
        simpa using this

/-! ### C139 -/

/-- C139: after any history of `add_repository` calls, successful or not, `iter_packages()` gives no two equal packages;
every package that it gives has an id; and for every id it gives a package that is equal to the package of that id. -/
theorem C139_each_package_once (m : Option (Modifiers N)) (rs : List (Repository N S U)) :
    (runAdds m rs).iterPackages.Pairwise (fun p q => ¬ SamePackage p q) ∧
    (∀ p ∈ (runAdds m rs).iterPackages, ∃ i ∈ (runAdds m rs).packageIds, (runAdds m rs).packageId p = .ok i) ∧
    (∀ i q, (runAdds m rs).idToPkg i = .ok q → ∃ p ∈ (runAdds m rs).iterPackages, SamePackage p q) := by
  obtain ⟨l, h⟩ := runAdds_iterInv m rs
  rw [h.iter_eq]
  refine ⟨(firstOnes_pairwise l).imp (fun hn hs => hn (samePackage_iff.1 hs)), fun p hp => ?_, fun i q hq => ?_⟩
  · obtain ⟨i, hi⟩ := h.toIdInv.packageId_ok (p := p) ⟨p, (firstOnes_sublist l).subset hp, rfl⟩
    obtain ⟨h1, h2, -⟩ := h.toIdInv.packageId_spec hi
    refine ⟨i, ?_, hi⟩
    unfold Pool.packageIds
    rw [h.ids, List.mem_range'_1]; omega
  · have hl := List.mem_of_getElem? ((h.toIdInv.idToPkg_spec i q).1 hq).2
    obtain ⟨p, hp, e⟩ := List.mem_map.1 (mem_firstOnes_key.2 (List.mem_map_of_mem (f := Package.key) hl))
    exact ⟨p, hp, samePackage_iff.2 e⟩

/-- C139: in a pool made of repositories, `iter_packages()` gives, in the order of the repositories and of the packages in
them, those packages that are equal to no earlier one. -/
theorem C139_first_ones {pool : Pool N S U} {m : Option (Modifiers N)} {rs : List (Repository N S U)}
    (hbuilt : Pool.addRepositories rs (Pool.empty m) = (pool, none)) :
    pool.iterPackages.Sublist (rs.flatMap Repository.iter) ∧
    ∀ p, p ∈ pool.iterPackages ↔ ∃ i : Nat, (rs.flatMap Repository.iter)[i]? = some p ∧
      ∀ (j : Nat) (q : Package N S U), j < i → (rs.flatMap Repository.iter)[j]? = some q → ¬ SamePackage q p := by
  have h := iterInv_addRepositories rs (Pool.IterInv.empty m) (by rw [hbuilt])
  rw [hbuilt] at h
  simp only [List.nil_append] at h
  rw [h.iter_eq]
  refine ⟨firstOnes_sublist _, fun p => ?_⟩
  simp only [samePackage_iff]
  exact mem_firstOnes

/-- C139: the id of a package is the last one that an equal package got. -/
theorem C139_last_id (m : Option (Modifiers N)) (rs : List (Repository N S U)) {p q : Package N S U} {i j : Nat}
    (hp : (runAdds m rs).packageId p = .ok i) (hq : (runAdds m rs).idToPkg j = .ok q) (hs : SamePackage q p) : j ≤ i := by
  obtain ⟨l, h⟩ := runAdds_iterInv m rs
  obtain ⟨h0, hj⟩ := (h.toIdInv.idToPkg_spec j q).1 hq
  unfold Pool.packageId at hp
  rw [h.pid] at hp
  cases hl : lastId p.key l with
  | none => rw [hl] at hp; simp at hp
  | some i' =>
    rw [hl] at hp
    simp only [Except.ok.injEq] at hp
    subst hp
    have := lastId_max hl hj (samePackage_iff.1 hs)
    omega

/-- C139, the part that holds: the ids are those of the packages that `iter_packages()` gives exactly if no two equal
packages were added. The full property has no such condition; see `C139_violated`. -/
theorem C139_ids_partial (m : Option (Modifiers N)) (rs : List (Repository N S U)) :
    (∀ i ∈ (runAdds m rs).packageIds, ∃ p ∈ (runAdds m rs).iterPackages, (runAdds m rs).packageId p = .ok i) ↔
      ∀ i j p q, (runAdds m rs).idToPkg i = .ok p → (runAdds m rs).idToPkg j = .ok q → SamePackage p q → i = j := by
  obtain ⟨h1, h2, h3⟩ := C139_each_package_once m rs
  have hids : ∀ i p, (runAdds m rs).idToPkg i = .ok p → i ∈ (runAdds m rs).packageIds := by
    intro i p hp
    obtain ⟨n, e, hn⟩ := C33_ids_are_consecutive m rs
    rw [e, List.mem_range'_1]
    have := (hn i).1 ⟨p, hp⟩
    omega
  constructor
  · intro h
    have key : ∀ i p, (runAdds m rs).idToPkg i = .ok p → (runAdds m rs).packageId p = .ok i := by
      intro i p hp
      obtain ⟨q, -, hq⟩ := h i (hids i p hp)
      obtain ⟨q', e, hs⟩ := C33_round_trip m rs q i hq
      rw [hp] at e; cases e
      rw [← hq]
      exact Pool.packageId_congr _ (samePackage_iff.1 hs)
    intro i j p q hp hq hs
    have a := key i p hp
    have b := key j q hq
    rw [Pool.packageId_congr _ (samePackage_iff.1 hs), b] at a
    cases a; rfl
  · intro h i hi
    obtain ⟨n, e, hn⟩ := C33_ids_are_consecutive m rs
    rw [e, List.mem_range'_1] at hi
    obtain ⟨q, hq⟩ := (hn i).2 (by omega)
    obtain ⟨p, hp, hs⟩ := h3 i q hq
    refine ⟨p, hp, ?_⟩
    obtain ⟨j, -, hj⟩ := h2 p hp
    obtain ⟨q', hq', hs'⟩ := C33_round_trip m rs p j hj
    have : i = j := h i j q q' hq hq' (samePackage_iff.2 (by
      rw [samePackage_iff.1 hs', ← samePackage_iff.1 hs]))
    rw [this]; exact hj

theorem firstOnes_of_pairwise {l : List (Package N S U)} (h : l.Pairwise (fun p q => p.key ≠ q.key)) : firstOnes l = l := by
  induction l with
  | nil => rfl
  | cons p t ih =>
    rw [List.pairwise_cons] at h
    rw [firstOnes, ih h.2, List.filter_eq_self.2]
    intro q hq
    simpa using fun e => h.1 q hq e.symm

/-- C139: there are never more packages than ids, and equally many exactly if no two equal packages were added. -/
theorem C139_counts_partial (m : Option (Modifiers N)) (rs : List (Repository N S U)) :
    (runAdds m rs).iterPackages.length ≤ (runAdds m rs).packageIds.length ∧
    ((runAdds m rs).iterPackages.length = (runAdds m rs).packageIds.length ↔
      ∀ i j p q, (runAdds m rs).idToPkg i = .ok p → (runAdds m rs).idToPkg j = .ok q → SamePackage p q → i = j) := by
  obtain ⟨l, h⟩ := runAdds_iterInv m rs
  have hlen : (runAdds m rs).packageIds.length = l.length := by
    unfold Pool.packageIds
    rw [h.ids, List.length_range']
  rw [h.iter_eq, hlen]
  refine ⟨(firstOnes_sublist l).length_le, fun e => ?_, fun hd => ?_⟩
  · have hp := firstOnes_pairwise l
    rw [(firstOnes_sublist l).eq_of_length e, List.pairwise_iff_getElem] at hp
    intro i j p q hi hj hs
    obtain ⟨i0, hi⟩ := (h.toIdInv.idToPkg_spec i p).1 hi
    obtain ⟨j0, hj⟩ := (h.toIdInv.idToPkg_spec j q).1 hj
    obtain ⟨hi1, hi2⟩ := List.getElem?_eq_some_iff.1 hi
    obtain ⟨hj1, hj2⟩ := List.getElem?_eq_some_iff.1 hj
    have hk := samePackage_iff.1 hs
    apply Classical.byContradiction
    intro hne
    rcases Nat.lt_or_gt_of_ne hne with hlt | hlt
    · exact hp (i - 1) (j - 1) hi1 hj1 (by omega) (by rw [hi2, hj2]; exact hk)
    · exact hp (j - 1) (i - 1) hj1 hi1 (by omega) (by rw [hi2, hj2]; exact hk.symm)
  · rw [firstOnes_of_pairwise]
    rw [List.pairwise_iff_getElem]
    intro i j hi hj hij he
    have := hd (i + 1) (j + 1) l[i] l[j] ((h.toIdInv.idToPkg_spec _ _).2 ⟨by omega, by simp [List.getElem?_eq_getElem hi]⟩)
      ((h.toIdInv.idToPkg_spec _ _).2 ⟨by omega, by simp [List.getElem?_eq_getElem hj]⟩) (samePackage_iff.2 he)
    omega

/-! A package that is in two repositories: C139 does not hold as it stands. -/
namespace PoolIterEx
open Verif.Pkg.Example

/-- the same package, which provides the name 7 in one repository and the name 8 in the other -/
def repoA : Repository Nat Str Nat := Repository.ofList [pkg 0 1 1 [] [] [dep 7], pkg 0 2 1]
def repoB : Repository Nat Str Nat := Repository.ofList [pkg 0 1 1 [] [] [dep 8]]
def pool : Pool Nat Str Nat := runAdds none [repoA, repoB]

/-- C139 is violated by the code: of three ids one belongs to no package of `iter_packages()`, and the package that is
found with the id of an iterated package is an equal one that provides other names. -/
theorem C139_violated :
    Pool.addRepositories [repoA, repoB] (Pool.empty none) = (pool, none) ∧
    pool.iterPackages = [pkg 0 1 1 [] [] [dep 7], pkg 0 2 1] ∧ pool.packageIds = [1, 2, 3] ∧
    pool.packageId (pkg 0 1 1 [] [] [dep 7]) = .ok 3 ∧ pool.packageId (pkg 0 2 1) = .ok 2 ∧
    pool.idToPkg 3 = .ok (pkg 0 1 1 [] [] [dep 8]) ∧
    pool.whatProvides ⟨.install, 7, []⟩ = .ok [pkg 0 1 1 [] [] [dep 7]] := ⟨rfl, rfl, rfl, rfl, rfl, rfl, rfl⟩

/-- a pool in which the condition of `C139_ids_partial` is met -/
example : (PoolEx.pool).iterPackages.map (fun p => PoolEx.pool.packageId p) = [.ok 1, .ok 2, .ok 3, .ok 4] ∧
    PoolEx.pool.packageIds = [1, 2, 3, 4] := ⟨rfl, rfl⟩
end PoolIterEx

end Verif.Props
