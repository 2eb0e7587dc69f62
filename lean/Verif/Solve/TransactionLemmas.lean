import Verif.Solve.GraphLemmas
import Batteries.Data.List.Perm
/-
What `_safe_operations` computes.
-/
set_option linter.unusedSectionVars false
namespace Verif.Solve
open Verif Verif.Pkg Verif.Graph Verif.Props Verif.Rules

variable {N S U : Type} [LinearOrder N] [DecidableEq S] [LinearOrder U] [Syntax S U]

/-! ### the order of the literals -/

/-- the literals in the order of the two nested loops -/
def litOrder (g : Adj Int) : List Int := (toposort g).1.flatMap (fun gr => sortBy iabs gr)

theorem flatMap_sort_perm (gs : List (List Int)) : (gs.flatMap (fun gr => sortBy iabs gr)).Perm gs.flatten := by
  induction gs with
  | nil => exact List.Perm.refl _
  | cons a t ih =>
    simp only [List.flatMap_cons, List.flatten_cons]
    exact (sortBy_perm iabs a).append ih

theorem litOrder_nodup {g : Adj Int} (hnd : (g.map Prod.fst).Nodup) : (litOrder g).Nodup :=
  (flatMap_sort_perm _).nodup_iff.2 (C17_groups_are_layers hnd).2.1

theorem mem_litOrder {g : Adj Int} (hnd : (g.map Prod.fst).Nodup) (hd : (toposort g).2 = .done) (x : Int) :
    x ∈ litOrder g ↔ IsNode g x := by
  unfold litOrder
  rw [(flatMap_sort_perm _).mem_iff]
  exact ⟨(C17_groups_are_layers hnd).2.2.1 x, C17_every_node_yielded hnd hd x⟩

theorem litOrder_before {g : Adj Int} (hnd : (g.map Prod.fst).Nodup) {x y : Int} (hx : x ∈ litOrder g)
    (hd : Dep g x y) : [y, x].Sublist (litOrder g) := by
  unfold litOrder at hx ⊢
  obtain ⟨gr, hgr, hxg⟩ := List.mem_flatMap.1 hx
  obtain ⟨pre, post, e⟩ := List.append_of_mem hgr
  obtain ⟨gr', hgr', hy⟩ := (C17_groups_are_layers hnd).2.2.2 pre gr post e x (by simpa using hxg) y hd
  rw [e, List.flatMap_append]
  have h1 : [y].Sublist (pre.flatMap (fun gr => sortBy iabs gr)) := by
    rw [List.singleton_sublist, List.mem_flatMap]
    exact ⟨gr', hgr', by simpa using hy⟩
  have h2 : [x].Sublist ((gr :: post).flatMap (fun gr => sortBy iabs gr)) := by
    rw [List.singleton_sublist, List.mem_flatMap]
    exact ⟨gr, by simp, hxg⟩
  exact h1.append h2

/-! ### removals and installs -/

/-- the literals of packages to remove, and of packages to install -/
def isRemoval (installed : List Nat) (l : Int) : Bool := decide (l < 0) && decide (l.natAbs ∈ installed)
def isInstall (installed : List Nat) (l : Int) : Bool := decide (0 < l) && decide (l.natAbs ∉ installed)

theorem sortOut_spec {D : List Int} {installed : List Nat} (ls : List Int) (h : ∀ l ∈ ls, l ∈ D)
    (r i : List Nat) : sortOut D installed ls (r, i) =
      .ok (r ++ (ls.filter (isRemoval installed)).map Int.natAbs, i ++ (ls.filter (isInstall installed)).map Int.natAbs) := by
  induction ls generalizing r i with
  | nil => simp [sortOut]
  | cons l ls ih =>
    have hl := h l (by simp)
    have ih := ih (fun x hx => h x (by simp [hx]))
    unfold sortOut
    rw [if_neg (by simpa using hl)]
    by_cases h1 : l < 0 ∧ l.natAbs ∈ installed
    · have h2 : isRemoval installed l = true := by simp [isRemoval, h1]
      have h3 : ¬ isInstall installed l = true := by simp [isInstall]; omega
      rw [if_pos h1, ih, List.filter_cons_of_pos h2, List.filter_cons_of_neg h3]
      simp
    · have h2 : ¬ isRemoval installed l = true := by simpa [isRemoval] using h1
      rw [if_neg h1, List.filter_cons_of_neg h2]
      by_cases h4 : 0 < l ∧ l.natAbs ∉ installed
      · have h3 : isInstall installed l = true := by simp [isInstall, h4]
        rw [if_pos h4, ih, List.filter_cons_of_pos h3]
        simp
      · have h3 : ¬ isInstall installed l = true := by simpa [isInstall] using h4
        rw [if_neg h4, ih, List.filter_cons_of_neg h3]

/-! ### installed packages of the same name and version -/

/-- the installed package that is preferred to `i` -/
def preferredId (pool : Pool N S U) (loc : Dict (N × Version U) Nat) (i : Nat) : Nat :=
  match packageKey pool i with
  | .error _ => i
  | .ok key => (dget loc key).getD i

theorem installLoop_spec {pool : Pool N S U} {loc : Dict (N × Version U) Nat} (is : List Nat)
    (h : ∀ i ∈ is, ∃ p, pool.idToPkg i = .ok p) (ps : List (Package N S U)) (rem : List Nat) :
    ∃ qs, mapE pool.idToPkg (is.filter (fun i => decide (preferredId pool loc i = i))) = .ok qs ∧
      installLoop pool loc is ps rem = .ok (ps ++ qs,
        (is.filter (fun i => decide (preferredId pool loc i ≠ i))).foldl
          (fun r i => r.erase (preferredId pool loc i)) rem) := by
  induction is generalizing ps rem with
  | nil => exact ⟨[], rfl, by simp [installLoop]⟩
  | cons i is ih =>
    obtain ⟨p, hp⟩ := h i (by simp)
    have ih := ih (fun x hx => h x (by simp [hx]))
    have hk : packageKey pool i = .ok (p.name, p.version) := by unfold packageKey; rw [hp]
    have hpref : preferredId pool loc i = (dget loc (p.name, p.version)).getD i := by
      unfold preferredId; rw [hk]
    unfold installLoop
    simp only [hk, ← hpref]
    by_cases hc : preferredId pool loc i = i
    · obtain ⟨qs, h1, h2⟩ := ih (ps ++ [p]) rem
      refine ⟨p :: qs, ?_, ?_⟩
      · rw [List.filter_cons_of_pos (by simpa using hc), mapE_cons_ok]
        exact ⟨p, qs, hp, h1, rfl⟩
      · rw [if_neg (by simpa using hc), hp]
        simp only
        rw [h2, List.filter_cons_of_neg (by simpa using hc)]
        simp
    · obtain ⟨qs, h1, h2⟩ := ih ps (rem.erase (preferredId pool loc i))
      refine ⟨qs, ?_, ?_⟩
      · rw [List.filter_cons_of_neg (by simpa using hc)]; exact h1
      · rw [if_pos hc, h2, List.filter_cons_of_pos (by simpa using hc)]
        simp

theorem foldl_erase (f : Nat → Nat) (is rem : List Nat) (hnd : rem.Nodup) :
    is.foldl (fun r i => r.erase (f i)) rem = rem.filter (fun r => decide (r ∉ is.map f)) := by
  induction is generalizing rem with
  | nil => exact (List.filter_eq_self.2 (by simp)).symm
  | cons i is ih =>
    rw [List.foldl_cons, ih _ (hnd.erase _), hnd.erase_eq_filter, List.filter_filter]
    apply List.filter_congr
    intro x hx
    simp only [List.map_cons, List.mem_cons, not_or]
    rw [Bool.eq_iff_iff]
    simp [bne_iff_ne, and_comm]

/-- `_local_packages` -/
theorem localPackages_spec {pool : Pool N S U} {installed : List Nat} {loc : Dict (N × Version U) Nat}
    (h : localPackages pool installed = .ok loc) (k : N × Version U) :
    (∀ j, dget loc k = some j → j ∈ installed ∧ packageKey pool j = .ok k) ∧
    (∀ i ∈ installed, packageKey pool i = .ok k → dget loc k ≠ none) := by
  unfold localPackages at h
  split at h
  · simp at h
  · next items hi =>
    cases h
    constructor
    · intro j hj
      have := dget_dictOf_some hj
      rw [mem_mapE hi] at this
      obtain ⟨i, h1, h2⟩ := this
      unfold keyItem at h2
      split at h2
      · simp at h2
      · next key hk =>
        simp only [Except.ok.injEq, Prod.mk.injEq] at h2
        obtain ⟨rfl, rfl⟩ := h2
        exact ⟨h1, hk⟩
    · intro i h1 h2
      rw [ne_eq, dget_none_iff, not_not, mem_dkeys_dictOf]
      refine ⟨i, ?_⟩
      rw [mem_mapE hi]
      exact ⟨i, h1, by unfold keyItem; rw [h2]⟩

theorem localPackages_ok {pool : Pool N S U} {installed : List Nat} (h : ∀ i ∈ installed, ∃ p, pool.idToPkg i = .ok p) :
    ∃ loc, localPackages pool installed = .ok loc := by
  unfold localPackages
  obtain ⟨l, hl⟩ := mapE_ok_of (f := keyItem pool) (xs := installed) (by
    intro i hi
    obtain ⟨p, hp⟩ := h i hi
    exact ⟨((p.name, p.version), i), by unfold keyItem packageKey; rw [hp]⟩)
  rw [hl]
  exact ⟨_, rfl⟩

/-! ### everything together -/

section
variable {pool : Pool N S U} {avail : List (Package N S U)} (hok : pool.OK avail) {D : List Int}
  (hD : Decisions pool D) {installed : List Nat} (hI : ∀ i ∈ installed, ∃ k, IdOf pool k i)
include hok hD hI

/-- what is known about the operations, in terms of identifiers -/
structure OpsSpec (pool : Pool N S U) (avail : List (Package N S U)) (D : List Int) (installed : List Nat)
    (ops : List (Op N S U)) : Prop where
  mk ::
  spec : ∃ (L : List Int) (loc : Dict (N × Version U) Nat) (rem ins : List (Package N S U)),
    localPackages pool installed = .ok loc ∧
    L.Nodup ∧ (∀ x, x ∈ L ↔ x ∈ D) ∧
    (∀ x y k k', x ∈ D → y ∈ D → x ≠ y → IdOf pool k x.natAbs → IdOf pool k' y.natAbs →
      DependsOn avail pool.modifiers k k' → [y, x].Sublist L) ∧
    mapE pool.idToPkg (((L.filter (isInstall installed)).map Int.natAbs).filter
      (fun i => decide (preferredId pool loc i = i))) = .ok ins ∧
    mapE pool.idToPkg (((L.filter (isRemoval installed)).map Int.natAbs).filter
      (fun r => decide (r ∉ (((L.filter (isInstall installed)).map Int.natAbs).filter
        (fun i => decide (preferredId pool loc i ≠ i))).map (preferredId pool loc)))).reverse = .ok rem ∧
    ops = rem.map .remove ++ ins.map .install

theorem IdOf.idToPkg {k : PKey N S U} {i : Nat} (h : IdOf pool k i) : ∃ p, pool.idToPkg i = .ok p := by
  obtain ⟨p, -, -, h1, -⟩ := IdOf.get hok h
  exact ⟨p, h1⟩

theorem safeOperations_spec {loc : Dict (N × Version U) Nat} (hloc : localPackages pool installed = .ok loc)
    {g : Adj Int} (hg : packageLitDependencyGraph pool D true = .ok g) :
    ((toposort g).2 = .done ∧ ∃ ops, safeOperations pool D installed loc = .ok ops ∧
      OpsSpec pool avail D installed ops) ∨
    ((∃ rest, (toposort g).2 = .cyclic rest) ∧ safeOperations pool D installed loc = .error .valueError) := by
  have hnd := graph_nodup hg
  have hfuel := C17_terminates hnd
  unfold safeOperations
  rw [hg]
  simp only
  cases ht : toposort g with
  | mk groups e =>
    rw [ht] at hfuel
    cases e with
    | outOfFuel => exact absurd rfl hfuel
    | cyclic rest => right; exact ⟨⟨rest, rfl⟩, rfl⟩
    | done =>
      left
      refine ⟨rfl, ?_⟩
      simp only
      have hL : groups.flatMap (fun gr => sortBy iabs gr) = litOrder g := by unfold litOrder; rw [ht]
      rw [hL]
      have hdone : (toposort g).2 = .done := by rw [ht]
      have hmem : ∀ x, x ∈ litOrder g ↔ x ∈ D := by
        intro x
        rw [mem_litOrder hnd hdone]
        unfold IsNode
        rw [graph_keys hg, mem_fromkeys]
        constructor
        · rintro (h | ⟨y, he⟩)
          · exact h
          · exact (graph_edge_mem hok hD hg he).2
        · exact Or.inl
      have hlnd := litOrder_nodup hnd
      rw [sortOut_spec (litOrder g) (fun l hl => (hmem l).1 hl)]
      simp only [List.nil_append]
      have hids : ∀ P : Int → Bool, ∀ i ∈ ((litOrder g).filter P).map Int.natAbs, ∃ p, pool.idToPkg i = .ok p := by
        intro P i hi
        obtain ⟨l, hl, rfl⟩ := List.mem_map.1 hi
        obtain ⟨k, hk⟩ := hD.known l ((hmem l).1 (List.mem_filter.1 hl).1)
        obtain ⟨p, -, -, h1, -⟩ := IdOf.get hok hk
        exact ⟨p, h1⟩
      have hremnd : (((litOrder g).filter (isRemoval installed)).map Int.natAbs).Nodup := by
        rw [List.Nodup, List.pairwise_map]
        have := hlnd.filter (isRemoval installed)
        refine List.Pairwise.imp_of_mem ?_ this
        intro a b ha hb hab
        have h1 := (List.mem_filter.1 ha).2
        have h2 := (List.mem_filter.1 hb).2
        simp only [isRemoval, Bool.and_eq_true, decide_eq_true_eq] at h1 h2
        omega
      obtain ⟨qs, h1, h2⟩ := installLoop_spec (pool := pool) (loc := loc) _ (hids (isInstall installed)) []
        (((litOrder g).filter (isRemoval installed)).map Int.natAbs)
      rw [h2]
      simp only [List.nil_append]
      rw [foldl_erase _ _ _ hremnd]
      obtain ⟨rem, hrem⟩ := mapE_ok_of (f := pool.idToPkg) (xs := ((((litOrder g).filter (isRemoval installed)).map
          Int.natAbs).filter (fun r => decide (r ∉ ((((litOrder g).filter (isInstall installed)).map Int.natAbs).filter
        (fun i => decide (preferredId pool loc i ≠ i))).map (preferredId pool loc)))).reverse) (by
          intro i hi
          rw [List.mem_reverse, List.mem_filter] at hi
          exact hids _ i hi.1)
      rw [hrem]
      refine ⟨_, rfl, ⟨litOrder g, loc, rem, qs, hloc, hlnd, hmem, ?_, h1, hrem, rfl⟩⟩
      intro x y k k' hx hy hne hk hk' hdep
      exact litOrder_before hnd ((hmem x).2 hx) ⟨(graph_dep hok hD hg hx hk hy hk').2 hdep, fun e => hne e.symm⟩

theorem mkTransaction_spec {t : Transaction N S U} (h : mkTransaction pool D installed = .ok t) :
    OpsSpec pool avail D installed t.operations ∧ prettyOperations pool t.operations = .ok t.pretty := by
  unfold mkTransaction at h
  split at h
  · simp at h
  · next loc hloc =>
    split at h
    · simp at h
    · next ops hops =>
      split at h
      · simp at h
      · next pretty hp =>
        cases h
        refine ⟨?_, hp⟩
        cases hg : packageLitDependencyGraph pool D true with
        | error e => unfold safeOperations at hops; simp [hg] at hops
        | ok g =>
          rcases safeOperations_spec hok hD hI hloc hg with ⟨-, ops', h1, h2⟩ | ⟨-, h1⟩
          · rw [hops] at h1; cases h1; exact h2
          · rw [hops] at h1; simp at h1

end

end Verif.Solve
