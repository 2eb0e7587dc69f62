import Verif.Solve.Compute
import Verif.Props.Functions
/-
Property C52: compute_dependencies, compute_reverse_dependencies, compute_leaf_packages.
-/
set_option linter.unusedSectionVars false
namespace Verif.Graph
open Verif Relation
variable {α : Type} [DecidableEq α] {g : Adj α}

/-- the keys of a dict that is being filled: different, and all of them keys of the graph -/
structure TransInv (g t : Adj α) : Prop where
  nd : (t.map Prod.fst).Nodup
  sub : ∀ x ∈ t.map Prod.fst, x ∈ g.map Prod.fst

theorem transUpdate_keys (t : Adj α) (x : α) (xs : List α) :
    (transUpdate t x xs).map Prod.fst = if x ∈ t.map Prod.fst then t.map Prod.fst else t.map Prod.fst ++ [x] := by
  induction t with
  | nil => simp [transUpdate]
  | cons kv t ih =>
    unfold transUpdate
    by_cases h : kv.1 = x
    · rw [if_pos h]; simp [h]
    · rw [if_neg h, List.map_cons, ih]
      by_cases hx : x ∈ t.map Prod.fst
      · rw [if_pos hx, if_pos]; · simp
        rw [List.map_cons]; exact List.mem_cons_of_mem _ hx
      · rw [if_neg hx, if_neg]; · simp
        rw [List.map_cons, List.mem_cons]
        rintro (e | e)
        · exact h e.symm
        · exact hx e

theorem TransInv.update {t : Adj α} (h : TransInv g t) {x : α} (hx : x ∈ g.map Prod.fst) (xs : List α) :
    TransInv g (transUpdate t x xs) := by
  constructor
  · rw [transUpdate_keys]
    split
    · exact h.nd
    · next hn =>
      rw [List.nodup_append]
      refine ⟨h.nd, by simp, ?_⟩
      intro a ha b hb e
      rw [List.mem_singleton] at hb
      exact hn (by rw [← hb, ← e]; exact ha)
  · intro y hy
    rw [transUpdate_keys] at hy
    split at hy
    · exact h.sub y hy
    · rcases List.mem_append.1 hy with hy | hy
      · exact h.sub y hy
      · rw [List.mem_singleton] at hy; rw [hy]; exact hx

theorem transNeighbors_inv {rec : α → Adj α → Except GErr (Adj α)}
    (hrec : ∀ x t t', TransInv g t → rec x t = .ok t' → TransInv g t') {node : α} (hx : node ∈ g.map Prod.fst)
    (l : List α) : ∀ {t t' : Adj α}, TransInv g t → transNeighbors rec node l t = .ok t' → TransInv g t' := by
  induction l with
  | nil => intro t t' h he; cases he; exact h
  | cons nb l ih =>
    intro t t' h he
    unfold transNeighbors at he
    split at he
    · cases he
    · next t1 h1 => exact ih ((hrec nb t t1 h h1).update hx _) he

theorem transNode_inv (fuel : Nat) : ∀ (x : α) (t t' : Adj α), TransInv g t → transNode g fuel x t = .ok t' →
    TransInv g t' := by
  induction fuel with
  | zero => intro x t t' _ he; cases he
  | succ fuel ih =>
    intro x t t' h he
    unfold transNode at he
    split at he
    · cases he; exact h
    · split at he
      · cases he
      · next nbs hn =>
        have hx : x ∈ g.map Prod.fst := adjGet_isSome.1 (by rw [hn]; rfl)
        exact transNeighbors_inv ih hx nbs (h.update hx _) he

theorem transitiveNeighbors_inv {t : Adj α} (h : transitiveNeighbors g = .ok t) : TransInv g t := by
  unfold transitiveNeighbors at h
  have : ∀ (l : List α) (t t' : Adj α), TransInv g t → transAll g (g.length + 1) l t = .ok t' → TransInv g t' := by
    intro l
    induction l with
    | nil => intro t t' h he; cases he; exact h
    | cons x l ih =>
      intro t t' h he
      unfold transAll at he
      split at he
      · cases he
      · next t1 h1 => exact ih t1 t' (transNode_inv _ x t t1 h h1) he
  exact this _ [] t ⟨by simp, by simp⟩ h

theorem adjGet_of_mem {t : Adj α} (hnd : (t.map Prod.fst).Nodup) {x : α} {l : List α} (h : (x, l) ∈ t) :
    adjGet t x = some l := by
  induction t with
  | nil => simp at h
  | cons kv t ih =>
    rw [adjGet_cons]
    rw [List.map_cons, List.nodup_cons] at hnd
    rcases List.mem_cons.1 h with h | h
    · rw [← h, if_pos rfl]
    · rw [if_neg, ih hnd.2 h]
      intro e
      exact hnd.1 (by rw [e]; exact List.mem_map.2 ⟨_, h, rfl⟩)

theorem edge_adjGet {t : Adj α} (hnd : (t.map Prod.fst).Nodup) {x y : α} :
    Edge t x y ↔ y ∈ (adjGet t x).getD [] := by
  constructor
  · rintro ⟨l, h1, h2⟩
    rw [adjGet_of_mem hnd h1]
    exact h2
  · intro h
    cases hx : adjGet t x with
    | none => rw [hx] at h; simp at h
    | some l => rw [hx] at h; exact ⟨l, adjGet_some_mem hx, h⟩

end Verif.Graph

namespace Verif.Solve
open Verif Verif.Pkg Verif.Graph Verif.Props

theorem reverseEntry_spec (key : Int) (vals : List Int) : ∀ (rev : Adj Int) (x y : Int),
    x ∈ (adjGet (reverseEntry key vals rev) y).getD [] ↔ x ∈ (adjGet rev y).getD [] ∨ (x = key ∧ y ∈ vals) := by
  induction vals with
  | nil => intro rev x y; simp [reverseEntry]
  | cons v vals ih =>
    intro rev x y
    have : reverseEntry key (v :: vals) rev = reverseEntry key vals (transUpdate rev v [key]) := rfl
    rw [this, ih, adjGet_transUpdate]
    by_cases h : y = v
    · subst h
      rw [if_pos rfl, Option.getD_some, mem_supdate]
      simp only [List.mem_cons, true_or, and_true]
      tauto
    · rw [if_neg h]
      simp only [List.mem_cons, h, false_or]

theorem reverseMapping_spec (m : Adj Int) (x y : Int) : x ∈ (adjGet (reverseMapping m) y).getD [] ↔ Edge m x y := by
  have : ∀ (m rev : Adj Int), x ∈ (adjGet (m.foldl (fun rev kv => reverseEntry kv.1 kv.2 rev) rev) y).getD [] ↔
      x ∈ (adjGet rev y).getD [] ∨ Edge m x y := by
    intro m
    induction m with
    | nil =>
      intro rev
      refine ⟨Or.inl, fun h => h.elim id ?_⟩
      rintro ⟨l, h, -⟩
      simp at h
    | cons kv m ih =>
      intro rev
      rw [List.foldl_cons, ih, reverseEntry_spec]
      have : Edge (kv :: m) x y ↔ (x = kv.1 ∧ y ∈ kv.2) ∨ Edge m x y := by
        unfold Edge
        constructor
        · rintro ⟨l, h1, h2⟩
          rcases List.mem_cons.1 h1 with h1 | h1
          · left; rw [← h1]; exact ⟨rfl, h2⟩
          · exact Or.inr ⟨l, h1, h2⟩
        · rintro (⟨h1, h2⟩ | ⟨l, h1, h2⟩)
          · exact ⟨kv.2, by rw [h1]; simp, h2⟩
          · exact ⟨l, List.mem_cons_of_mem _ h1, h2⟩
      rw [this, or_assoc]
  unfold reverseMapping
  rw [this]
  simp [adjGet]

end Verif.Solve

namespace Verif.Props
open Verif Verif.Pkg Verif.Solve Verif.Rules Verif.Graph
open Relation

variable {N S U : Type} [LinearOrder N] [DecidableEq S] [LinearOrder U] [Syntax S U]

section
variable {pool : Pool N S U} {avail : List (Package N S U)} (hok : pool.OK avail)
include hok

theorem mem_ids (o : SetOrder) (x : Int) :
    x ∈ o.ord (pool.packageIds.map Int.ofNat) ↔ ∃ p ∈ avail, ∃ i : Nat, x = i ∧ pool.idToPkg i = .ok p := by
  rw [(o.perm _).mem_iff, List.mem_map]
  unfold Pool.packageIds
  rw [hok.ids.ids]
  simp only [List.mem_range'_1]
  constructor
  · rintro ⟨i, hi, rfl⟩
    have hlt : i - 1 < avail.length := by omega
    refine ⟨avail[i - 1], List.getElem_mem hlt, i, rfl, ?_⟩
    rw [hok.ids.idToPkg_spec]
    exact ⟨by omega, List.getElem?_eq_getElem hlt⟩
  · rintro ⟨p, hp, i, rfl, hi⟩
    rw [hok.ids.idToPkg_spec] at hi
    obtain ⟨h0, h1⟩ := hi
    obtain ⟨h2, -⟩ := List.getElem?_eq_some_iff.1 h1
    exact ⟨i, by omega, rfl⟩

theorem ids_consistent (o : SetOrder) : ∀ l ∈ o.ord (pool.packageIds.map Int.ofNat),
    -l ∉ o.ord (pool.packageIds.map Int.ofNat) := by
  intro l hl hn
  rw [mem_ids hok] at hl hn
  obtain ⟨p, -, i, rfl, hi⟩ := hl
  obtain ⟨q, -, j, hj, -⟩ := hn
  have := ((hok.ids.idToPkg_spec i p).1 hi).1
  omega

theorem current_id {k : PKey N S U} {i : Nat} (o : SetOrder) (h : IdOf pool k i) :
    (i : Int) ∈ o.ord (pool.packageIds.map Int.ofNat) := by
  obtain ⟨p, hp, -, hi, -⟩ := IdOf.get hok h
  exact (mem_ids hok o _).2 ⟨p, hp, i, rfl, hi⟩

/-- the identifier `x` stands for the package `k`: the current one, or an older one of an equal package -/
def Stands (pool : Pool N S U) (x : Int) (k : PKey N S U) : Prop := ∃ i : Nat, x = i ∧ ∃ p, pool.idToPkg i = .ok p ∧ p.key = k

omit hok in
theorem Stands.fn {x : Int} {k k' : PKey N S U} (h : Stands pool x k) (h' : Stands pool x k') : k = k' := by
  obtain ⟨i, rfl, p, hp, rfl⟩ := h
  obtain ⟨j, hj, q, hq, rfl⟩ := h'
  obtain rfl : i = j := by omega
  rw [hp] at hq
  cases hq
  rfl

theorem stands_of_id {k : PKey N S U} {i : Nat} (h : IdOf pool k i) : Stands pool (i : Int) k := by
  obtain ⟨p, -, hk, hi, -⟩ := IdOf.get hok h
  exact ⟨i, rfl, p, hi, hk⟩

theorem stands_avail {k : PKey N S U} {x : Int} (h : Stands pool x k) : ∃ p ∈ avail, p.key = k := by
  obtain ⟨i, rfl, p, hi, hk⟩ := h
  exact ⟨p, List.mem_of_getElem? ((hok.ids.idToPkg_spec i p).1 hi).2, hk⟩

theorem mem_ids_iff (o : SetOrder) (x : Int) : x ∈ o.ord (pool.packageIds.map Int.ofNat) ↔ ∃ k, Stands pool x k := by
  rw [mem_ids hok]
  constructor
  · rintro ⟨p, -, i, rfl, hi⟩
    exact ⟨p.key, i, rfl, p, hi, rfl⟩
  · rintro ⟨k, i, rfl, p, hi, rfl⟩
    exact ⟨p, List.mem_of_getElem? ((hok.ids.idToPkg_spec i p).1 hi).2, i, rfl, hi⟩

/-- the edges of a mapping of identifiers are at most / at least the pairs of a relation between packages -/
def Upper (pool : Pool N S U) (nb : Adj Int) (R : PKey N S U → PKey N S U → Prop) : Prop :=
  ∀ x y, Edge nb x y → ∃ k k' i, Stands pool x k ∧ y = ((i : Nat) : Int) ∧ IdOf pool k' i ∧ R k k'
def Lower (pool : Pool N S U) (nb : Adj Int) (R : PKey N S U → PKey N S U → Prop) : Prop :=
  ∀ x k k' (i : Nat), Stands pool x k → IdOf pool k' i → R k k' → Edge nb x i

variable {o : SetOrder} {g : Adj Int}

theorem direct_edges (hm : pool.modifiers = none)
    (h : packageLitDependencyGraph pool (o.ord (pool.packageIds.map Int.ofNat)) false = .ok g) :
    Upper pool g (DependsOn avail none) ∧ Lower pool g (DependsOn avail none) := by
  have key := graph_edge h
  constructor
  · intro x y he
    rw [key] at he
    obtain ⟨hx, p, hp, t, ht, req, cands, h1, h2, d, hd, i, hi, h3⟩ := he
    obtain ⟨q, -, j, rfl, hj⟩ := (mem_ids hok o x).1 hx
    have hpj : pool.idToPkg j = .ok p := hp
    have hii : IdOf pool d.key i := ⟨d, rfl, hi⟩
    have hy : y = (i : Int) := by
      rw [idMap_spec (ids_consistent hok o)] at h3
      rcases h3 with ⟨h3, h4⟩ | ⟨-, h3, h4⟩
      · obtain ⟨q', -, j', rfl, -⟩ := (mem_ids hok o y).1 h3
        rw [← h4]; rfl
      · exact h4
    obtain ⟨hda, hdm⟩ := (mem_whatProvides hok h2 d).1 hd
    rw [hm] at hdm
    exact ⟨p.key, d.key, i, ⟨j, rfl, p, hpj, rfl⟩, hy, hii, t, ht, d, hda, rfl, req, h1, hdm⟩
  · rintro x k k' i hx hi ⟨t, ht, d, hd, hdk, req, h1, h2⟩
    have hx' := (mem_ids_iff hok o x).2 ⟨k, hx⟩
    obtain ⟨j, rfl, p, hj, rfl⟩ := hx
    obtain ⟨cands, hc⟩ := whatProvides_install (pool := pool) (fromConstraints_cls h1) true
    rw [key]
    refine ⟨hx', p, hj, t, ht, req, cands, h1, hc, d, (mem_whatProvides hok hc d).2 ⟨hd, by rw [hm]; exact h2⟩, i, ?_,
      Or.inl ?_⟩
    · obtain ⟨q, hq, hqi⟩ := hi
      rw [pool.packageId_congr (hdk.trans hq.symm)]
      exact hqi
    · rw [idMap_spec (ids_consistent hok o)]
      exact ⟨current_id hok o hi, rfl⟩

theorem Upper.trans {R : PKey N S U → PKey N S U → Prop} (h : Upper pool g R) {x y : Int}
    (hxy : TransGen (Edge g) x y) : ∃ k k' i, Stands pool x k ∧ y = ((i : Nat) : Int) ∧ IdOf pool k' i ∧ TransGen R k k' := by
  induction hxy with
  | single h1 =>
    obtain ⟨k, k', i, a, b, c, d⟩ := h _ _ h1
    exact ⟨k, k', i, a, b, c, .single d⟩
  | tail _ h1 ih =>
    obtain ⟨k, k', i, a, rfl, c, d⟩ := ih
    obtain ⟨k1, k2, j, a', rfl, c', d'⟩ := h _ _ h1
    rw [Stands.fn a' (stands_of_id hok c)] at d'
    exact ⟨k, k2, j, a, rfl, c', d.tail d'⟩

theorem Lower.trans {R : PKey N S U → PKey N S U → Prop} (h : Lower pool g R)
    (hR : ∀ k k', R k k' → ∃ p ∈ avail, p.key = k') {x : Int} {k k' : PKey N S U} {i : Nat} (hx : Stands pool x k)
    (hi : IdOf pool k' i) (hk : TransGen R k k') : TransGen (Edge g) x i := by
  induction hk generalizing i with
  | single h1 => exact .single (h _ _ _ _ hx hi h1)
  | tail h0 h1 ih =>
    next b c =>
    have hb : ∃ p ∈ avail, p.key = b := by
      cases h0 with
      | single h0 => exact hR _ _ h0
      | tail _ h0 => exact hR _ _ h0
    obtain ⟨p, hp, rfl⟩ := hb
    obtain ⟨j, hj⟩ := IdOf.of_avail hok hp
    exact (ih hj).tail (h _ _ _ _ (stands_of_id hok hj) hi h1)

theorem dependsOn_avail {m : Option (Modifiers N)} {k k' : PKey N S U} (h : DependsOn avail m k k') :
    ∃ p ∈ avail, p.key = k' := by
  obtain ⟨t, -, d, hd, hk, -⟩ := h
  exact ⟨d, hd, hk⟩

/-- a cycle of identifiers is a cycle of packages -/
theorem Upper.cycle {R : PKey N S U → PKey N S U → Prop} (h : Upper pool g R) {y : Int}
    (hy : TransGen (Dep g) y y) : ∃ k, TransGen (fun a b => a ≠ b ∧ R a b) k k := by
  have step : ∀ {x z : Int} {k : PKey N S U}, (∃ i : Nat, x = i ∧ IdOf pool k i) → TransGen (Dep g) x z →
      ∃ k', (∃ i : Nat, z = i ∧ IdOf pool k' i) ∧ TransGen (fun a b => a ≠ b ∧ R a b) k k' := by
    have one : ∀ {x z : Int} {k : PKey N S U}, (∃ i : Nat, x = i ∧ IdOf pool k i) → Dep g x z →
      ∃ k', (∃ i : Nat, z = i ∧ IdOf pool k' i) ∧ (k ≠ k' ∧ R k k') := by
      rintro x z k ⟨i, rfl, hi⟩ ⟨he, hne⟩
      obtain ⟨k1, k2, j, a, rfl, c, d⟩ := h _ _ he
      rw [Stands.fn a (stands_of_id hok hi)] at d
      refine ⟨k2, ⟨j, rfl, c⟩, ?_, d⟩
      rintro rfl
      exact hne (by rw [IdOf.fn c hi])
    intro x z k hx hxz
    induction hxz with
    | single h1 =>
      obtain ⟨k', a, b⟩ := one hx h1
      exact ⟨k', a, .single b⟩
    | tail _ h1 ih =>
      obtain ⟨k1, a, b⟩ := ih
      obtain ⟨k', c, d⟩ := one a h1
      exact ⟨k', c, b.tail d⟩
  have hcur : ∃ k, ∃ i : Nat, y = i ∧ IdOf pool k i := by
    have : ∃ x, Edge g x y := by
      cases hy with
      | single h => exact ⟨_, h.1⟩
      | tail _ h => exact ⟨_, h.1⟩
    obtain ⟨x, hx⟩ := this
    obtain ⟨-, k', i, -, b, c, -⟩ := h _ _ hx
    exact ⟨k', i, b, c⟩
  obtain ⟨k, hk⟩ := hcur
  obtain ⟨k', hk', ht⟩ := step hk hy
  obtain ⟨i, rfl, hi⟩ := hk
  obtain ⟨j, hj, hj'⟩ := hk'
  obtain rfl : i = j := by omega
  rw [IdOf.inj hok hj' hi] at ht
  exact ⟨k, ht⟩

omit hok in
theorem edge_reorder {x y : Int} : Edge (g.map (fun kv => (kv.1, o.ord kv.2))) x y ↔ Edge g x y := by
  unfold Edge
  constructor
  · rintro ⟨v, h1, h2⟩
    obtain ⟨kv, h3, h4⟩ := List.mem_map.1 h1
    cases h4
    exact ⟨kv.2, h3, (o.perm _).mem_iff.1 h2⟩
  · rintro ⟨v, h1, h2⟩
    exact ⟨o.ord v, List.mem_map.2 ⟨_, h1, rfl⟩, (o.perm _).mem_iff.2 h2⟩

theorem reorder_closed (hm : pool.modifiers = none)
    (h : packageLitDependencyGraph pool (o.ord (pool.packageIds.map Int.ofNat)) false = .ok g) :
    ((g.map (fun kv => (kv.1, o.ord kv.2))).map Prod.fst).Nodup ∧
    (∀ x, x ∈ (g.map (fun kv => (kv.1, o.ord kv.2))).map Prod.fst ↔ ∃ k, Stands pool x k) ∧
    ∀ x v, (x, v) ∈ g.map (fun kv => (kv.1, o.ord kv.2)) → ∀ y ∈ v, y ∈ (g.map (fun kv => (kv.1, o.ord kv.2))).map Prod.fst := by
  have e : (g.map (fun kv => (kv.1, o.ord kv.2))).map Prod.fst = g.map Prod.fst := by
    rw [List.map_map]; rfl
  have h2 : ∀ x, x ∈ g.map Prod.fst ↔ ∃ k, Stands pool x k := by
    intro x
    rw [graph_keys h, mem_fromkeys, mem_ids_iff hok]
  rw [e]
  refine ⟨graph_nodup h, h2, ?_⟩
  intro x v hv y hy
  rw [h2]
  obtain ⟨-, k', i, -, rfl, hi, -⟩ := (direct_edges hok hm h).1 x y (edge_reorder.1 ⟨v, hv, hy⟩)
  exact ⟨k', stands_of_id hok hi⟩

/-- what is known about the mapping that is used -/
structure Mapping (pool : Pool N S U) (avail : List (Package N S U)) (transitive : Bool) (nb : Adj Int) : Prop where
  nd : (nb.map Prod.fst).Nodup
  keys : ∀ x, x ∈ nb.map Prod.fst ↔ ∃ k, Stands pool x k
  lower : Lower pool nb (DependsOn avail none)
  upper : Upper pool nb (TransGen (DependsOn avail none))
  direct : transitive = false → Upper pool nb (DependsOn avail none)
  exact : (¬ ∃ k, TransGen (OtherDep avail none) k k) → transitive = true → Lower pool nb (TransGen (DependsOn avail none))

theorem mapping_spec (hm : pool.modifiers = none) {transitive : Bool} {nb : Adj Int}
    (h : neighborsInRepositories o pool transitive = .ok nb) : Mapping pool avail transitive nb := by
  unfold neighborsInRepositories at h
  split at h
  · cases h
  · next g hg =>
    obtain ⟨hU, hL⟩ := direct_edges hok hm hg
    cases transitive with
    | false =>
      cases h
      refine ⟨graph_nodup hg, ?_, hL, ?_, fun _ => hU, fun _ h => by cases h⟩
      · intro x
        rw [graph_keys hg, mem_fromkeys, mem_ids_iff hok]
      · intro x y he
        obtain ⟨k, k', i, a, b, c, d⟩ := hU x y he
        exact ⟨k, k', i, a, b, c, .single d⟩
    | true =>
      simp only [if_true] at h
      obtain ⟨h1, h2, h3⟩ := reorder_closed hok hm hg
      obtain ⟨t, ht, hs, hc, hk⟩ := transitiveNeighbors_spec ⟨h1, h3⟩
      have e : t = nb := by
        rw [ht] at h
        simpa [liftG] using h
      subst e
      have hinv := transitiveNeighbors_inv ht
      have hE : ∀ x y, Edge (g.map (fun kv => (kv.1, o.ord kv.2))) x y ↔ Edge g x y := fun x y => edge_reorder
      have hEE : Edge (g.map (fun kv => (kv.1, o.ord kv.2))) = Edge g := by funext x y; exact propext (hE x y)
      have hDD : Dep (g.map (fun kv => (kv.1, o.ord kv.2))) = Dep g := by unfold Dep; rw [hEE]
      have hget : ∀ {x k}, Stands pool x k → ∃ l, adjGet t x = some l := by
        intro x k hx
        exact Option.isSome_iff_exists.1 (hk x ((h2 x).2 ⟨k, hx⟩))
      refine ⟨hinv.nd, ?_, ?_, ?_, (fun h => by cases h), ?_⟩
      · intro x
        refine ⟨fun hx => (h2 x).1 (hinv.sub x hx), ?_⟩
        rintro ⟨k, hx⟩
        obtain ⟨l, hl⟩ := hget hx
        exact adjGet_isSome.1 (by rw [hl]; rfl)
      · intro x k k' i hx hi hR
        obtain ⟨l, hl⟩ := hget hx
        have := (hs x l hl).2 i ((hE _ _).2 (hL x k k' i hx hi hR))
        exact ⟨l, adjGet_some_mem hl, this⟩
      · rintro x y ⟨l, hl, hy⟩
        have := (hs x l (adjGet_of_mem hinv.nd hl)).1 y hy
        rw [hEE] at this
        exact Upper.trans hok hU this
      · intro hac _ x k k' i hx hi hR
        obtain ⟨l, hl⟩ := hget hx
        refine ⟨l, adjGet_some_mem hl, hc x l (by simp) ?_ hl i ?_⟩
        · intro y _ hy
          rw [hDD] at hy
          exact hac (Upper.cycle hok hU hy)
        · rw [hEE]
          exact Lower.trans hok hL (fun k k' h => dependsOn_avail hok h) hx hi hR

omit hok in
theorem mapE_mem {α β : Type} {f : α → Except PErr β} {xs : List α} {ys : List β} (h : mapE f xs = .ok ys) (y : β) :
    y ∈ ys ↔ ∃ x ∈ xs, f x = .ok y := by
  induction xs generalizing ys with
  | nil => cases h; simp
  | cons x xs ih =>
    unfold mapE at h
    cases hx : f x with
    | error e => simp [hx] at h
    | ok b =>
      simp only [hx] at h
      cases hr : mapE f xs with
      | error e => simp [hr] at h
      | ok bs =>
        simp only [hr] at h
        cases h
        rw [List.mem_cons, ih hr]
        simp [hx, eq_comm]

theorem neighborsOf_spec {lookup : Int → Except PErr (List Int)} (ps : List (Package N S U)) :
    ∀ {acc res : List (Package N S U)}, (acc.map Package.key).Nodup → neighborsOf pool lookup ps acc = .ok res →
    (res.map Package.key).Nodup ∧ (∀ q ∈ res, q ∈ acc ∨ q ∈ avail) ∧
    ∀ k, Keys res k ↔ Keys acc k ∨ ∃ p ∈ ps, ∃ i l, pool.packageId p = .ok i ∧ lookup i = .ok l ∧ ∃ d ∈ l, ∃ q,
      pool.idToPkg d.natAbs = .ok q ∧ q.key = k := by
  induction ps with
  | nil =>
    intro acc res hn h
    cases h
    exact ⟨hn, fun q hq => Or.inl hq, fun k => by simp⟩
  | cons p ps ih =>
    intro acc res hn h
    unfold neighborsOf at h
    split at h
    · cases h
    · next i hi =>
      split at h
      · cases h
      · next l hl =>
        split at h
        · cases h
        · next qs hq =>
          obtain ⟨h1, h2, h3⟩ := addNew_spec qs acc hn
          obtain ⟨h4, h5, h6⟩ := ih h1 h
          have hqs : ∀ q ∈ qs, q ∈ avail := by
            intro q hq'
            obtain ⟨d, -, hd⟩ := (mapE_mem hq q).1 hq'
            exact List.mem_of_getElem? ((hok.ids.idToPkg_spec _ q).1 hd).2
          refine ⟨h4, ?_, fun k => ?_⟩
          · intro q hq'
            rcases h5 q hq' with h | h
            · exact (h2 q h).imp id (hqs q)
            · exact Or.inr h
          · rw [h6, h3]
            have : Keys qs k ↔ ∃ d ∈ l, ∃ q, pool.idToPkg d.natAbs = .ok q ∧ q.key = k := by
              unfold Keys
              constructor
              · rintro ⟨q, hq', hk⟩
                obtain ⟨d, hd, hdq⟩ := (mapE_mem hq q).1 hq'
                exact ⟨d, hd, q, hdq, hk⟩
              · rintro ⟨d, hd, q, hdq, hk⟩
                exact ⟨q, (mapE_mem hq q).2 ⟨d, hd, hdq⟩, hk⟩
            rw [this]
            constructor
            · rintro ((h | h) | ⟨p', hp', h⟩)
              · exact Or.inl h
              · exact Or.inr ⟨p, by simp, i, l, hi, hl, h⟩
              · exact Or.inr ⟨p', List.mem_cons_of_mem _ hp', h⟩
            · rintro (h | ⟨p', hp', i', l', hi', hl', h⟩)
              · exact Or.inl (Or.inl h)
              · rcases List.mem_cons.1 hp' with rfl | hp'
                · rw [hi] at hi'; cases hi'
                  rw [hl] at hl'; cases hl'
                  exact Or.inl (Or.inr h)
                · exact Or.inr ⟨p', hp', i', l', hi', hl', h⟩

theorem neighborsForRequirement_spec (hm : pool.modifiers = none) {lookup : Int → Except PErr (List Int)}
    {r : Requirement N U} {res : List (Package N S U)} (h : neighborsForRequirement pool lookup r = .ok res) :
    (res.map Package.key).Nodup ∧ (∀ q ∈ res, q ∈ avail) ∧
    ∀ k, Keys res k ↔ ∃ p ∈ avail, MeetsJob r p ∧ ∃ i l, pool.packageId p = .ok i ∧ lookup i = .ok l ∧ ∃ d ∈ l, ∃ q,
      pool.idToPkg d.natAbs = .ok q ∧ q.key = k := by
  unfold neighborsForRequirement at h
  split at h
  · cases h
  · next ps hps =>
    obtain ⟨h1, h2, h3⟩ := neighborsOf_spec hok ps (acc := []) (by simp) h
    refine ⟨h1, fun q hq => (h2 q hq).elim (by simp) id, fun k => ?_⟩
    rw [h3]
    have hmem : ∀ p, p ∈ ps ↔ p ∈ avail ∧ MeetsJob r p := by
      intro p
      have := mem_whatProvides hok hps p
      rw [hm] at this
      exact this
    constructor
    · rintro (⟨q, hq, -⟩ | ⟨p, hp, h⟩)
      · simp at hq
      · exact ⟨p, ((hmem p).1 hp).1, ((hmem p).1 hp).2, h⟩
    · rintro ⟨p, hp, hr, h⟩
      exact Or.inr ⟨p, (hmem p).2 ⟨hp, hr⟩, h⟩

/-- the neighbours that are found by looking up the mapping / the reversed mapping -/
theorem forward_keys (hm : pool.modifiers = none) {t : Bool} {nb : Adj Int} (hM : Mapping pool avail t nb)
    {r : Requirement N U} {res : List (Package N S U)} (h : neighborsForRequirement pool (dictLookup nb) r = .ok res)
    (k : PKey N S U) : Keys res k ↔ ∃ p ∈ avail, MeetsJob r p ∧ ∃ i y, IdOf pool p.key i ∧ Edge nb i y ∧ Stands pool y k := by
  rw [(neighborsForRequirement_spec hok hm h).2.2]
  constructor
  · rintro ⟨p, hp, hr, i, l, hi, hl, d, hd, q, hq, hk⟩
    have he : Edge nb (i : Int) d := by
      rw [edge_adjGet hM.nd]
      unfold dictLookup at hl
      split at hl
      · next l' hl' => cases hl; rw [hl']; exact hd
      · cases hl
    obtain ⟨-, k', j, -, rfl, hj, -⟩ := hM.upper _ _ he
    exact ⟨p, hp, hr, i, j, ⟨p, rfl, hi⟩, he, j, rfl, q, hq, hk⟩
  · rintro ⟨p, hp, hr, i, y, hi, he, j, rfl, q, hq, hk⟩
    have hi' : pool.packageId p = .ok i := by
      obtain ⟨p', hk', hp'⟩ := hi
      rw [← hp', pool.packageId_congr hk']
    obtain ⟨l, hl, hy⟩ := he
    refine ⟨p, hp, hr, i, l, hi', ?_, j, hy, q, hq, hk⟩
    unfold dictLookup
    rw [adjGet_of_mem hM.nd hl]

theorem backward_keys (hm : pool.modifiers = none) {t : Bool} {nb : Adj Int} (hM : Mapping pool avail t nb)
    {r : Requirement N U} {res : List (Package N S U)}
    (h : neighborsForRequirement pool (defaultLookup (reverseMapping nb)) r = .ok res) (k : PKey N S U) :
    Keys res k ↔ ∃ p ∈ avail, MeetsJob r p ∧ ∃ (i : Nat) (x : Int), IdOf pool p.key i ∧ Edge nb x i ∧ Stands pool x k := by
  rw [(neighborsForRequirement_spec hok hm h).2.2]
  constructor
  · rintro ⟨p, hp, hr, i, l, hi, hl, d, hd, q, hq, hk⟩
    unfold defaultLookup at hl
    cases hl
    rw [reverseMapping_spec] at hd
    obtain ⟨k1, -, j, ⟨i', rfl, p', hp', -⟩, -⟩ := hM.upper _ _ hd
    exact ⟨p, hp, hr, i, i', ⟨p, rfl, hi⟩, hd, i', rfl, q, hq, hk⟩
  · rintro ⟨p, hp, hr, i, x, hi, he, j, rfl, q, hq, hk⟩
    have hi' : pool.packageId p = .ok i := by
      obtain ⟨p', hk', hp'⟩ := hi
      rw [← hp', pool.packageId_congr hk']
    exact ⟨p, hp, hr, i, _, hi', rfl, j, (reverseMapping_spec nb _ _).2 he, q, hq, hk⟩

end

/-! ### C52 -/

variable {rs : List (Repository N S U)} {r : Requirement N U} {res : List (Package N S U)} {o : SetOrder}

theorem compute_stages {t : Bool} (h : computeDependencies o rs r t = .ok res) :
    ∃ pool nb, pool.OK (allPackages rs) ∧ pool.modifiers = none ∧ Mapping pool (allPackages rs) t nb ∧
      neighborsForRequirement pool (dictLookup nb) r = .ok res := by
  unfold computeDependencies at h
  split at h
  · cases h
  · next pool hp =>
    have hb := mkPool_built hp
    split at h
    · cases h
    · next nb hn => exact ⟨pool, nb, hb.ok, built_ok_modifiers hb, mapping_spec hb.ok (built_ok_modifiers hb) hn, h⟩

theorem reverse_stages {t : Bool} (h : computeReverseDependencies o rs r t = .ok res) :
    ∃ pool nb, pool.OK (allPackages rs) ∧ pool.modifiers = none ∧ Mapping pool (allPackages rs) t nb ∧
      neighborsForRequirement pool (defaultLookup (reverseMapping nb)) r = .ok res := by
  unfold computeReverseDependencies at h
  split at h
  · cases h
  · next pool hp =>
    have hb := mkPool_built hp
    split at h
    · cases h
    · next nb hn => exact ⟨pool, nb, hb.ok, built_ok_modifiers hb, mapping_spec hb.ok (built_ok_modifiers hb) hn, h⟩

/-- C52: the results are packages of the repositories, none twice -/
theorem C52_dependencies_are_packages {t : Bool}
    (h : computeDependencies o rs r t = .ok res ∨ computeReverseDependencies o rs r t = .ok res) :
    (∀ p ∈ res, p ∈ allPackages rs) ∧ res.Pairwise (fun p q => ¬ SamePackage p q) := by
  have key : (res.map Package.key).Nodup ∧ ∀ q ∈ res, q ∈ allPackages rs := by
    rcases h with h | h
    · obtain ⟨pool, nb, hok, hm, -, h⟩ := compute_stages h
      exact ⟨(neighborsForRequirement_spec hok hm h).1, (neighborsForRequirement_spec hok hm h).2.1⟩
    · obtain ⟨pool, nb, hok, hm, -, h⟩ := reverse_stages h
      exact ⟨(neighborsForRequirement_spec hok hm h).1, (neighborsForRequirement_spec hok hm h).2.1⟩
  refine ⟨key.2, ?_⟩
  have := key.1
  rw [List.Nodup, List.pairwise_map] at this
  simp only [samePackage_iff]
  exact this

/-- C52: `compute_dependencies` returns the packages that some package which meets the requirement depends on -/
theorem C52_dependencies (h : computeDependencies o rs r false = .ok res) (k : PKey N S U) :
    Keys res k ↔ ∃ p ∈ allPackages rs, MeetsJob r p ∧ DependsOn (allPackages rs) none p.key k := by
  obtain ⟨pool, nb, hok, hm, hM, h⟩ := compute_stages h
  rw [forward_keys hok hm hM h]
  constructor
  · rintro ⟨p, hp, hr, i, y, hi, he, hy⟩
    obtain ⟨k1, k2, j, h1, rfl, h3, h4⟩ := hM.direct rfl _ _ he
    rw [Stands.fn h1 (stands_of_id hok hi), Stands.fn (stands_of_id hok h3) hy] at h4
    exact ⟨p, hp, hr, h4⟩
  · rintro ⟨p, hp, hr, hd⟩
    obtain ⟨i, hi⟩ := IdOf.of_avail hok hp
    obtain ⟨q, hq, rfl⟩ := dependsOn_avail hok hd
    obtain ⟨j, hj⟩ := IdOf.of_avail hok hq
    exact ⟨p, hp, hr, i, j, hi, hM.lower _ _ _ _ (stands_of_id hok hi) hj hd, stands_of_id hok hj⟩

/-- C52: `compute_reverse_dependencies` returns the packages that depend on some package which meets the requirement -/
theorem C52_reverse_dependencies (h : computeReverseDependencies o rs r false = .ok res) (k : PKey N S U) :
    Keys res k ↔ (∃ q ∈ allPackages rs, q.key = k) ∧
      ∃ p ∈ allPackages rs, MeetsJob r p ∧ DependsOn (allPackages rs) none k p.key := by
  obtain ⟨pool, nb, hok, hm, hM, h⟩ := reverse_stages h
  rw [backward_keys hok hm hM h]
  constructor
  · rintro ⟨p, hp, hr, i, x, hi, he, hx⟩
    refine ⟨stands_avail hok hx, p, hp, hr, ?_⟩
    obtain ⟨k1, k2, j, h1, h2, h3, h4⟩ := hM.direct rfl _ _ he
    obtain rfl : i = j := by omega
    rw [Stands.fn h1 hx, IdOf.inj hok h3 hi] at h4
    exact h4
  · rintro ⟨⟨q, hq, rfl⟩, p, hp, hr, hd⟩
    obtain ⟨i, hi⟩ := IdOf.of_avail hok hp
    obtain ⟨j, hj⟩ := IdOf.of_avail hok hq
    exact ⟨p, hp, hr, i, j, hi, hM.lower _ _ _ _ (stands_of_id hok hj) hi hd, stands_of_id hok hj⟩

/-- C52: they are dual: if only `p` meets the one requirement and only `q` the other, then `q` is a dependency of the first
exactly if `p` is a reverse dependency of the second. -/
theorem C52_dual {o' : SetOrder} {r' : Requirement N U} {res' : List (Package N S U)}
    (h : computeDependencies o rs r false = .ok res) (h' : computeReverseDependencies o' rs r' false = .ok res')
    {p q : Package N S U} (hp : ∀ x ∈ allPackages rs, MeetsJob r x ↔ SamePackage x p)
    (hq : ∀ x ∈ allPackages rs, MeetsJob r' x ↔ SamePackage x q) (hpa : p ∈ allPackages rs) (hqa : q ∈ allPackages rs) :
    (∃ d ∈ res, SamePackage d q) ↔ ∃ d ∈ res', SamePackage d p := by
  have e1 := C52_dependencies h q.key
  have e2 := C52_reverse_dependencies h' p.key
  unfold Keys at e1 e2
  simp only [samePackage_iff, e1, e2]
  constructor
  · rintro ⟨p', hp', hr, hd⟩
    rw [samePackage_iff.1 ((hp p' hp').1 hr)] at hd
    exact ⟨⟨p, hpa, rfl⟩, q, hqa, (hq q hqa).2 (samePackage_iff.2 rfl), hd⟩
  · rintro ⟨-, q', hq', hr, hd⟩
    rw [samePackage_iff.1 ((hq q' hq').1 hr)] at hd
    exact ⟨p, hpa, (hp p hpa).2 (samePackage_iff.2 rfl), hd⟩

/-- C52: with `transitive` only packages that can be reached are returned, and all direct dependencies are -/
theorem C52_transitive_bounds (h : computeDependencies o rs r true = .ok res) (k : PKey N S U) :
    (Keys res k → ∃ p ∈ allPackages rs, MeetsJob r p ∧ TransGen (DependsOn (allPackages rs) none) p.key k) ∧
    ((∃ p ∈ allPackages rs, MeetsJob r p ∧ DependsOn (allPackages rs) none p.key k) → Keys res k) := by
  obtain ⟨pool, nb, hok, hm, hM, h⟩ := compute_stages h
  rw [forward_keys hok hm hM h]
  constructor
  · rintro ⟨p, hp, hr, i, y, hi, he, hy⟩
    obtain ⟨k1, k2, j, h1, rfl, h3, h4⟩ := hM.upper _ _ he
    rw [Stands.fn h1 (stands_of_id hok hi), Stands.fn (stands_of_id hok h3) hy] at h4
    exact ⟨p, hp, hr, h4⟩
  · rintro ⟨p, hp, hr, hd⟩
    obtain ⟨i, hi⟩ := IdOf.of_avail hok hp
    obtain ⟨q, hq, rfl⟩ := dependsOn_avail hok hd
    obtain ⟨j, hj⟩ := IdOf.of_avail hok hq
    exact ⟨p, hp, hr, i, j, hi, hM.lower _ _ _ _ (stands_of_id hok hi) hj hd, stands_of_id hok hj⟩

theorem C52_reverse_transitive_bounds (h : computeReverseDependencies o rs r true = .ok res) (k : PKey N S U) :
    (Keys res k → (∃ q ∈ allPackages rs, q.key = k) ∧
      ∃ p ∈ allPackages rs, MeetsJob r p ∧ TransGen (DependsOn (allPackages rs) none) k p.key) ∧
    (((∃ q ∈ allPackages rs, q.key = k) ∧
      ∃ p ∈ allPackages rs, MeetsJob r p ∧ DependsOn (allPackages rs) none k p.key) → Keys res k) := by
  obtain ⟨pool, nb, hok, hm, hM, h⟩ := reverse_stages h
  rw [backward_keys hok hm hM h]
  constructor
  · rintro ⟨p, hp, hr, i, x, hi, he, hx⟩
    refine ⟨stands_avail hok hx, p, hp, hr, ?_⟩
    obtain ⟨k1, k2, j, h1, h2, h3, h4⟩ := hM.upper _ _ he
    obtain rfl : i = j := by omega
    rw [Stands.fn h1 hx, IdOf.inj hok h3 hi] at h4
    exact h4
  · rintro ⟨⟨q, hq, rfl⟩, p, hp, hr, hd⟩
    obtain ⟨i, hi⟩ := IdOf.of_avail hok hp
    obtain ⟨j, hj⟩ := IdOf.of_avail hok hq
    exact ⟨p, hp, hr, i, j, hi, hM.lower _ _ _ _ (stands_of_id hok hj) hi hd, stands_of_id hok hj⟩

theorem trans_avail {avail : List (Package N S U)} {k k' : PKey N S U} (h : TransGen (DependsOn avail none) k k') :
    ∃ p ∈ avail, p.key = k' := by
  have : ∀ {a b}, DependsOn avail none a b → ∃ p ∈ avail, p.key = b := by
    rintro a b ⟨t, -, d, hd, hk, -⟩
    exact ⟨d, hd, hk⟩
  cases h with
  | single h => exact this h
  | tail _ h => exact this h

/-- C52 (partial): with `transitive` exactly the packages that can be reached are returned, if the dependencies have no cycle
(a package may depend on itself). What is missing: with a cycle, packages may be missing, see `C52_transitive_violated`. -/
theorem C52_transitive_partial (h : computeDependencies o rs r true = .ok res)
    (hc : ¬ ∃ k, TransGen (OtherDep (allPackages rs) none) k k) (k : PKey N S U) :
    Keys res k ↔ ∃ p ∈ allPackages rs, MeetsJob r p ∧ TransGen (DependsOn (allPackages rs) none) p.key k := by
  refine ⟨(C52_transitive_bounds h k).1, ?_⟩
  obtain ⟨pool, nb, hok, hm, hM, h⟩ := compute_stages h
  rw [forward_keys hok hm hM h]
  rintro ⟨p, hp, hr, hd⟩
  obtain ⟨i, hi⟩ := IdOf.of_avail hok hp
  obtain ⟨q, hq, rfl⟩ := trans_avail hd
  obtain ⟨j, hj⟩ := IdOf.of_avail hok hq
  exact ⟨p, hp, hr, i, j, hi, hM.exact hc rfl _ _ _ _ (stands_of_id hok hi) hj hd, stands_of_id hok hj⟩

/-- C52 (partial): the same for reverse dependencies -/
theorem C52_reverse_transitive_partial (h : computeReverseDependencies o rs r true = .ok res)
    (hc : ¬ ∃ k, TransGen (OtherDep (allPackages rs) none) k k) (k : PKey N S U) :
    Keys res k ↔ (∃ q ∈ allPackages rs, q.key = k) ∧
      ∃ p ∈ allPackages rs, MeetsJob r p ∧ TransGen (DependsOn (allPackages rs) none) k p.key := by
  refine ⟨(C52_reverse_transitive_bounds h k).1, ?_⟩
  obtain ⟨pool, nb, hok, hm, hM, h⟩ := reverse_stages h
  rw [backward_keys hok hm hM h]
  rintro ⟨⟨q, hq, rfl⟩, p, hp, hr, hd⟩
  obtain ⟨i, hi⟩ := IdOf.of_avail hok hp
  obtain ⟨j, hj⟩ := IdOf.of_avail hok hq
  exact ⟨p, hp, hr, i, j, hi, hM.exact hc rfl _ _ _ _ (stands_of_id hok hj) hi hd, stands_of_id hok hj⟩

theorem leafLoop_spec {pool : Pool N S U} {rev : Adj Int} (ks : List (PKey N S U)) : ∀ {acc out : List (PKey N S U)},
    leafLoop pool rev ks acc = .ok out → ∀ k, k ∈ out ↔ k ∈ acc ∨ (k ∈ ks ∧
      neighborsForRequirement pool (defaultLookup rev) (Requirement.exactly .install k.name k.version) = .ok []) := by
  induction ks with
  | nil => intro acc out h k; cases h; simp
  | cons x ks ih =>
    intro acc out h k
    unfold leafLoop at h
    split at h
    · cases h
    · next deps hd =>
      rw [ih h]
      constructor
      · rintro (h1 | ⟨h1, h2⟩)
        · split at h1
          · next he =>
            rcases List.mem_append.1 h1 with h1 | h1
            · exact Or.inl h1
            · rw [List.mem_singleton] at h1
              subst h1
              rw [List.isEmpty_iff] at he
              rw [he] at hd
              exact Or.inr ⟨by simp, hd⟩
          · exact Or.inl h1
        · exact Or.inr ⟨List.mem_cons_of_mem _ h1, h2⟩
      · rintro (h1 | ⟨h1, h2⟩)
        · left; split
          · exact List.mem_append_left _ h1
          · exact h1
        · rcases List.mem_cons.1 h1 with h1 | h1
          · subst h1
            rw [hd] at h2
            cases h2
            left; simp
          · exact Or.inr ⟨h1, h2⟩

theorem leaf_total {pool : Pool N S U} {rev : Adj Int} (ks : List (PKey N S U)) : ∀ {acc out : List (PKey N S U)},
    leafLoop pool rev ks acc = .ok out → ∀ k ∈ ks, ∃ deps,
      neighborsForRequirement pool (defaultLookup rev) (Requirement.exactly .install k.name k.version) = .ok deps := by
  induction ks with
  | nil => intro acc out h k hk; simp at hk
  | cons x ks ih =>
    intro acc out h k hk
    unfold leafLoop at h
    split at h
    · cases h
    · next deps hd =>
      rcases List.mem_cons.1 hk with hk | hk
      · rw [hk]; exact ⟨deps, hd⟩
      · exact ih h k hk

/-- C52: `compute_leaf_packages` returns the packages such that no package depends on one of the packages which provide the
name of it in its version -/
theorem C52_leaves {out : List (PKey N S U)} (h : computeLeafPackages o rs = .ok out) (k : PKey N S U) :
    k ∈ out ↔ (∃ p ∈ allPackages rs, p.key = k) ∧
      ¬ ∃ q ∈ allPackages rs, ∃ p ∈ allPackages rs, Provides p k.name ∧ p.version = k.version ∧
        DependsOn (allPackages rs) none q.key p.key := by
  unfold computeLeafPackages at h
  split at h
  · cases h
  · next pool hp =>
    have hb := mkPool_built hp
    have hok := hb.ok
    have hm := built_ok_modifiers hb
    split at h
    · cases h
    · next nb hn =>
      have hM := mapping_spec hok hm hn
      have hk : ∀ k, k ∈ dkeys pool.packageToId ↔ ∃ p ∈ allPackages rs, p.key = k := by
        intro k
        rw [mem_dkeys_iff]
        simp only [hok.ids.pid]
        rw [← Option.isSome_iff_exists, lastId_isSome]
      rw [leafLoop_spec _ h]
      simp only [List.not_mem_nil, false_or, hk]
      refine and_congr_right (fun ha => ?_)
      obtain ⟨deps, hd⟩ := leaf_total _ h k ((hk k).2 ha)
      have hkeys := backward_keys hok hm hM hd
      rw [hd]
      have hnil : (Except.ok deps : Except PErr (List (Package N S U))) = .ok [] ↔ ∀ k, ¬ Keys deps k := by
        simp only [Except.ok.injEq]
        constructor
        · rintro rfl k ⟨p, hp, -⟩
          simp at hp
        · intro h
          rw [List.eq_nil_iff_forall_not_mem]
          intro p hp
          exact h p.key ⟨p, hp, rfl⟩
      rw [hnil]
      constructor
      · rintro hn ⟨q, hq, p, hp, h1, h2, h3⟩
        obtain ⟨i, hi⟩ := IdOf.of_avail hok hp
        obtain ⟨j, hj⟩ := IdOf.of_avail hok hq
        exact hn q.key ((hkeys _).2 ⟨p, hp, (meetsJob_exactly _ _ _).2 ⟨h1, h2⟩, i, j, hi,
          hM.lower _ _ _ _ (stands_of_id hok hj) hi h3, stands_of_id hok hj⟩)
      · rintro hn k' hk'
        obtain ⟨p, hp, hr, i, x, hi, he, hx⟩ := (hkeys k').1 hk'
        obtain ⟨h1, h2⟩ := (meetsJob_exactly _ _ _).1 hr
        obtain ⟨q, hq, rfl⟩ := stands_avail hok hx
        obtain ⟨k1, k2, j, h3, h4, h5, h6⟩ := hM.direct rfl _ _ he
        obtain rfl : i = j := by omega
        rw [Stands.fn h3 hx, IdOf.inj hok h5 hi] at h6
        exact hn ⟨q, hq, p, hp, h1, h2, h6⟩

/-- C52 (partial): if packages provide nothing but their own names and there is only one package per name and version, these
are the packages on which no package depends. What is missing: see `C52_leaves_violated`. -/
theorem C52_leaves_partial {out : List (PKey N S U)} (h : computeLeafPackages o rs = .ok out)
    (hown : PlainNames (allPackages rs))
    (huniq : ∀ p ∈ allPackages rs, ∀ q ∈ allPackages rs, p.name = q.name → p.version = q.version → SamePackage p q)
    (k : PKey N S U) :
    k ∈ out ↔ (∃ p ∈ allPackages rs, p.key = k) ∧ ¬ ∃ q ∈ allPackages rs, DependsOn (allPackages rs) none q.key k := by
  rw [C52_leaves h]
  refine and_congr_right ?_
  rintro ⟨p, hp, rfl⟩
  refine not_congr (exists_congr fun q => and_congr_right fun hq => ?_)
  constructor
  · rintro ⟨p', hp', h1, h2, h3⟩
    rw [samePackage_iff.1 (huniq p hp p' hp' (hown p' hp' _ h1) h2.symm)]
    exact h3
  · intro h3
    exact ⟨p, hp, Or.inl rfl, rfl, h3⟩

/-! ### the functions return -/

theorem neighborsForRequirement_total {pool : Pool N S U} {avail : List (Package N S U)} (hok : pool.OK avail)
    {lookup : Int → Except PErr (List Int)} (hr : r.cls = .install)
    (hl : ∀ k i, IdOf pool k i → ∃ l, lookup i = .ok l ∧ ∀ d ∈ l, ∃ k, Stands pool d k) :
    ∃ res, neighborsForRequirement pool lookup r = .ok res := by
  obtain ⟨ps, hps⟩ := whatProvides_install (pool := pool) hr true
  unfold neighborsForRequirement
  simp only [hps]
  have hmem : ∀ p ∈ ps, p ∈ avail := fun p hp => ((mem_whatProvides hok hps p).1 hp).1
  have : ∀ (ps acc : List (Package N S U)), (∀ p ∈ ps, p ∈ avail) → ∃ res, neighborsOf pool lookup ps acc = .ok res := by
    intro ps
    induction ps with
    | nil => intro acc _; exact ⟨acc, rfl⟩
    | cons p ps ih =>
      intro acc h
      obtain ⟨i, hi⟩ := hok.ids.packageId_ok ⟨p, h p (by simp), rfl⟩
      obtain ⟨l, h1, h2⟩ := hl p.key i ⟨p, rfl, hi⟩
      obtain ⟨qs, hq⟩ := mapE_ok_of (f := fun d : Int => pool.idToPkg d.natAbs) (xs := l) (by
        intro d hd
        obtain ⟨k, j, rfl, q, hq, -⟩ := h2 d hd
        exact ⟨q, hq⟩)
      unfold neighborsOf
      simp only [hi, h1, hq]
      exact ih _ (fun p hp => h p (List.mem_cons_of_mem _ hp))
  exact this ps [] hmem

theorem neighbors_total {pool : Pool N S U} {avail : List (Package N S U)} (hok : pool.OK avail)
    (hm : pool.modifiers = none)
    (hr : ∀ p ∈ avail, ∀ t ∈ p.installRequires, ∃ r : Requirement N U, fromConstraints .install t = .ok r)
    (o : SetOrder) (t : Bool) : ∃ nb, neighborsInRepositories o pool t = .ok nb := by
  obtain ⟨g, hg⟩ := graph_ok (pool := pool) (lits := o.ord (pool.packageIds.map Int.ofNat)) (closed := false) (by
    intro l hl
    obtain ⟨p, hp, i, rfl, hi⟩ := (mem_ids hok o l).1 hl
    refine ⟨p, hi, fun t ht => ?_⟩
    obtain ⟨r, hr⟩ := hr p hp t ht
    obtain ⟨cands, hc⟩ := whatProvides_install (pool := pool) (fromConstraints_cls hr) true
    exact ⟨r, cands, hr, hc, fun d hd => hok.ids.packageId_ok ⟨d, ((mem_whatProvides hok hc d).1 hd).1, rfl⟩⟩)
  unfold neighborsInRepositories
  simp only [hg]
  cases t with
  | false => exact ⟨g, rfl⟩
  | true =>
    obtain ⟨h1, h2, h3⟩ := reorder_closed hok hm hg
    obtain ⟨t, ht, -⟩ := transitiveNeighbors_spec ⟨h1, h3⟩
    simp only [if_true, ht]
    exact ⟨t, rfl⟩

/-- C52: the functions return, for an install requirement, packages that provide no versioned names, and readable
dependencies -/
theorem C52_returns (o : SetOrder) {rs : List (Repository N S U)}
    (hu : ∀ p ∈ allPackages rs, ∀ t ∈ p.declaredProvides, Unversioned (U := U) t)
    (hr : ∀ p ∈ allPackages rs, ∀ t ∈ p.installRequires, ∃ r : Requirement N U, fromConstraints .install t = .ok r)
    {r : Requirement N U} (hc : r.cls = .install) (t : Bool) :
    (∃ res, computeDependencies o rs r t = .ok res) ∧ (∃ res, computeReverseDependencies o rs r t = .ok res) ∧
    ∃ out, computeLeafPackages o rs = .ok out := by
  have hpool : ∃ pool, mkPool rs (none : Option (Modifiers N)) = .ok pool := by
    have := (C34_versioned_provides_rejected rs (Pool.empty none)).2 (by
      intro repo hr' p hp
      exact hu p (List.mem_flatMap.2 ⟨repo, hr', hp⟩))
    unfold mkPool
    split
    · next p _ => exact ⟨p, rfl⟩
    · next p e he => rw [he] at this; simp at this
  obtain ⟨pool, hp⟩ := hpool
  have hb := mkPool_built hp
  have hok := hb.ok
  have hm := built_ok_modifiers hb
  have hback : ∀ {t nb}, Mapping pool (allPackages rs) t nb → ∀ {r : Requirement N U}, r.cls = .install →
      ∃ res, neighborsForRequirement pool (defaultLookup (reverseMapping nb)) r = .ok res := by
    intro t nb hM r hc
    refine neighborsForRequirement_total hok hc (fun k i hi => ⟨_, rfl, ?_⟩)
    intro d hd
    obtain ⟨k, -, -, hk, -⟩ := hM.upper _ _ ((reverseMapping_spec nb d i).1 hd)
    exact ⟨k, hk⟩
  refine ⟨?_, ?_, ?_⟩
  · obtain ⟨nb, hn⟩ := neighbors_total hok hm hr o t
    have hM := mapping_spec hok hm hn
    unfold computeDependencies
    simp only [hp, hn]
    refine neighborsForRequirement_total hok hc ?_
    intro k i hi
    obtain ⟨l, hl⟩ := Option.isSome_iff_exists.1 (adjGet_isSome.2 ((hM.keys i).2 ⟨k, stands_of_id hok hi⟩))
    refine ⟨l, by unfold dictLookup; rw [hl], ?_⟩
    intro d hd
    obtain ⟨-, k', j, -, rfl, hj, -⟩ := hM.upper _ _ ⟨l, adjGet_some_mem hl, hd⟩
    exact ⟨k', stands_of_id hok hj⟩
  · obtain ⟨nb, hn⟩ := neighbors_total hok hm hr o t
    unfold computeReverseDependencies
    simp only [hp, hn]
    exact hback (mapping_spec hok hm hn) hc
  · obtain ⟨nb, hn⟩ := neighbors_total hok hm hr o false
    have hM := mapping_spec hok hm hn
    unfold computeLeafPackages
    simp only [hp, hn]
    have : ∀ ks acc, ∃ out, leafLoop pool (reverseMapping nb) ks acc = .ok out := by
      intro ks
      induction ks with
      | nil => intro acc; exact ⟨acc, rfl⟩
      | cons k ks ih =>
        intro acc
        obtain ⟨deps, hd⟩ := hback hM (r := Requirement.exactly .install k.name k.version) rfl
        unfold leafLoop
        simp only [hd]
        exact ih _
    exact this _ _

/-! ### Concrete cases -/

namespace ComputeExample
open Verif.Pkg.Example Verif.Solve.Example Verif.Solve.Check SolveExample FunctionsExample

def asInserted : SetOrder := ⟨id, fun l => List.Perm.refl l⟩

/-- two repositories: 3 depends on 2, this on 1 ≥ 2, of which there are two versions; 4 depends on 1 -/
def repositories : List (Repository Nat Str Nat) :=
  [Repository.ofList [pkg 0 1 1, pkg 0 1 2, pkg 0 2 1 [depc 1 (.geq (v 2))]],
   Repository.ofList [pkg 1 3 1 [dep 2], pkg 1 4 1 [dep 1]]]

theorem example_direct : computeDependencies asInserted repositories (req 3) false = .ok [pkg 0 2 1 [depc 1 (.geq (v 2))]] ∧
    computeReverseDependencies asInserted repositories (req 1 [.geq (v 2)]) false =
      .ok [pkg 0 2 1 [depc 1 (.geq (v 2))], pkg 1 4 1 [dep 1]] ∧
    computeLeafPackages asInserted repositories = .ok [(pkg 1 3 1 [dep 2]).key, (pkg 1 4 1 [dep 1]).key] := by decide +kernel

theorem example_transitive : computeDependencies asInserted repositories (req 3) true =
      .ok [pkg 0 2 1 [depc 1 (.geq (v 2))], pkg 0 1 2] ∧
    computeReverseDependencies asInserted repositories (req 1 [.geq (v 2)]) true =
      .ok [pkg 0 2 1 [depc 1 (.geq (v 2))], pkg 1 3 1 [dep 2], pkg 1 4 1 [dep 1]] := by decide +kernel

/-- the hypotheses of the theorems on cycles and leaves hold for it -/
theorem acyclic : ¬ ∃ k, TransGen (OtherDep (allPackages repositories) none) k k := by
  have := dependsOn_smaller (ps := allPackages repositories) (m := none) (by decide +kernel)
  rintro ⟨k, hk⟩
  exact this ⟨k, TransGen.mono (fun a b h => h.2) k k hk⟩

example (k : PKey Nat Str Nat) := C52_transitive_partial example_transitive.1 acyclic k
example (k : PKey Nat Str Nat) := C52_reverse_transitive_partial example_transitive.2 acyclic k
example (k : PKey Nat Str Nat) := C52_leaves_partial example_direct.2.2 (plain_of (by decide +kernel)) (by decide +kernel) k
example : (∃ d ∈ [pkg 0 2 1 [depc 1 (.geq (v 2))]], SamePackage d (pkg 0 2 1 [depc 1 (.geq (v 2))])) ↔
    ∃ d ∈ [pkg 1 3 1 [dep 2]], SamePackage d (pkg 1 3 1 [dep 2]) :=
  C52_dual (o' := asInserted) (r' := req 2) example_direct.1 (by decide +kernel) (by decide +kernel) (by decide +kernel)
    (by decide +kernel) (by decide +kernel)
example (o : SetOrder) := C52_returns o (rs := repositories)
  (fun p hp t ht => by
    have : ∀ p ∈ allPackages repositories, p.declaredProvides = [] := by decide +kernel
    rw [this p hp] at ht; simp at ht) (by decide +kernel) (r := req 3) rfl true

/-- C52 fails on a cycle: 1 depends on 2 and 3, 2 on 1, 3 on 4; so 2 needs 4 (by 1 and 3), but it is not reported. -/
theorem C52_transitive_violated :
    computeDependencies asInserted [Repository.ofList [pkg 0 1 1 [dep 2, dep 3], pkg 0 2 1 [dep 1], pkg 0 3 1 [dep 4], pkg 0 4 1]]
      (req 2) true = .ok [pkg 0 1 1 [dep 2, dep 3], pkg 0 2 1 [dep 1], pkg 0 3 1 [dep 4]] ∧
    TransGen (DependsOn (allPackages [Repository.ofList
      [pkg 0 1 1 [dep 2, dep 3], pkg 0 2 1 [dep 1], pkg 0 3 1 [dep 4], pkg 0 4 1]]) none)
      (pkg 0 2 1 [dep 1]).key (pkg 0 4 1).key := by
  refine ⟨by decide +kernel, ?_⟩
  refine ((TransGen.single (b := (pkg 0 1 1 [dep 2, dep 3]).key) ?_).tail (b := (pkg 0 1 1 [dep 2, dep 3]).key)
    (c := (pkg 0 3 1 [dep 4]).key) ?_).tail ?_
  all_goals
    unfold DependsOn
    decide +kernel

/-- C52: a package on which no package depends is not a leaf if another one provides its name in its version: 2-1 provides 1,
and 3-1 depends on 2. -/
theorem C52_leaves_violated :
    computeLeafPackages asInserted [Repository.ofList [pkg 0 1 1, pkg 0 2 1 [] [] [dep 1], pkg 0 3 1 [dep 2]]] =
      .ok [(pkg 0 3 1 [dep 2]).key] ∧
    ¬ ∃ q ∈ allPackages [Repository.ofList [pkg 0 1 1, pkg 0 2 1 [] [] [dep 1], pkg 0 3 1 [dep 2]]],
      DependsOn (allPackages [Repository.ofList [pkg 0 1 1, pkg 0 2 1 [] [] [dep 1], pkg 0 3 1 [dep 2]]]) none q.key
        (pkg 0 1 1).key := by
  refine ⟨by decide +kernel, ?_⟩
  unfold DependsOn
  decide +kernel

end ComputeExample

end Verif.Props
