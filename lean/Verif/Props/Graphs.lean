import Verif.Graph.Topo
import Verif.Graph.Connected
import Verif.Graph.Bfs
import Verif.Graph.Trans
import Verif.Graph.TransFirst
/-
Properties C17-C21 (utils/graph.py). `Edge`, `Dep`, `IsNode`, `Step`, `PathTo` are in Verif/Graph/Spec.lean;
`ReflTransGen` / `TransGen` are Mathlib's "zero or more" / "one or more" steps. A dict has distinct keys: `hnd`.
-/
set_option linter.unusedSectionVars false
namespace Verif.Props
open Verif Verif.Graph Relation

section topo
variable {α : Type} [DecidableEq α] {g : Adj α} (hnd : (g.map Prod.fst).Nodup)
include hnd

theorem topo_spec : TopoSpec (topoData g) (toposort g) :=
  topoLoop_spec _ _ (topoData_ok hnd) (by omega)

theorem topo_isNode (x : α) : x ∈ (topoData g).map Prod.fst ↔ IsNode g x := by
  constructor
  · intro h
    obtain ⟨⟨k, v⟩, hm, rfl⟩ := List.mem_map.1 h
    rcases mem_topoData.1 hm with ⟨w, h1, -⟩ | ⟨-, -, y, w, h1, h2, -⟩
    · exact Or.inl (List.mem_map.2 ⟨_, h1, rfl⟩)
    · exact Or.inr ⟨y, w, h1, h2⟩
  · rintro (h | ⟨y, v, h1, h2⟩)
    · obtain ⟨⟨k, w⟩, h1, rfl⟩ := List.mem_map.1 h
      exact List.mem_map.2 ⟨_, mem_topoData.2 (Or.inl ⟨w, h1, rfl⟩), rfl⟩
    · by_cases hk : x ∈ g.map Prod.fst
      · obtain ⟨⟨k, w⟩, h3, rfl⟩ := List.mem_map.1 hk
        exact List.mem_map.2 ⟨_, mem_topoData.2 (Or.inl ⟨w, h3, rfl⟩), rfl⟩
      · have hxy : x ≠ y := by rintro rfl; exact hk (List.mem_map_of_mem h1)
        exact List.mem_map.2 ⟨_, mem_topoData.2 (Or.inr ⟨rfl, hk, y, v, h1, h2, hxy⟩), rfl⟩

theorem topo_dep (x y : α) : (∃ v, (x, v) ∈ topoData g ∧ y ∈ v) ↔ Dep g x y := by
  constructor
  · rintro ⟨v, h1, h2⟩
    rcases mem_topoData.1 h1 with ⟨w, h3, rfl⟩ | ⟨rfl, -⟩
    · simp at h2; exact ⟨⟨w, h3, h2.1⟩, h2.2⟩
    · simp at h2
  · rintro ⟨⟨w, h1, h2⟩, h3⟩
    exact ⟨_, mem_topoData.2 (Or.inl ⟨w, h1, rfl⟩), by simp [h2, h3]⟩

/-- C17: the groups yielded by `toposort` are non-empty, no node is yielded twice, only nodes of the graph are yielded,
and every dependency of a yielded node was yielded in an earlier group. This holds whether or not the generator raises
in the end. -/
theorem C17_groups_are_layers :
    (∀ gr ∈ (toposort g).1, gr ≠ []) ∧ (toposort g).1.flatten.Nodup ∧
    (∀ x ∈ (toposort g).1.flatten, IsNode g x) ∧
    (∀ pre gr post, (toposort g).1 = pre ++ gr :: post → ∀ x ∈ gr, ∀ y, Dep g x y → ∃ gr' ∈ pre, y ∈ gr') := by
  have h := topo_spec hnd
  refine ⟨h.nonempty, h.nodup, fun x hx => (topo_isNode hnd x).1 (h.keys x hx), ?_⟩
  intro pre gr post e x hx y hd
  obtain ⟨v, h1, h2⟩ := (topo_dep hnd x y).2 hd
  exact List.mem_flatten.1 (h.layered pre gr post e x hx v h1 y h2)

/-- C17: groups are as early as possible: a node of a later group has a dependency in the group just before it. -/
theorem C17_groups_are_earliest {pre gr gr' post} (e : (toposort g).1 = pre ++ gr :: gr' :: post) {x : α} (hx : x ∈ gr') :
    ∃ y ∈ gr, Dep g x y := by
  obtain ⟨v, h1, y, h2, h3⟩ := (topo_spec hnd).tight pre gr gr' post e x hx
  exact ⟨y, h3, (topo_dep hnd x y).1 ⟨v, h1, h2⟩⟩

/-- C17: when `toposort` does not raise, every node of the graph is yielded. -/
theorem C17_every_node_yielded (hd : (toposort g).2 = .done) (x : α) (hx : IsNode g x) : x ∈ (toposort g).1.flatten :=
  (topo_spec hnd).done hd x ((topo_isNode hnd x).2 hx)

/-- C17: the loop of `toposort` always ends. -/
theorem C17_terminates : (toposort g).2 ≠ .outOfFuel := (topo_spec hnd).fuel

/-- C18: `toposort` raises exactly when some node depends on itself through other nodes (one or more steps between
different nodes). -/
theorem C18_raises_iff_cycle : (∃ rest, (toposort g).2 = .cyclic rest) ↔ ∃ x, TransGen (Dep g) x x := by
  have h := topo_spec hnd
  constructor
  · rintro ⟨rest, e⟩
    obtain ⟨h1, h2⟩ := h.cyclic rest e
    apply Classical.byContradiction
    intro hno
    obtain ⟨x, hx, hs⟩ := exists_sink (TransGen (Dep g)) (fun a b => a.trans b) (fun a ha => hno ⟨a, ha⟩)
      (rest.map Prod.fst) (by simpa using h1)
    obtain ⟨-, y, hy, hd⟩ := h2 x hx
    exact hs y hy (.single ((topo_dep hnd x y).1 hd))
  · rintro ⟨x, hx⟩
    cases he : (toposort g).2 with
    | cyclic rest => exact ⟨rest, rfl⟩
    | outOfFuel => exact absurd he h.fuel
    | done =>
      exfalso
      -- rank of a node: how many groups come before its own
      have hpos : ∀ x, IsNode g x → ∃ pre gr post, (toposort g).1 = pre ++ gr :: post ∧ x ∈ gr := by
        intro x hx
        obtain ⟨gr, h1, h2⟩ := List.mem_flatten.1 (C17_every_node_yielded hnd he x hx)
        obtain ⟨pre, post, e⟩ := List.append_of_mem h1
        exact ⟨pre, gr, post, e, h2⟩
      have hlt : ∀ a b, TransGen (Dep g) a b → ∀ pre gr post, (toposort g).1 = pre ++ gr :: post → a ∈ gr →
          ∃ pre' gr' post', (toposort g).1 = pre' ++ gr' :: post' ∧ b ∈ gr' ∧ pre'.length < pre.length := by
        have one : ∀ a b, Dep g a b → ∀ pre gr post, (toposort g).1 = pre ++ gr :: post → a ∈ gr →
            ∃ pre' gr' post', (toposort g).1 = pre' ++ gr' :: post' ∧ b ∈ gr' ∧ pre'.length < pre.length := by
          intro a b hd pre gr post e ha
          obtain ⟨gr', h1, h2⟩ := (C17_groups_are_layers hnd).2.2.2 pre gr post e a ha b hd
          obtain ⟨u, w, rfl⟩ := List.append_of_mem h1
          exact ⟨u, gr', w ++ gr :: post, by rw [e]; simp, h2, by simp⟩
        intro a b hab
        induction hab with
        | single hd => exact one _ _ hd
        | tail _ hd ih =>
          intro pre gr post e ha
          obtain ⟨p1, g1, q1, e1, h1, l1⟩ := ih pre gr post e ha
          obtain ⟨p2, g2, q2, e2, h2, l2⟩ := one _ _ hd p1 g1 q1 e1 h1
          exact ⟨p2, g2, q2, e2, h2, by omega⟩
      have hxn : IsNode g x := by
        rcases TransGen.head'_iff.1 hx with ⟨c, ⟨⟨v, h1, -⟩, -⟩, -⟩
        exact Or.inl (List.mem_map_of_mem h1)
      obtain ⟨pre, gr, post, e, hxg⟩ := hpos x hxn
      obtain ⟨pre', gr', post', e', hxg', hl⟩ := hlt x x hx pre gr post e hxg
      -- x would be in two groups
      have hd := h.nodup
      have hsplit : ∀ (pre pre' : List (List α)) gr gr' post post', pre ++ gr :: post = pre' ++ gr' :: post' →
          pre'.length < pre.length → gr' ∈ pre := by
        intro pre pre' gr gr' post post' e hl
        have := List.append_eq_append_iff.1 e.symm
        rcases this with ⟨as, h1, h2⟩ | ⟨as, h1, h2⟩
        · cases as with
          | nil => simp at h1; subst h1; omega
          | cons c as => simp at h2; rw [h1]; simp [h2.1]
        · rw [h1] at hl; simp at hl; omega
      have hmem := hsplit pre pre' gr gr' post post' (by rw [← e, ← e']) hl
      rw [e] at hd
      simp only [List.flatten_append, List.flatten_cons] at hd
      rw [List.nodup_append] at hd
      exact hd.2.2 x (List.mem_flatten.2 ⟨gr', hmem, hxg'⟩) x (by simp [hxg]) rfl

end topo

/-! #### C17, C18: non-vacuity -/
example : (toposort [(2, [11]), (9, [11, 8]), (10, [11, 3]), (11, [7, 5, 11]), (8, [7, 3])]).1
    = [[3, 7, 5], [11, 8], [2, 9, 10]] := by decide
example : (toposort [(1, [2]), (2, [1, 3])]).1 = [[3]] ∧ TransGen (Dep [(1, [2]), (2, [1, 3])]) 1 1 := by
  refine ⟨by decide, ?_⟩
  have h1 : Dep [(1, [2]), (2, [1, 3])] 1 2 := ⟨⟨[2], by simp, by simp⟩, by simp⟩
  have h2 : Dep [(1, [2]), (2, [1, 3])] 2 1 := ⟨⟨[1, 3], by simp, by simp⟩, by simp⟩
  exact (TransGen.single h1).tail h2

/-! ### C19 -/
section conn
variable {α ε : Type} [DecidableEq α]

/-- C19: if finitely many nodes (those of `U`) can be reached from `n`, and the neighbour function does not raise on
them, `connected_nodes(n, f, visited)` ends, whatever the order in which `set.pop()` takes nodes, and returns exactly the
nodes of `visited` and the nodes reachable from `n`; `visited` being closed under `f` (the empty set is). -/
theorem C19_connected_is_reachability (pop : PopOrder α) (f : α → Except ε (List α)) (n : α) (visited U : List α)
    (hU : ∀ x, ReflTransGen (Step f) n x → x ∈ U) (hok : ∀ x, ReflTransGen (Step f) n x → ∃ nb, f x = .ok nb)
    (hv : ∀ x ∈ visited, ∀ y, Step f x y → y ∈ visited) {fuel : Nat} (hf : U.length + 1 < fuel) :
    ∃ l, connectedNodes pop f fuel n visited = some (.ok l) ∧
      ∀ x, x ∈ l ↔ x ∈ visited ∨ ReflTransGen (Step f) n x := by
  rcases connectedNodes_spec pop f (V0 := visited) hU hf with ⟨l, h1, h2⟩ | ⟨x, e, -, h2, h3⟩
  · refine ⟨l, h1, ?_⟩
    intro x
    constructor
    · exact h2.vreach x
    · rintro (h | h)
      · exact h2.base x h
      · induction h with
        | refl => exact h2.start
        | @tail b c _ hs ih =>
          by_cases hb : b ∈ visited
          · exact h2.base c (hv b hb c hs)
          · obtain ⟨nb, k1, k2⟩ := h2.proc b ih (Or.inl hb)
            obtain ⟨nb', k3, k4⟩ := hs
            rw [k1] at k3
            cases k3
            simpa using k2 c k4
  · obtain ⟨nb, hn⟩ := hok x h2
    rw [hn] at h3; cases h3

/-- C19: an exception of the neighbour function is passed on: with nothing visited before, the call raises exactly when
`f` raises on some reachable node. -/
theorem C19_raises_iff (pop : PopOrder α) (f : α → Except ε (List α)) (n : α) (U : List α)
    (hU : ∀ x, ReflTransGen (Step f) n x → x ∈ U) {fuel : Nat} (hf : U.length + 1 < fuel) :
    (∃ e, connectedNodes pop f fuel n [] = some (.error e)) ↔ ∃ x e, ReflTransGen (Step f) n x ∧ f x = .error e := by
  rcases connectedNodes_spec pop f (V0 := []) hU hf with ⟨l, h1, h2⟩ | ⟨x, e, h1, h2, h3⟩
  · constructor
    · rintro ⟨e, he⟩; rw [h1] at he; simp at he
    · rintro ⟨x, e, hr, hx⟩
      exfalso
      have hx' : x ∈ l := by
        clear hx
        induction hr with
        | refl => exact h2.start
        | @tail b c _ hs ih =>
          obtain ⟨nb, k1, k2⟩ := h2.proc b ih (Or.inl (by simp))
          obtain ⟨nb', k3, k4⟩ := hs
          rw [k1] at k3
          cases k3
          simpa using k2 c k4
      obtain ⟨nb, k1, -⟩ := h2.proc x hx' (Or.inl (by simp))
      rw [k1] at hx; cases hx
  · exact ⟨fun _ => ⟨x, e, h2, h3⟩, fun _ => ⟨e, h1⟩⟩
end conn

/-! #### non-vacuity: the example of the docstring, `set.pop()` taking the last element -/
def popLast : PopOrder Int where
  pick _ l := l.getLastD 0
  mem _ l h := by
    cases l with
    | nil => exact absurd rfl h
    | cons a l => simp [List.getLastD_eq_getLast?, List.getLast?_eq_some_getLast]
def exNb (x : Int) : Except Unit (List Int) := .ok [-x, min (x + 1) 5]
def exU : List Int := [-5, -4, -3, -2, -1, 0, 1, 2, 3, 4, 5]
example : ∀ x, ReflTransGen (Step exNb) 0 x → x ∈ exU := by
  intro x h
  induction h with
  | refl => decide
  | tail _ hs ih =>
    obtain ⟨nb, h1, h2⟩ := hs
    cases h1
    revert ih h2
    simp only [exU, List.mem_cons, List.not_mem_nil, or_false]
    omega
example : connectedNodes popLast exNb 20 0 [] = some (.ok [0, 1, 2, 3, 4, 5, -5, -4, -3, -2, -1]) := rfl

/-! ### C20 -/
section bfs
variable {α β : Type} [DecidableEq α] [DecidableEq β]

/-- C20: on a graph where finitely many nodes can be reached from `start`, `breadth_first_search` ends and yields
* only paths from `start` that follow the neighbour function and end in a node that hits a target, such that no path to a
  node hitting that target is shorter;
* one path for each target that can be hit;
* no two paths for the same target.
`t` is `target_func` (`id` when none is given). -/
theorem C20_shortest_path_per_target (start : α) (f : α → List α) (t : α → β) (targets : List β) (U : List α)
    (hU : ∀ x p, PathTo f start x p → x ∈ U) {fuel : Nat} (hf : U.length < fuel) :
    ∃ paths, breadthFirstSearch start f t targets fuel = .ok paths ∧
      (∀ p ∈ paths, ∃ x, PathTo f start x p ∧ t x ∈ targets ∧
        ∀ y q, PathTo f start y q → t y = t x → p.length ≤ q.length) ∧
      (∀ v ∈ targets, (∃ y q, PathTo f start y q ∧ t y = v) → ∃ p ∈ paths, ∃ x, PathTo f start x p ∧ t x = v) ∧
      (paths.map (fun p => p.getLast?.map t)).Nodup := by
  obtain ⟨paths, h1, h2⟩ := bfs_spec (t := t) (targets := targets) hU hf
  exact ⟨paths, h1, h2.sound, h2.complete, h2.nd⟩

end bfs

/-! #### non-vacuity -/
example : breadthFirstSearch 0 (fun x : Nat => [min (x + 1) 9, min (x + 3) 9]) id [7, 5, 20] 12
    = .ok [[0, 1, 2, 5], [0, 1, 4, 7]] := rfl
example : ∀ x p, PathTo (fun x : Nat => [min (x + 1) 9, min (x + 3) 9]) 0 x p → x ∈ List.range 10 := by
  intro x p h
  rw [List.mem_range]
  induction h with
  | start => omega
  | snoc _ hy _ => simp at hy; omega

/-! ### C21 -/
section trans
variable {α : Type} [DecidableEq α] {g : Adj α}

/-- C21 fails on cyclic graphs: `1 → {2, 3}`, `2 → {1}`, `3 → {4}`; the entry of 2 misses 4 although
`2 → 1 → 3 → 4`. -/
theorem C21_violated_on_cycles : ∃ (g : Adj Nat) (t : Adj Nat) (l : List Nat) (x y : Nat),
    transitiveNeighbors g = .ok t ∧ adjGet t x = some l ∧ TransGen (Edge g) x y ∧ y ∉ l := by
  refine ⟨[(1, [2, 3]), (2, [1]), (3, [4]), (4, [])], _, [1, 2, 3], 2, 4, rfl, by decide, ?_, by decide⟩
  have h1 : Edge [(1, [2, 3]), (2, [1]), (3, [4]), (4, [])] 2 1 := ⟨[1], by simp, by simp⟩
  have h2 : Edge [(1, [2, 3]), (2, [1]), (3, [4]), (4, [])] 1 3 := ⟨[2, 3], by simp, by simp⟩
  have h3 : Edge [(1, [2, 3]), (2, [1]), (3, [4]), (4, [])] 3 4 := ⟨[4], by simp, by simp⟩
  exact ((TransGen.single h1).tail h2).tail h3

/-- C21, the part that holds for every graph whose neighbours are all keys: the call ends without KeyError, every key
has an entry, and an entry contains the direct neighbours and only reachable nodes. -/
theorem C21_sound_partial (hnd : (g.map Prod.fst).Nodup) (hcl : ∀ x v, (x, v) ∈ g → ∀ y ∈ v, y ∈ g.map Prod.fst) :
    ∃ t, transitiveNeighbors g = .ok t ∧ ∀ x ∈ g.map Prod.fst, ∃ l, adjGet t x = some l ∧
      (∀ y, Edge g x y → y ∈ l) ∧ ∀ y ∈ l, TransGen (Edge g) x y := by
  obtain ⟨t, h1, h2, -, h4⟩ := transitiveNeighbors_spec ⟨hnd, hcl⟩
  refine ⟨t, h1, fun x hx => ?_⟩
  obtain ⟨l, hl⟩ := Option.isSome_iff_exists.1 (h4 x hx)
  exact ⟨l, hl, (h2 x l hl).2, (h2 x l hl).1⟩

/-- C21, exactness for every node from which no cycle of length two or more can be reached (in particular for all nodes
of an acyclic graph; self loops are allowed). Missing from the full property: nodes that reach a cycle. -/
theorem C21_exact_without_cycles_partial (hnd : (g.map Prod.fst).Nodup)
    (hcl : ∀ x v, (x, v) ∈ g → ∀ y ∈ v, y ∈ g.map Prod.fst) :
    ∃ t, transitiveNeighbors g = .ok t ∧ ∀ x ∈ g.map Prod.fst,
      (∀ y, ReflTransGen (Edge g) x y → ¬ TransGen (Dep g) y y) →
      ∃ l, adjGet t x = some l ∧ ∀ y, y ∈ l ↔ TransGen (Edge g) x y := by
  obtain ⟨t, h1, h2, h3, h4⟩ := transitiveNeighbors_spec ⟨hnd, hcl⟩
  refine ⟨t, h1, fun x hx hg => ?_⟩
  obtain ⟨l, hl⟩ := Option.isSome_iff_exists.1 (h4 x hx)
  exact ⟨l, hl, fun y => ⟨fun h => (h2 x l hl).1 y h, fun h => h3 x l (by simp) hg hl y h⟩⟩

/-- C21, exactness on graphs with cycles, for every key that shares nothing reachable with the keys before it in the dictionary; in
particular the entry of the first key is always exact. Missing from the full property: keys that reach a cycle and something that
an earlier key reaches. -/
theorem C21_exact_for_first_partial (hnd : (g.map Prod.fst).Nodup)
    (hcl : ∀ x v, (x, v) ∈ g → ∀ y ∈ v, y ∈ g.map Prod.fst) :
    ∃ t, transitiveNeighbors g = .ok t ∧ ∀ pre x post, g.map Prod.fst = pre ++ x :: post →
      (∀ a ∈ pre, ∀ y, ReflTransGen (Edge g) a y → ¬ ReflTransGen (Edge g) x y) →
      ∃ l, adjGet t x = some l ∧ ∀ y, y ∈ l ↔ TransGen (Edge g) x y := by
  obtain ⟨t, h1, h2, -, -⟩ := transitiveNeighbors_spec ⟨hnd, hcl⟩
  refine ⟨t, h1, fun pre x post he hp => ?_⟩
  have h0 : Sound g ([] : Adj α) := by intro x l h; simp [adjGet] at h
  unfold transitiveNeighbors at h1
  rw [he] at h1
  obtain ⟨l, hl, hc⟩ := transAll_fresh ⟨hnd, hcl⟩ _ (by simp [keysOf]) pre post x (fun y hy => by rw [keysOf, he]; exact hy) [] h0
    (fun y _ => rfl) hp t h1
  exact ⟨l, hl, fun y => ⟨(h2 x l hl).1 y, hc y⟩⟩

end trans

/-- the first key of the graph of `C21_violated_on_cycles` meets the condition, and has an exact entry -/
example : (transitiveNeighbors [(1, [2, 3]), (2, [1]), (3, [4]), (4, [])]).toOption.bind (fun t => adjGet t 1) =
    some [2, 3, 1, 4] := rfl

/-! #### non-vacuity: a diamond with a self loop -/
example : transitiveNeighbors [(1, [2, 3]), (2, [4]), (3, [4, 3]), (4, [])] =
    .ok [(1, [2, 3, 4]), (2, [4]), (4, []), (3, [4, 3])] := rfl

end Verif.Props
