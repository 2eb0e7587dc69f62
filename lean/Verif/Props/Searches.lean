import Verif.Graph.LazyLemmas
import Verif.Graph.ConnectedLog
import Batteries.Data.List.Perm
/-
C125: breadth_first_search as a generator (endless graphs, a dictionary of the caller, a consumer that stops early), and
the calls of `neighbor_func` in both searches.
-/
set_option linter.unusedSectionVars false
namespace Verif.Graph
open Verif Relation

section bfs
variable {α β : Type} [DecidableEq α] [DecidableEq β]
variable (start : α) (f : α → List α) (t : α → β) (targets : List β) (V : Dict α (Option α))

/-- C125: at every moment, also in an endless graph and when the caller gave a dictionary `V` of visited nodes: nothing
failed, and each path that was yielded is a path from `start` that enters no node of `V`, ends in a node that hits a
target, and is the shortest such path; no target got two paths. -/
theorem C125_paths_so_far (n : Nat) :
    (bfsRun start f t targets V n).failed = false ∧
    (∀ p ∈ (bfsRun start f t targets V n).paths, ∃ x, PathTo (without f (dkeys V)) start x p ∧ t x ∈ targets ∧
      ∀ y q, PathTo (without f (dkeys V)) start y q → t y = t x → p.length ≤ q.length) ∧
    ((bfsRun start f t targets V n).paths.map (fun p => p.getLast?.map t)).Nodup := by
  obtain ⟨rest, π, T, h⟩ := bfsRun_inv start f t targets V n
  refine ⟨h.fine, ?_, h.nd⟩
  intro p hp
  obtain ⟨x, h1, h2, -, h3⟩ := h.sound p hp
  exact ⟨x, h1, h2, h3⟩

/-- C125: every target that can be hit gets its path after finitely many turns of the loop, also in an endless graph and
if other targets cannot be hit, and keeps it. -/
theorem C125_every_target_gets_its_turn {v : β} (hv : v ∈ targets)
    (hr : ∃ y q, PathTo (without f (dkeys V)) start y q ∧ t y = v) :
    ∃ n, ∀ k, n ≤ k → ∃ p ∈ (bfsRun start f t targets V k).paths, ∃ x,
      PathTo (without f (dkeys V)) start x p ∧ t x = v := by
  obtain ⟨y, q, hp, hty⟩ := hr
  obtain ⟨n, hn⟩ := bfsRun_finds start f t targets V hp hty
  refine ⟨n, ?_⟩
  intro k hk
  obtain ⟨d, rfl⟩ := Nat.exists_eq_add_of_le hk
  obtain ⟨rest, π, T, h⟩ := bfsRun_inv start f t targets V (n + d)
  exact h.complete v hv (fun hm => hn ((bfsRun_grows start f t targets V n d).2.1 v hm))

/-- C125: the search ends exactly when every target can be hit or finitely many nodes can be reached. -/
theorem C125_ends_iff :
    (∃ n, (bfsRun start f t targets V n).ended = true) ↔
      (∀ v ∈ targets, ∃ y q, PathTo (without f (dkeys V)) start y q ∧ t y = v) ∨
      ∃ U : List α, ∀ y q, PathTo (without f (dkeys V)) start y q → y ∈ U := by
  constructor
  · rintro ⟨n, hn⟩
    obtain ⟨rest, π, T, h⟩ := bfsRun_inv start f t targets V n
    rcases h.fin hn with ⟨h1, h2⟩ | ⟨h1, -⟩
    · refine Or.inr ⟨(bfsRun start f t targets V n).asked, ?_⟩
      intro y q hp
      have hst := h.st
      simp only [h1, h2, Option.toList_none, List.nil_append] at hst
      exact hst.all hp
    · refine Or.inl ?_
      intro v hv
      obtain ⟨p, -, x, h3, h4⟩ := h.complete v hv (by simp [h1])
      exact ⟨x, p, h3, h4⟩
  · have hdone : ∀ n, (bfsRun start f t targets V n).targets = [] → ∃ n, (bfsRun start f t targets V n).ended = true := by
      intro n hn
      obtain ⟨rest, π, T, h⟩ := bfsRun_inv start f t targets V n
      obtain ⟨h1, h2, h3⟩ := bfsRun_grows start f t targets V n 1
      by_cases he : (bfsRun start f t targets V n).ended = true
      · exact ⟨n, he⟩
      cases hnode : (bfsRun start f t targets V n).node with
      | some x =>
        refine ⟨n + 1, ?_⟩
        simp only [bfsRun, bfsStep]
        rw [if_neg he]
        simp only [hnode, bfsAsk]
        rw [if_pos hn]
      | none =>
        cases hq : (bfsRun start f t targets V n).queue with
        | nil =>
          refine ⟨n + 1, ?_⟩
          simp only [bfsRun, bfsStep]
          rw [if_neg he]
          simp [hnode, bfsTake, hq]
        | cons x q =>
          have e : bfsRun start f t targets V (n + 1) =
              { bfsRun start f t targets V n with queue := q, node := some x } := by
            simp only [bfsRun, bfsStep]
            rw [if_neg he]
            simp [hnode, bfsTake, hq, hn]
          refine ⟨n + 2, ?_⟩
          change (bfsStep start f t (bfsRun start f t targets V (n + 1))).ended = true
          rw [e]
          unfold bfsStep
          rw [if_neg he]
          simp only [bfsAsk]
          rw [if_pos hn]
    rintro (hall | ⟨U, hU⟩)
    · have key : ∀ l : List β, (∀ v ∈ l, v ∈ targets) →
          ∃ n, ∀ v ∈ l, v ∉ (bfsRun start f t targets V n).targets := by
        intro l
        induction l with
        | nil => intro _; exact ⟨0, by simp⟩
        | cons v l ih =>
          intro hl
          obtain ⟨n1, h1⟩ := ih (fun w hw => hl w (by simp [hw]))
          obtain ⟨y, q, hp, hty⟩ := hall v (hl v (by simp))
          obtain ⟨n2, h2⟩ := bfsRun_finds start f t targets V hp hty
          refine ⟨n1 + n2, ?_⟩
          intro w hw hm
          rcases List.mem_cons.1 hw with rfl | hw
          · rw [Nat.add_comm] at hm
            exact h2 ((bfsRun_grows start f t targets V n2 n1).2.1 _ hm)
          · exact h1 w hw ((bfsRun_grows start f t targets V n1 n2).2.1 w hm)
      obtain ⟨n, hn⟩ := key targets (fun _ h => h)
      refine hdone n ?_
      rw [List.eq_nil_iff_forall_not_mem]
      intro v hv
      have : v ∈ targets := by
        have := (bfsRun_grows start f t targets V 0 n).2.1 v (by rw [Nat.zero_add]; exact hv)
        simpa [bfsRun, bfsBegin] using this
      exact hn v this hv
    · obtain ⟨k, hk | ⟨hn, x, q, hq, hx⟩⟩ := bfsRun_leaves start f t targets V U _ 0 rfl (Nat.le_refl _)
      · exact ⟨k, hk⟩
      · exfalso
        obtain ⟨rest, π, T, h⟩ := bfsRun_inv start f t targets V k
        exact hx (hU x _ (h.st.inv.path x (by simp [hq])))

/-- C125: when the search has ended, every target that can be hit has its path; what is yielded after that is nothing. -/
theorem C125_complete_at_the_end {n : Nat} (hn : (bfsRun start f t targets V n).ended = true) :
    (∀ k, bfsRun start f t targets V (n + k) = bfsRun start f t targets V n) ∧
    ∀ v ∈ targets, (∃ y q, PathTo (without f (dkeys V)) start y q ∧ t y = v) →
      ∃ p ∈ (bfsRun start f t targets V n).paths, ∃ x, PathTo (without f (dkeys V)) start x p ∧ t x = v := by
  have hs := bfsRun_ended_stays start f t targets V hn
  refine ⟨hs, ?_⟩
  intro v hv hr
  obtain ⟨m, hm⟩ := C125_every_target_gets_its_turn start f t targets V hv hr
  have := hm (n + m) (by omega)
  rw [hs m] at this
  exact this

/-- C125: `neighbor_func` is called at most once on each node, only on nodes that can be reached, and only if some target
is not nearer than the node. -/
theorem C125_asks_only_as_far_as_needed (n : Nat) :
    (bfsRun start f t targets V n).asked.Nodup ∧
    ∀ x ∈ (bfsRun start f t targets V n).asked, ∃ p, PathTo (without f (dkeys V)) start x p ∧
      ∃ v ∈ targets, ∀ y q, PathTo (without f (dkeys V)) start y q → t y = v → p.length ≤ q.length := by
  obtain ⟨rest, π, T, h⟩ := bfsRun_inv start f t targets V n
  refine ⟨(List.nodup_append.1 h.st.inv.nd).1, ?_⟩
  intro x hx
  exact ⟨π x, h.st.inv.path x (by simp [hx]), h.needed x hx⟩

/-- C125: the dictionary that the search leaves behind, at any moment: the entries of the caller are kept but for that of
`start`, which is None; each other entry is for a node that can be reached, and names the last but one node of a shortest
path to it, for which there is an entry as well unless it is `start`. -/
theorem C125_visited_is_a_tree_of_shortest_paths (n : Nat) :
    dget (bfsRun start f t targets V n).visited start = some none ∧
    (∀ x ∈ dkeys V, x ≠ start → dget (bfsRun start f t targets V n).visited x = dget V x) ∧
    ∀ x, x ∉ dkeys V → x ≠ start → ∀ o, dget (bfsRun start f t targets V n).visited x = some o →
      ∃ y p, o = some y ∧ PathTo (without f (dkeys V)) start y p ∧ x ∈ f y ∧
        PathTo (without f (dkeys V)) start x (p ++ [x]) ∧
        (∀ q, PathTo (without f (dkeys V)) start x q → (p ++ [x]).length ≤ q.length) ∧
        y ∈ dkeys (bfsRun start f t targets V n).visited := by
  obtain ⟨rest, π, T, h⟩ := bfsRun_inv start f t targets V n
  have hkeys : dkeys ((start, none) :: rest) = (bfsRun start f t targets V n).asked ++
      ((bfsRun start f t targets V n).node.toList ++ (bfsRun start f t targets V n).queue) := h.st.inv.keys
  have hin : ∀ (d e : Dict α (Option α)) x, x ∈ dkeys d → dget (d ++ e) x = dget d x := by
    intro d e x hx
    induction d with
    | nil => simp [dkeys] at hx
    | cons kv d ih =>
      simp only [List.cons_append, dget]
      split
      · rfl
      · rename_i hne
        refine ih ?_
        simp only [dkeys, List.map_cons, List.mem_cons] at hx
        exact hx.resolve_left (fun e => hne e.symm)
  refine ⟨?_, ?_, ?_⟩
  · rw [h.vis, hin _ _ _ ((keys_begin V start start).2 (Or.inr rfl)), dget_dset]; simp
  · intro x hx hne
    rw [h.vis, hin _ _ _ ((keys_begin V start x).2 (Or.inl hx)), dget_dset, if_neg (fun e => hne e.symm)]
  · intro x hx hne o ho
    have hnk : x ∉ dkeys (dset V start none) := by
      intro hk
      rcases (keys_begin V start x).1 hk with k | k
      · exact hx k
      · exact hne k
    have ho' := ho
    rw [h.vis, dget_append _ _ _ hnk] at ho
    have ho2 : dget ((start, none) :: rest) x = some o := by
      simp only [dget]; rw [if_neg (fun e => hne e.symm)]; exact ho
    have hmem : (x, o) ∈ ((start, none) :: rest : Dict α (Option α)) := by
      rw [← find_eq_dget] at ho2
      obtain ⟨kv, h1, h2⟩ := Option.map_eq_some_iff.1 ho2
      have h3 := List.find?_some h1
      simp only [decide_eq_true_eq] at h3
      have h4 := List.mem_of_find?_eq_some h1
      rw [← h3, ← h2]
      exact h4
    have hxk : x ∈ dkeys ((start, none) :: rest) := List.mem_map_of_mem hmem
    rw [hkeys] at hxk
    rcases h.st.inv.par x o hmem with e | ⟨y, rfl, hy, hp⟩
    · exact absurd e hne
    · have hyp := h.st.inv.path y (by simp [hy])
      have hxp := h.st.inv.path x hxk
      rw [hp] at hxp
      refine ⟨y, π y, rfl, hyp, ?_, hxp, ?_, ?_⟩
      · generalize hP : π y ++ [x] = P at hxp
        cases hxp with
        | start => exact absurd rfl hne
        | @snoc z _ p' hz hzx =>
          obtain ⟨e1, -⟩ := List.append_inj' hP rfl
          have e2 := hyp.last
          rw [e1, hz.last] at e2
          cases e2
          exact (mem_without.1 hzx).1
      · intro q hq
        rw [← hp]
        exact h.st.shortest hq hxk
      · have hyk : y ∈ dkeys ((start, none) :: rest) := by rw [hkeys]; simp [hy]
        rw [h.vis]
        simp only [dkeys, List.map_append, List.map_cons, List.mem_append, List.mem_cons] at hyk ⊢
        rcases hyk with k | k
        · exact Or.inl ((keys_begin V start y).2 (Or.inr k))
        · exact Or.inr k

/-- The function of C20 is this generator, with no dictionary given and consumed to the end. -/
theorem C125_consumed_to_the_end {fuel : Nat} {paths : List (List α)}
    (h : breadthFirstSearch start f t targets fuel = .ok paths) :
    ∃ n, (bfsRun start f t targets [] n).ended = true ∧ (bfsRun start f t targets [] n).paths = paths := by
  obtain ⟨k, h1, h2⟩ := bfsLoop_run start f t targets [] fuel 0 paths rfl rfl h
  exact ⟨k, h1, by simpa [bfsRun, bfsBegin] using h2⟩

end bfs

section conn
variable {α ε : Type} [DecidableEq α]

/-- C125: `connected_nodes` with any set of visited nodes: if the neighbour function does not raise on the nodes that can
be reached without entering `visited`, and they are finitely many, the result is these nodes and those of `visited`, and
`neighbor_func` is called exactly once on each of them and on nothing else. (`C19` had `visited` closed.) -/
theorem C125_connected_asks_once (pop : PopOrder α) (f : α → Except ε (List α)) (n : α) (visited U : List α)
    (hU : ∀ x, ReflTransGen (fun x y => Step f x y ∧ y ∉ visited) n x → x ∈ U)
    (hok : ∀ x, ReflTransGen (fun x y => Step f x y ∧ y ∉ visited) n x → ∃ nb, f x = .ok nb)
    {fuel : Nat} (hf : U.length + 1 < fuel) :
    ∃ l calls, connectedNodesLog pop f fuel n visited = (some (.ok l), calls) ∧
      connectedNodes pop f fuel n visited = some (.ok l) ∧
      (∀ x, x ∈ l ↔ x ∈ visited ∨ ReflTransGen (fun x y => Step f x y ∧ y ∉ visited) n x) ∧
      calls.Nodup ∧ ∀ x, x ∈ calls ↔ ReflTransGen (fun x y => Step f x y ∧ y ∉ visited) n x := by
  have hrel : (fun x y => Step f x y ∧ y ∉ visited) = Step (shun f visited) := by
    funext x y; exact propext step_shun.symm
  rw [hrel] at hU hok
  have e1 : connectedNodesLog pop (shun f visited) fuel n visited = connectedNodesLog pop f fuel n visited :=
    connectedLoopLog_shun pop f visited fuel [n] visited (fun _ h => h)
  have e2 : (connectedNodesLog pop f fuel n visited).1 = connectedNodes pop f fuel n visited :=
    connectedLoopLog_fst pop f fuel [n] visited
  have e3 : (connectedNodesLog pop (shun f visited) fuel n visited).1 = connectedNodes pop (shun f visited) fuel n visited :=
    connectedLoopLog_fst pop (shun f visited) fuel [n] visited
  rcases connectedNodes_spec pop (shun f visited) (V0 := visited) hU hf with ⟨l, h1, h2⟩ | ⟨x, e, -, h2, h3⟩
  · have hl : (connectedNodesLog pop f fuel n visited).1 = some (.ok l) := by rw [← e1, e3, h1]
    -- the members of the result
    have hback : ∀ x, ReflTransGen (Step (shun f visited)) n x → x ∈ l := by
      intro x h
      induction h with
      | refl => exact h2.start
      | @tail b c hb hs ih =>
        have hb' : b ∉ visited ∨ b = n := by
          rcases ReflTransGen.cases_tail hb with e | ⟨d, -, hd⟩
          · exact Or.inr e
          · exact Or.inl (step_shun.1 hd).2
        obtain ⟨nb, k1, k2⟩ := h2.proc b ih hb'
        obtain ⟨nb', k3, k4⟩ := hs
        rw [k1] at k3
        cases k3
        simpa using k2 c k4
    -- the calls
    have hcalls : (connectedNodesLog pop f fuel n visited).2.Nodup ∧
        ∀ x, x ∈ (connectedNodesLog pop f fuel n visited).2 ↔ x = n ∨ (x ∈ l ∧ x ∉ visited) := by
      obtain ⟨fuel, rfl⟩ : ∃ k, fuel = k + 1 := ⟨fuel - 1, by omega⟩
      revert hl
      unfold connectedNodesLog connectedLoopLog
      rw [if_neg (by simp)]
      have hx : pop.pick fuel [n] = n := by simpa using pop.mem fuel [n] (by simp)
      simp only [hx]
      cases hfx : f n with
      | error e => simp
      | ok nb =>
        simp only
        have hsd : sdiscard n [n] = [] := by simp [sdiscard]
        rw [hsd]
        intro hl
        obtain ⟨g1, g2, g3⟩ := connectedLoopLog_calls pop f fuel
          (supdate (nb.filter (fun y => decide (y ∉ sadd n visited))) []) (sadd n visited) (by
            intro y hy; simp at hy; simp [hy.2])
        have g3 := g3 l hl
        refine ⟨List.nodup_cons.2 ⟨fun hm => g2 n hm (by simp), g1⟩, ?_⟩
        intro x
        rw [List.mem_cons, g3, mem_sadd]
        constructor
        · rintro (k | k)
          · exact Or.inl k
          · exact Or.inr ⟨Or.inr k, fun hm => g2 x k (by simp [hm])⟩
        · rintro (k | ⟨(k | k) | k, k'⟩)
          · exact Or.inl k
          · exact Or.inl k
          · exact absurd k k'
          · exact Or.inr k
    refine ⟨l, (connectedNodesLog pop f fuel n visited).2, ?_, by rw [← e2, hl], ?_, hcalls.1, ?_⟩
    · rw [← hl]
    · rw [hrel]
      intro x
      exact ⟨h2.vreach x, fun h => h.elim (h2.base x) (hback x)⟩
    · rw [hrel]
      intro x
      rw [hcalls.2]
      constructor
      · rintro (rfl | ⟨k1, k2⟩)
        · exact .refl
        · exact (h2.vreach x k1).resolve_left k2
      · intro h
        by_cases hxn : x = n
        · exact Or.inl hxn
        · refine Or.inr ⟨hback x h, ?_⟩
          rcases ReflTransGen.cases_tail h with e | ⟨d, -, hd⟩
          · exact absurd e hxn
          · exact (step_shun.1 hd).2
  · exfalso
    obtain ⟨nb, hn⟩ := hok x h2
    have : shun f visited x = .error e := h3
    unfold shun at this
    rw [hn] at this
    cases this

/-- C125: `neighbor_func` is never called twice on a node, also if it raises in the end or the graph is endless. -/
theorem C125_connected_never_asks_twice (pop : PopOrder α) (f : α → Except ε (List α)) (n : α) (visited : List α)
    (fuel : Nat) : (connectedNodesLog pop f fuel n visited).2.Nodup := by
  cases fuel with
  | zero => simp [connectedNodesLog, connectedLoopLog]
  | succ fuel =>
    unfold connectedNodesLog connectedLoopLog
    rw [if_neg (by simp)]
    have hx : pop.pick fuel [n] = n := by simpa using pop.mem fuel [n] (by simp)
    simp only [hx]
    cases hfx : f n with
    | error e => simp
    | ok nb =>
      have hsd : sdiscard n [n] = [] := by simp [sdiscard]
      simp only [hsd]
      obtain ⟨g1, g2, -⟩ := connectedLoopLog_calls pop f fuel
        (supdate (nb.filter (fun y => decide (y ∉ sadd n visited))) []) (sadd n visited) (by
          intro y hy; simp at hy; simp [hy.2])
      exact List.nodup_cons.2 ⟨fun hm => g2 n hm (by simp), g1⟩

end conn

/-! ### non-vacuity -/
namespace SearchExample

/-- the docstring of `breadth_first_search`: an endless graph, `target_func` doubling -/
def up (x : Nat) : List Nat := [x + 1]

theorem up_path (n : Nat) : ∃ p, PathTo (without up (dkeys ([] : Dict Nat (Option Nat)))) 0 n p := by
  induction n with
  | zero => exact ⟨_, .start⟩
  | succ n ih => obtain ⟨p, hp⟩ := ih; exact ⟨_, .snoc hp (by simp [without, up, dkeys])⟩

/-- both targets can be hit: the search ends although the graph is endless -/
example : ∃ n, (bfsRun 0 up (· * 2) [10, 4] [] n).ended = true :=
  (C125_ends_iff 0 up (· * 2) [10, 4] []).2 (Or.inl (by
    intro v hv
    simp at hv
    rcases hv with rfl | rfl
    · obtain ⟨p, hp⟩ := up_path 5; exact ⟨5, p, hp, rfl⟩
    · obtain ⟨p, hp⟩ := up_path 2; exact ⟨2, p, hp, rfl⟩))
example : (bfsRun 0 up (· * 2) [10, 4] [] 12).paths = [[0, 1, 2], [0, 1, 2, 3, 4, 5]] ∧
    (bfsRun 0 up (· * 2) [10, 4] [] 12).ended = true ∧
    (bfsRun 0 up (· * 2) [10, 4] [] 12).asked = [0, 1, 2, 3, 4] := by decide

/-- nothing doubles to 3: the search for 3 does not end, but finds 4 on the way -/
example : (¬ ∃ n, (bfsRun 0 up (· * 2) [3, 4] [] n).ended = true) ∧
    (bfsRun 0 up (· * 2) [3, 4] [] 5).paths = [[0, 1, 2]] := by
  refine ⟨?_, by decide⟩
  rw [C125_ends_iff]
  rintro (h | ⟨U, hU⟩)
  · obtain ⟨y, q, -, h⟩ := h 3 (by simp)
    change y * 2 = 3 at h
    omega
  · have hall : ∀ n, n ∈ U := fun n => by obtain ⟨p, hp⟩ := up_path n; exact hU n p hp
    have h1 := List.subperm_of_subset (List.nodup_range (n := U.length + 1)) (fun x _ => hall x)
    have := h1.length_le
    simp at this
    omega

/-- a dictionary that is used for a second search: node 1 is not entered again, so that 3 is reached the other way -/
def square (x : Nat) : List Nat := if x = 0 then [1, 2] else if x = 1 then [3] else if x = 2 then [4] else if x = 4 then [3] else []
def firstVisited : Dict Nat (Option Nat) := (bfsRun 0 square id [1] [] 4).visited
example : (bfsRun 0 square id [3] [] 9).paths = [[0, 1, 3]] ∧ firstVisited = [(0, none), (1, some 0), (2, some 0)] ∧
    (bfsRun 0 square id [3] [(1, some 0)] 9).paths = [[0, 2, 4, 3]] ∧
    (bfsRun 0 square id [3] [(1, some 0)] 9).visited = [(1, some 0), (0, none), (2, some 0), (4, some 2), (3, some 4)] := by
  decide

/-- `connected_nodes` with a set that is not closed -/
def popFirst : PopOrder Nat where
  pick _ l := l.headD 0
  mem _ l h := by cases l with
    | nil => exact absurd rfl h
    | cons a l => simp
example : connectedNodesLog popFirst (fun x => (.ok (square x) : Except Unit _)) 9 0 [2] =
    (some (.ok [2, 0, 1, 3]), [0, 1, 3]) := by rfl

end SearchExample
end Verif.Graph
