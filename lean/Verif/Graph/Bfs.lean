import Verif.Graph.Connected
/-
Lemmas about breadth_first_search.
-/
set_option linter.unusedSectionVars false
namespace Verif.Graph
open Verif

variable {α β : Type} [DecidableEq α] [DecidableEq β]

/-- Invariant of the search without the targets: `done` are the nodes already taken from the queue, `π` gives the path
to each visited node. -/
structure BfsInv (start : α) (f : α → List α) (done queue : List α) (visited : List (α × Option α))
    (π : α → List α) : Prop where
  keys : visited.map Prod.fst = done ++ queue
  nd : (done ++ queue).Nodup
  start_mem : start ∈ done ++ queue
  start_path : π start = [start]
  par : ∀ x o, (x, o) ∈ visited → x = start ∨ ∃ y, o = some y ∧ y ∈ done ∧ π x = π y ++ [x]
  path : ∀ x ∈ done ++ queue, PathTo f start x (π x)
  mono : (done ++ queue).Pairwise (fun a b => (π a).length ≤ (π b).length)
  small : ∀ x ∈ done ++ queue, (π x).length ≤ visited.length

theorem find_of_nodup {visited : List (α × Option α)} (h : (visited.map Prod.fst).Nodup) {x : α}
    (hx : x ∈ visited.map Prod.fst) : ∃ o, (x, o) ∈ visited ∧
      (visited.find? (fun kv => decide (kv.1 = x))).map Prod.snd = some o := by
  induction visited with
  | nil => simp at hx
  | cons kv t ih =>
    obtain ⟨k, o⟩ := kv
    by_cases hk : k = x
    · subst hk
      exact ⟨o, by simp, by simp⟩
    · simp only [List.map_cons, List.mem_cons, List.nodup_cons] at hx h
      obtain ⟨o', h1, h2⟩ := ih h.2 (hx.resolve_left (fun e => hk e.symm))
      exact ⟨o', by simp [h1], by simpa [List.find?_cons, hk] using h2⟩

theorem backtrackLoop_spec {start : α} {f : α → List α} {done queue : List α} {visited : List (α × Option α)}
    {π : α → List α} (h : BfsInv start f done queue visited π) (fuel : Nat) (x : α) (hx : x ∈ done ++ queue)
    (hf : (π x).length ≤ fuel) (rest : List α) :
    backtrackLoop start visited fuel x (x :: rest) = .ok (π x ++ rest) := by
  induction fuel generalizing x rest with
  | zero =>
    have := h.path x hx
    exfalso
    generalize π x = p at this hf
    cases this <;> simp at hf
  | succ fuel ih =>
    unfold backtrackLoop
    split
    · rename_i e; subst e; rw [h.start_path]; rfl
    · rename_i hne
      obtain ⟨o, h1, h2⟩ := find_of_nodup (by rw [h.keys]; exact h.nd) (by rw [h.keys]; exact hx)
      rw [h2]
      rcases h.par x o h1 with e | ⟨y, rfl, hy, hp⟩
      · exact absurd e hne
      · simp only
        rw [ih y (by simp [hy]) (by rw [hp] at hf; simp at hf; omega), hp]
        simp

theorem backtrack_spec {start : α} {f : α → List α} {done queue : List α} {visited : List (α × Option α)}
    {π : α → List α} (h : BfsInv start f done queue visited π) {x : α} (hx : x ∈ done ++ queue) :
    backtrack start visited x = .ok (π x) := by
  have := backtrackLoop_spec h (visited.length + 1) x hx (by have := h.small x hx; omega) []
  simpa [backtrack] using this

/-- the loop over the neighbours of `node`, which is now done -/
theorem bfsExpand_spec {start : α} {f : α → List α} {done : List α} {node : α} (hnode : node ∈ done) (nbs : List α)
    (hnbs : ∀ y ∈ nbs, y ∈ f node) {queue : List α} {visited : List (α × Option α)} {π : α → List α}
    (h : BfsInv start f done queue visited π)
    (hb : ∀ x ∈ done ++ queue, (π x).length ≤ (π node).length + 1) :
    ∃ queue' visited' π', bfsExpand node nbs queue visited = (queue', visited') ∧
      BfsInv start f done queue' visited' π' ∧ (∀ x ∈ done ++ queue, π' x = π x) ∧
      (∀ x ∈ queue, x ∈ queue') ∧ (∀ x ∈ queue', x ∈ queue ∨ x ∈ nbs) ∧
      (∀ x ∈ done ++ queue', (π' x).length ≤ (π node).length + 1) ∧
      (∀ y ∈ nbs, y ∈ done ++ queue') := by
  induction nbs generalizing queue visited π with
  | nil => exact ⟨queue, visited, π, rfl, h, fun _ _ => rfl, fun _ hx => hx, fun _ hx => Or.inl hx, hb, by simp⟩
  | cons nb nbs ih =>
    unfold bfsExpand
    have hnbs' : ∀ y ∈ nbs, y ∈ f node := fun y hy => hnbs y (by simp [hy])
    split
    · rename_i hv
      obtain ⟨q', v', π', h1, h2, h3, h4, h5, h6, h7⟩ := ih hnbs' h hb
      refine ⟨q', v', π', h1, h2, h3, h4, fun x hx => (h5 x hx).imp_right (by simp_all), h6, ?_⟩
      intro y hy
      rcases List.mem_cons.1 hy with rfl | hy
      · rw [h.keys] at hv
        rcases List.mem_append.1 hv with k | k
        · simp [k]
        · simp [h4 _ k]
      · exact h7 y hy
    · rename_i hv
      rw [h.keys] at hv
      have hne : ∀ x ∈ done ++ queue, fset π nb (π node ++ [nb]) x = π x :=
        fun x hx => fset_ne _ _ (fun e => hv (e ▸ hx))
      have hs := hne start h.start_mem
      have hn := hne node (by simp [hnode])
      have hI : BfsInv start f done (queue ++ [nb]) (visited ++ [(nb, some node)]) (fset π nb (π node ++ [nb])) := by
        refine ⟨?_, ?_, ?_, ?_, ?_, ?_, ?_, ?_⟩
        · simp [h.keys]
        · rw [← List.append_assoc, List.nodup_append]
          refine ⟨h.nd, by simp, ?_⟩
          rintro a ha b hb rfl
          simp at hb; subst hb; exact hv ha
        · rw [← List.append_assoc]; exact List.mem_append_left _ h.start_mem
        · rw [hs]; exact h.start_path
        · intro x o hxo
          rcases List.mem_append.1 hxo with k | k
          · have hx : x ∈ done ++ queue := by rw [← h.keys]; exact List.mem_map_of_mem k
            rcases h.par x o k with e | ⟨y, e, hy, hp⟩
            · exact Or.inl e
            · exact Or.inr ⟨y, e, hy, by rw [hne x hx, hne y (by simp [hy])]; exact hp⟩
          · simp at k
            obtain ⟨rfl, rfl⟩ := k
            exact Or.inr ⟨node, rfl, hnode, by rw [hn]; simp⟩
        · intro x hx
          rw [← List.append_assoc] at hx
          rcases List.mem_append.1 hx with k | k
          · rw [hne x k]; exact h.path x k
          · simp at k; subst k
            rw [fset_same]
            exact .snoc (h.path node (by simp [hnode])) (hnbs _ (by simp))
        · rw [← List.append_assoc, List.pairwise_append]
          refine ⟨?_, by simp, ?_⟩
          · refine h.mono.imp_of_mem ?_
            intro a b ha hb hab
            rw [hne a ha, hne b hb]; exact hab
          · intro a ha b hb'
            simp at hb'; subst hb'
            rw [hne a ha, fset_same]
            simpa using hb a ha
        · intro x hx
          rw [← List.append_assoc] at hx
          rcases List.mem_append.1 hx with k | k
          · rw [hne x k]; have := h.small x k; simp; omega
          · simp at k; subst k
            rw [fset_same]
            have := h.small node (by simp [hnode])
            simpa using this
      have hb' : ∀ x ∈ done ++ (queue ++ [nb]),
          (fset π nb (π node ++ [nb]) x).length ≤ (fset π nb (π node ++ [nb]) node).length + 1 := by
        intro x hx
        rw [hn]
        rw [← List.append_assoc] at hx
        rcases List.mem_append.1 hx with k | k
        · rw [hne x k]; exact hb x k
        · simp at k; subst k; simp
      obtain ⟨q', v', π', h1, h2, h3, h4, h5, h6, h7⟩ := ih hnbs' hI hb'
      refine ⟨q', v', π', h1, h2, ?_, fun x hx => h4 x (by simp [hx]), ?_, ?_, ?_⟩
      · intro x hx
        rw [h3 x (by rw [← List.append_assoc]; exact List.mem_append_left _ hx)]
        exact hne x hx
      · intro x hx
        rcases h5 x hx with k | k
        · simp at k; rcases k with k | rfl
          · exact Or.inl k
          · exact Or.inr (by simp)
        · exact Or.inr (by simp [k])
      · intro x hx; have := h6 x hx; rw [hn] at this; exact this
      · intro y hy
        rcases List.mem_cons.1 hy with rfl | hy
        · exact List.mem_append_right _ (h4 _ (by simp))
        · exact h7 y hy

/-- the whole state of the loop -/
structure BfsState (start : α) (f : α → List α) (t : α → β) (T0 : List β) (done queue : List α)
    (visited : List (α × Option α)) (π : α → List α) (targets : List β) : Prop where
  inv : BfsInv start f done queue visited π
  near : ∀ a ∈ done ++ queue, ∀ b ∈ queue, (π a).length ≤ (π b).length + 1
  proc : ∀ x ∈ done, ∀ y ∈ f x, y ∈ done ++ queue ∧ (π y).length ≤ (π x).length + 1
  tgt : ∀ v, v ∈ targets ↔ v ∈ T0 ∧ ∀ x ∈ done, t x ≠ v
  tnd : targets.Nodup

/-- one turn of the loop: the head of the queue is done, its neighbours are in the queue -/
theorem BfsState.next {start : α} {f : α → List α} {t : α → β} {T0 : List β} {done queue : List α} {node : α}
    {visited : List (α × Option α)} {π : α → List α} {targets : List β}
    (h : BfsState start f t T0 done (node :: queue) visited π targets) :
    ∃ queue' visited' π', bfsExpand node (f node) queue visited = (queue', visited') ∧
      BfsState start f t T0 (done ++ [node]) queue' visited' π' (sdiscard (t node) targets) ∧
      ∀ x ∈ done ++ node :: queue, π' x = π x := by
  have hb0 : ∀ x ∈ done ++ [node] ++ queue, (π x).length ≤ (π node).length + 1 := by
    intro x hx
    exact h.near x (by simpa using hx) node (by simp)
  have hI0 : BfsInv start f (done ++ [node]) queue visited π := by
    have e : (done ++ [node]) ++ queue = done ++ node :: queue := by simp
    refine ⟨by rw [e]; exact h.inv.keys, by rw [e]; exact h.inv.nd, by rw [e]; exact h.inv.start_mem,
      h.inv.start_path, ?_, by rw [e]; exact h.inv.path, by rw [e]; exact h.inv.mono, by rw [e]; exact h.inv.small⟩
    intro x o hx
    rcases h.inv.par x o hx with k | ⟨y, k1, k2, k3⟩
    · exact Or.inl k
    · exact Or.inr ⟨y, k1, by simp [k2], k3⟩
  obtain ⟨q', v', π', e1, e2, e3, e4, e5, e6, e7⟩ := bfsExpand_spec (done := done ++ [node]) (node := node)
    (by simp) (f node) (fun y hy => hy) hI0 hb0
  have hπn : π' node = π node := e3 node (by simp)
  have hnew : BfsState start f t T0 (done ++ [node]) q' v' π' (sdiscard (t node) targets) := by
    refine ⟨e2, ?_, ?_, ?_, nodup_sdiscard _ _ h.tnd⟩
    · intro a ha b hb
      have h1 := e6 a ha
      have hm := e2.mono
      rw [List.pairwise_append] at hm
      have := hm.2.2 node (by simp) b hb
      rw [hπn] at this; omega
    · intro x hx y hy
      rcases List.mem_append.1 hx with k | k
      · obtain ⟨h1, h2⟩ := h.proc x k y hy
        have hy' : y ∈ done ++ [node] ++ queue := by simpa using h1
        refine ⟨?_, ?_⟩
        · rcases List.mem_append.1 hy' with k' | k'
          · exact List.mem_append_left _ k'
          · exact List.mem_append_right _ (e4 y k')
        · rw [e3 y hy', e3 x (by simp [k])]; exact h2
      · simp at k; subst k
        refine ⟨e7 y hy, ?_⟩
        have := e6 y (e7 y hy)
        rw [hπn]; exact this
    · intro v
      simp only [mem_sdiscard, h.tgt, List.mem_append, List.mem_singleton]
      constructor
      · rintro ⟨⟨h1, h2⟩, h3⟩
        refine ⟨h1, ?_⟩
        rintro x (hx | rfl)
        · exact h2 x hx
        · exact fun e => h3 e.symm
      · rintro ⟨h1, h2⟩
        exact ⟨⟨h1, fun x hx => h2 x (Or.inl hx)⟩, fun e => h2 node (Or.inr rfl) e.symm⟩
  exact ⟨q', v', π', e1, hnew, fun x hx => e3 x (by simpa using hx)⟩

/-- every walk that is not longer than the path to the head of the queue ends in a visited node whose path is not
longer -/
theorem BfsState.walks {start : α} {f : α → List α} {t : α → β} {T0 : List β} {done queue : List α} {node : α}
    {visited : List (α × Option α)} {π : α → List α} {targets : List β}
    (h : BfsState start f t T0 done (node :: queue) visited π targets) {y : α} {q : List α} (hp : PathTo f start y q)
    (hl : q.length ≤ (π node).length) : y ∈ done ++ (node :: queue) ∧ (π y).length ≤ q.length := by
  induction hp with
  | start => exact ⟨h.inv.start_mem, by rw [h.inv.start_path]; simp⟩
  | @snoc x y p hp hy ih =>
    simp only [List.length_append, List.length_cons, List.length_nil] at hl
    obtain ⟨h1, h2⟩ := ih (by omega)
    have hx : x ∈ done := by
      rcases List.mem_append.1 h1 with k | k
      · exact k
      · exfalso
        have hm := h.inv.mono
        rw [List.pairwise_append] at hm
        have hm2 := hm.2.1
        rw [List.pairwise_cons] at hm2
        rcases List.mem_cons.1 k with rfl | k
        · omega
        · have := hm2.1 x k; omega
    obtain ⟨h3, h4⟩ := h.proc x hx y hy
    exact ⟨h3, by simp; omega⟩

/-- what the rest of the search yields -/
structure BfsOut (start : α) (f : α → List α) (t : α → β) (targets : List β) (paths : List (List α)) : Prop where
  nd : (paths.map (fun p => p.getLast?.map t)).Nodup
  sound : ∀ p ∈ paths, ∃ x, PathTo f start x p ∧ t x ∈ targets ∧
    ∀ y q, PathTo f start y q → t y = t x → p.length ≤ q.length
  complete : ∀ v ∈ targets, (∃ y q, PathTo f start y q ∧ t y = v) → ∃ p ∈ paths, ∃ x, PathTo f start x p ∧ t x = v

theorem PathTo.last {f : α → List α} {start x : α} {p : List α} (h : PathTo f start x p) : p.getLast? = some x := by
  cases h <;> simp

theorem bfsLoop_spec {start : α} {f : α → List α} {t : α → β} {T0 : List β} {U : List α}
    (hU : ∀ x p, PathTo f start x p → x ∈ U) (fuel : Nat) {done queue : List α} {visited : List (α × Option α)}
    {π : α → List α} {targets : List β} (h : BfsState start f t T0 done queue visited π targets)
    (hf : missing U done < fuel) :
    ∃ paths, bfsLoop start f t fuel queue visited targets = .ok paths ∧ BfsOut start f t targets paths := by
  induction fuel generalizing done queue visited π targets with
  | zero => omega
  | succ fuel ih =>
    cases queue with
    | nil =>
      refine ⟨[], by unfold bfsLoop; rfl, by simp, by simp, ?_⟩
      rintro v hv ⟨y, q, hp, rfl⟩
      exfalso
      have : y ∈ done := by
        clear hv
        induction hp with
        | start => simpa using h.inv.start_mem
        | snoc _ hy ih' => simpa using (h.proc _ ih' _ hy).1
      exact ((h.tgt _).1 hv).2 y this rfl
    | cons node queue =>
      obtain ⟨q', v', π', e1, hnew, -⟩ := h.next
      have hnd : node ∉ done := by
        have := h.inv.nd
        rw [List.nodup_append] at this
        exact fun hn => this.2.2 node hn node (by simp) rfl
      have hrec : ∃ paths, bfsLoop start f t fuel q' v' (sdiscard (t node) targets) = .ok paths ∧
          BfsOut start f t (sdiscard (t node) targets) paths := by
        refine ih hnew ?_
        have := missing_lt (U := U) (l := done) (l' := done ++ [node]) (fun y hy => by simp [hy])
          (hU node _ (h.inv.path node (by simp))) hnd (by simp)
        omega
      -- the part after the test on the found node
      have hnext : ∃ paths, (if sdiscard (t node) targets = [] then .ok [] else
          let r := bfsExpand node (f node) queue visited
          bfsLoop start f t fuel r.1 r.2 (sdiscard (t node) targets) : Except GErr (List (List α))) = .ok paths ∧
          BfsOut start f t (sdiscard (t node) targets) paths := by
        split
        · rename_i he
          refine ⟨[], rfl, by simp, by simp, ?_⟩
          intro v hv; rw [he] at hv; simp at hv
        · simp only [e1]; exact hrec
      obtain ⟨paths, hn1, hn2⟩ := hnext
      unfold bfsLoop
      simp only [hn1]
      split
      · rename_i htn
        rw [backtrack_spec h.inv (x := node) (by simp)]
        simp only
        have hpath := h.inv.path node (by simp)
        refine ⟨_, rfl, ?_, ?_, ?_⟩
        · simp only [List.map_cons, List.nodup_cons]
          refine ⟨?_, hn2.nd⟩
          intro hm
          obtain ⟨p, hp, e⟩ := List.mem_map.1 hm
          obtain ⟨x, hx1, hx2, -⟩ := hn2.sound p hp
          rw [hx1.last, hpath.last] at e
          simp only [Option.map_some, Option.some.injEq] at e
          rw [e] at hx2
          simp at hx2
        · intro p hp
          rcases List.mem_cons.1 hp with rfl | hp
          · refine ⟨node, hpath, htn, ?_⟩
            intro y q hq hty
            apply Classical.byContradiction
            intro hlt
            obtain ⟨h1, h2⟩ := h.walks hq (by omega)
            have hyd : y ∈ done := by
              rcases List.mem_append.1 h1 with k | k
              · exact k
              · exfalso
                have hm := h.inv.mono
                rw [List.pairwise_append] at hm
                have hm2 := hm.2.1
                rw [List.pairwise_cons] at hm2
                rcases List.mem_cons.1 k with rfl | k
                · omega
                · have := hm2.1 y k; omega
            exact ((h.tgt _).1 htn).2 y hyd hty
          · obtain ⟨x, h1, h2, h3⟩ := hn2.sound p hp
            exact ⟨x, h1, ((mem_sdiscard _ _ _).1 h2).1, h3⟩
        · intro v hv hr
          by_cases hvn : v = t node
          · exact ⟨_, by simp, node, hpath, hvn.symm⟩
          · obtain ⟨p, hp, x, h1, h2⟩ := hn2.complete v (by simp [hv, hvn]) hr
            exact ⟨p, by simp [hp], x, h1, h2⟩
      · rename_i htn
        have hsd : sdiscard (t node) targets = targets := by
          unfold sdiscard
          rw [List.filter_eq_self]
          intro v hv
          simp only [decide_eq_true_eq]
          exact fun e => htn (e ▸ hv)
        rw [hsd] at hn2
        exact ⟨paths, rfl, hn2⟩

theorem bfs_spec {start : α} {f : α → List α} {t : α → β} {targets : List β} {U : List α}
    (hU : ∀ x p, PathTo f start x p → x ∈ U) {fuel : Nat} (hf : U.length < fuel) :
    ∃ paths, breadthFirstSearch start f t targets fuel = .ok paths ∧ BfsOut start f t targets paths := by
  unfold breadthFirstSearch
  have h0 : BfsState start f t targets [] [start] [(start, none)] (fun _ => [start]) (fromkeys targets) := by
    refine ⟨⟨rfl, by simp, by simp, rfl, ?_, ?_, by simp, by simp⟩, by simp, by simp, by simp, nodup_fromkeys _⟩
    · intro x o hx; simp at hx; exact Or.inl hx.1
    · intro x hx; simp at hx; subst hx; exact .start
  obtain ⟨paths, h1, h2⟩ := bfsLoop_spec hU fuel h0 (by have := missing_le U ([] : List α); omega)
  refine ⟨paths, h1, h2.nd, ?_, ?_⟩
  · intro p hp
    obtain ⟨x, k1, k2, k3⟩ := h2.sound p hp
    exact ⟨x, k1, by simpa using k2, k3⟩
  · intro v hv hr
    exact h2.complete v (by simpa using hv) hr

end Verif.Graph
