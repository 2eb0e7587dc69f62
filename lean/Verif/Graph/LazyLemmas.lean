import Verif.Graph.Bfs
import Verif.Graph.Lazy
/-
Lemmas about the generator `breadth_first_search`.
-/
set_option linter.unusedSectionVars false
namespace Verif.Graph
open Verif

variable {α β : Type} [DecidableEq α] [DecidableEq β]

theorem mem_without {f : α → List α} {V : List α} {x y : α} : y ∈ without f V x ↔ y ∈ f x ∧ y ∉ V := by
  simp [without]

theorem PathTo.not_mem_without {f : α → List α} {V : List α} {start x : α} {p : List α}
    (h : PathTo (without f V) start x p) (hx : x ≠ start) : x ∉ V := by
  cases h with
  | start => exact absurd rfl hx
  | snoc _ hy => exact (mem_without.1 hy).2

/-- the caller's dictionary only takes its keys out of the graph -/
theorem bfsExpand_without {start node : α} {V : List α} {D0 : Dict α (Option α)}
    (hD : ∀ x, x ∈ D0.map Prod.fst ↔ x ∈ V ∨ x = start) :
    ∀ (nbs queue : List α) (rest : Dict α (Option α)), ∃ q rest',
      bfsExpand node nbs queue (D0 ++ rest) = (q, D0 ++ rest') ∧
      bfsExpand node (nbs.filter (fun y => decide (y ∉ V))) queue ((start, none) :: rest) = (q, (start, none) :: rest')
  | [], queue, rest => ⟨queue, rest, rfl, rfl⟩
  | nb :: nbs, queue, rest => by
    by_cases hV : nb ∈ V
    · obtain ⟨q, rest', h1, h2⟩ := bfsExpand_without hD nbs queue rest
      refine ⟨q, rest', ?_, ?_⟩
      · unfold bfsExpand
        rw [if_pos (by rw [List.map_append, List.mem_append, hD]; exact Or.inl (Or.inl hV))]
        exact h1
      · rw [List.filter_cons_of_neg (by simpa using hV)]; exact h2
    · rw [List.filter_cons_of_pos (by simpa using hV)]
      unfold bfsExpand
      by_cases hk : nb = start ∨ nb ∈ rest.map Prod.fst
      · rw [if_pos (by rw [List.map_append, List.mem_append, hD]; exact hk.imp_left Or.inr),
          if_pos (by simpa using hk)]
        exact bfsExpand_without hD nbs queue rest
      · rw [if_neg (by rw [List.map_append, List.mem_append, hD]; rintro ((k | k) | k) <;> simp_all),
          if_neg (by simpa using hk)]
        have := bfsExpand_without (node := node) hD nbs (queue ++ [nb]) (rest ++ [(nb, some node)])
        simpa using this

/-- `backtrack` in any dictionary that agrees with that of the search on the nodes of the search -/
theorem backtrack_agree {start : α} {f : α → List α} {done queue : List α} {visited : List (α × Option α)}
    {π : α → List α} (h : BfsInv start f done queue visited π) {D : List (α × Option α)}
    (hD : ∀ x ∈ done ++ queue, x ≠ start → (D.find? (fun kv => decide (kv.1 = x))).map Prod.snd =
      (visited.find? (fun kv => decide (kv.1 = x))).map Prod.snd)
    (fuel : Nat) (x : α) (hx : x ∈ done ++ queue)
    (hf : (π x).length ≤ fuel) (rest : List α) :
    backtrackLoop start D fuel x (x :: rest) = .ok (π x ++ rest) := by
  induction fuel generalizing x rest with
  | zero =>
    have := h.path x hx
    exfalso
    generalize π x = p at this hf
    cases this <;> simp at hf
  | succ fuel ih =>
    unfold backtrackLoop
    split
    · rename_i e; subst e; rw [h.start_path]; rfl
    · rename_i hne
      obtain ⟨o, h1, h2⟩ := find_of_nodup (by rw [h.keys]; exact h.nd) (by rw [h.keys]; exact hx)
      rw [hD x hx hne, h2]
      rcases h.par x o h1 with e | ⟨y, rfl, hy, hp⟩
      · exact absurd e hne
      · simp only
        rw [ih y (by simp [hy]) (by rw [hp] at hf; simp at hf; omega), hp]
        simp

/-- a node that is nearer than the head of the queue is done -/
theorem BfsState.shorter {start : α} {f : α → List α} {t : α → β} {T0 : List β} {done queue : List α} {node : α}
    {visited : List (α × Option α)} {π : α → List α} {targets : List β}
    (h : BfsState start f t T0 done (node :: queue) visited π targets) {y : α} {q : List α} (hp : PathTo f start y q)
    (hl : q.length < (π node).length) : y ∈ done := by
  obtain ⟨h1, h2⟩ := h.walks hp (by omega)
  rcases List.mem_append.1 h1 with k | k
  · exact k
  · exfalso
    have hm := h.inv.mono
    rw [List.pairwise_append] at hm
    have hm2 := hm.2.1
    rw [List.pairwise_cons] at hm2
    rcases List.mem_cons.1 k with rfl | k
    · omega
    · have := hm2.1 y k; omega

/-- the nodes that the search looks at are done when the queue is empty -/
theorem BfsState.all {start : α} {f : α → List α} {t : α → β} {T0 : List β} {done : List α}
    {visited : List (α × Option α)} {π : α → List α} {targets : List β}
    (h : BfsState start f t T0 done [] visited π targets) {y : α} {q : List α} (hp : PathTo f start y q) :
    y ∈ done := by
  induction hp with
  | start => simpa using h.inv.start_mem
  | snoc _ hy ih' => simpa using (h.proc _ ih' _ hy).1

/-- the nodes of the search have shortest paths -/
theorem BfsState.shortest {start : α} {f : α → List α} {t : α → β} {T0 : List β} {done queue : List α}
    {visited : List (α × Option α)} {π : α → List α} {targets : List β}
    (h : BfsState start f t T0 done queue visited π targets) {y : α} {q : List α} (hp : PathTo f start y q)
    (hy : y ∈ done ++ queue) : (π y).length ≤ q.length := by
  induction hp with
  | start => rw [h.inv.start_path]; simp
  | @snoc x y p hp hxy ih =>
    simp only [List.length_append, List.length_cons, List.length_nil]
    by_cases hx : x ∈ done
    · have h1 := ih (by simp [hx])
      have h2 := (h.proc x hx y hxy).2
      omega
    · cases queue with
      | nil => exact absurd (h.all hp) hx
      | cons node queue =>
        -- x is not done, so it is not nearer than the head of the queue
        have h1 : (π node).length ≤ p.length := by
          apply Classical.byContradiction
          intro hlt
          exact hx (h.shorter hp (by omega))
        have h2 := h.near y hy node (by simp)
        omega

/-- what is known about the generator at every moment -/
structure BfsGenInv (start : α) (f : α → List α) (t : α → β) (T0 : List β) (V0 : Dict α (Option α)) (s : BfsGen α β)
    (rest : Dict α (Option α)) (π : α → List α) (T : List β) : Prop where
  vis : s.visited = dset V0 start none ++ rest
  st : BfsState start (without f (dkeys V0)) t T0 s.asked (s.node.toList ++ s.queue) ((start, none) :: rest) π T
  tg : s.targets = match s.node with | none => T | some x => sdiscard (t x) T
  sound : ∀ p ∈ s.paths, ∃ x, PathTo (without f (dkeys V0)) start x p ∧ t x ∈ T0 ∧ t x ∉ s.targets ∧
    ∀ y q, PathTo (without f (dkeys V0)) start y q → t y = t x → p.length ≤ q.length
  complete : ∀ v ∈ T0, v ∉ s.targets → ∃ p ∈ s.paths, ∃ x, PathTo (without f (dkeys V0)) start x p ∧ t x = v
  nd : (s.paths.map (fun p => p.getLast?.map t)).Nodup
  needed : ∀ x ∈ s.asked, ∃ v ∈ T0, ∀ y q, PathTo (without f (dkeys V0)) start y q → t y = v →
    (π x).length ≤ q.length
  fin : s.ended = true → (s.node = none ∧ s.queue = []) ∨ (s.targets = [] ∧ s.node.isSome)
  fine : s.failed = false

theorem keys_begin (V0 : Dict α (Option α)) (start x : α) :
    x ∈ (dset V0 start none).map Prod.fst ↔ x ∈ dkeys V0 ∨ x = start := by
  have := dkeys_dset V0 start none
  change x ∈ dkeys (dset V0 start none) ↔ _
  rw [this]
  split
  · rename_i h
    constructor
    · exact Or.inl
    · rintro (k | rfl)
      · exact k
      · exact h
  · simp

theorem find_eq_dget (d : Dict α (Option α)) (x : α) :
    (d.find? (fun kv => decide (kv.1 = x))).map Prod.snd = dget d x := by
  induction d with
  | nil => rfl
  | cons kv d ih =>
    simp only [List.find?_cons, dget]
    by_cases h : kv.1 = x
    · simp [h]
    · simp [h, ih]

theorem dget_append (d e : Dict α (Option α)) (x : α) (h : x ∉ dkeys d) : dget (d ++ e) x = dget e x := by
  induction d with
  | nil => rfl
  | cons kv d ih =>
    simp only [dkeys, List.map_cons, List.mem_cons, not_or] at h
    simp only [List.cons_append, dget]
    rw [if_neg (fun e => h.1 e.symm)]
    exact ih h.2

theorem BfsGenInv.lookup {start : α} {f : α → List α} {t : α → β} {T0 : List β} {V0 : Dict α (Option α)}
    {s : BfsGen α β} {rest : Dict α (Option α)} {π : α → List α} {T : List β}
    (h : BfsGenInv start f t T0 V0 s rest π T) {x : α} (hx : x ∈ s.asked ++ (s.node.toList ++ s.queue))
    (hne : x ≠ start) : dget s.visited x = dget ((start, none) :: rest) x := by
  rw [h.vis, dget_append]
  · simp only [dget]; rw [if_neg (fun e => hne e.symm)]
  · have hp := (h.st.inv.path x hx).not_mem_without hne
    intro hk
    rcases (keys_begin V0 start x).1 hk with k | k
    · exact hp k
    · exact hne k

theorem BfsGenInv.backtrack {start : α} {f : α → List α} {t : α → β} {T0 : List β} {V0 : Dict α (Option α)}
    {s : BfsGen α β} {rest : Dict α (Option α)} {π : α → List α} {T : List β}
    (h : BfsGenInv start f t T0 V0 s rest π T) {x : α} (hx : x ∈ s.asked ++ (s.node.toList ++ s.queue)) :
    backtrack start s.visited x = .ok (π x) := by
  have := backtrack_agree h.st.inv (D := s.visited)
    (fun y hy hne => by rw [find_eq_dget, find_eq_dget]; exact h.lookup hy hne)
    (s.visited.length + 1) x hx (by
      have h1 := h.st.inv.small x hx
      have h2 : (dset V0 start none).length ≠ 0 := by
        intro e
        have hm : start ∈ (dset V0 start none).map Prod.fst := (keys_begin V0 start start).2 (Or.inr rfl)
        rw [List.length_eq_zero_iff.1 e] at hm
        simp at hm
      rw [h.vis]
      simp only [List.length_append, List.length_cons] at h1 ⊢
      omega) []
  simpa [Graph.backtrack] using this

theorem bfsRun_inv (start : α) (f : α → List α) (t : α → β) (targets : List β) (V0 : Dict α (Option α)) (n : Nat) :
    ∃ rest π T, BfsGenInv start f t targets V0 (bfsRun start f t targets V0 n) rest π T := by
  induction n with
  | zero =>
    refine ⟨[], fun _ => [start], fromkeys targets, ?_⟩
    refine ⟨by simp [bfsRun, bfsBegin], ?_, rfl, by simp [bfsRun, bfsBegin], ?_, by simp [bfsRun, bfsBegin],
      by simp [bfsRun, bfsBegin], by simp [bfsRun, bfsBegin], rfl⟩
    · simp only [bfsRun, bfsBegin]
      refine ⟨⟨rfl, by simp, by simp, rfl, ?_, ?_, by simp, by simp⟩, by simp, by simp, by simp, nodup_fromkeys _⟩
      · intro x o hx; simp at hx; exact Or.inl hx.1
      · intro x hx; simp at hx; subst hx; exact .start
    · intro v hv hv'
      exact absurd (by simpa [bfsRun, bfsBegin] using hv) hv'
  | succ n ih =>
    obtain ⟨rest, π, T, h⟩ := ih
    simp only [bfsRun]
    generalize bfsRun start f t targets V0 n = s at h
    unfold bfsStep
    split
    · exact ⟨rest, π, T, h⟩
    rename_i hend
    split
    · -- take
      rename_i hnode
      have hst := h.st
      have htg := h.tg
      simp only [hnode, Option.toList_none, List.nil_append] at hst htg
      unfold bfsTake
      split
      · rename_i hq
        exact ⟨rest, π, T, h.vis, h.st, h.tg, h.sound, h.complete, h.nd, h.needed, fun _ => Or.inl ⟨hnode, hq⟩, h.fine⟩
      · rename_i node queue hq
        rw [hq] at hst
        have hmem : node ∈ s.asked ++ (s.node.toList ++ s.queue) := by simp [hnode, hq]
        have hpath := hst.inv.path node (by simp)
        split
        · rename_i htn
          rw [h.backtrack hmem]
          simp only
          refine ⟨rest, π, T, h.vis, by simpa using hst, by simp [htg], ?_, ?_, ?_, h.needed, by simp [hend], h.fine⟩
          · intro p hp
            rcases List.mem_append.1 hp with hp | hp
            · obtain ⟨x, h1, h2, h3, h4⟩ := h.sound p hp
              exact ⟨x, h1, h2, fun hm => h3 (((mem_sdiscard _ _ _).1 hm).1), h4⟩
            · simp only [List.mem_singleton] at hp
              subst hp
              rw [htg] at htn
              refine ⟨node, hpath, ((hst.tgt _).1 htn).1, by simp, ?_⟩
              intro y q hq hty
              apply Classical.byContradiction
              intro hlt
              exact ((hst.tgt _).1 htn).2 y (hst.shorter hq (by omega)) hty
          · intro v hv hv'
            by_cases hvn : v = t node
            · exact ⟨_, by simp, node, hpath, hvn.symm⟩
            · obtain ⟨p, hp, h'⟩ := h.complete v hv (fun hm => hv' ((mem_sdiscard _ _ _).2 ⟨hm, hvn⟩))
              exact ⟨p, by simp [hp], h'⟩
          · simp only [List.map_append, List.map_cons, List.map_nil]
            rw [List.nodup_append]
            refine ⟨h.nd, by simp, ?_⟩
            rintro a ha b hb rfl
            simp only [List.mem_singleton] at hb
            obtain ⟨p, hp, e⟩ := List.mem_map.1 ha
            obtain ⟨x, hx1, -, hx2, -⟩ := h.sound p hp
            rw [hb, hx1.last, hpath.last] at e
            simp only [Option.map_some, Option.some.injEq] at e
            exact hx2 (e ▸ htn)
        · rename_i htn
          refine ⟨rest, π, T, h.vis, by simpa using hst, ?_, h.sound, h.complete, h.nd, h.needed, by simp [hend], h.fine⟩
          simp only
          rw [htg] at htn ⊢
          unfold sdiscard
          symm
          rw [List.filter_eq_self]
          intro v hv
          simp only [decide_eq_true_eq]
          exact fun e => htn (e ▸ hv)
    · -- ask
      rename_i node hnode
      have hst := h.st
      have htg := h.tg
      simp only [hnode, Option.toList_some, List.singleton_append] at hst htg
      unfold bfsAsk
      split
      · rename_i he
        exact ⟨rest, π, T, h.vis, h.st, h.tg, h.sound, h.complete, h.nd, h.needed, fun _ => Or.inr ⟨he, by simp [hnode]⟩, h.fine⟩
      · rename_i he
        obtain ⟨q', rest', e1, e2⟩ := bfsExpand_without (node := node) (keys_begin V0 start) (f node) s.queue rest
        obtain ⟨q'', v', π', k1, k2, k3⟩ := hst.next
        have k1' : bfsExpand node (without f (dkeys V0) node) s.queue ((start, none) :: rest) = (q', (start, none) :: rest') := e2
        rw [k1'] at k1
        obtain ⟨rfl, rfl⟩ := Prod.mk.inj k1
        rw [h.vis, e1]
        simp only
        refine ⟨rest', π', sdiscard (t node) T, rfl, by simpa using k2, htg, h.sound, h.complete, h.nd, ?_, by simp [hend], h.fine⟩
        intro x hx
        rcases List.mem_append.1 hx with hx | hx
        · rw [k3 x (by simp [hx])]; exact h.needed x hx
        · simp only [List.mem_singleton] at hx
          subst hx
          rw [k3 x (by simp)]
          obtain ⟨v, hv⟩ := List.exists_mem_of_ne_nil _ he
          rw [htg, mem_sdiscard] at hv
          have hv2 := (hst.tgt v).1 hv.1
          refine ⟨v, hv2.1, ?_⟩
          intro y q hq hty
          apply Classical.byContradiction
          intro hlt
          exact hv2.2 y (hst.shorter hq (by omega)) hty

/-! ### progress -/

theorem bfsRun_ended_stays (start : α) (f : α → List α) (t : α → β) (targets : List β) (V0 : Dict α (Option α)) {n : Nat}
    (h : (bfsRun start f t targets V0 n).ended = true) : ∀ k, bfsRun start f t targets V0 (n + k) = bfsRun start f t targets V0 n
  | 0 => rfl
  | k + 1 => by
    change bfsStep start f t (bfsRun start f t targets V0 (n + k)) = _
    rw [bfsRun_ended_stays start f t targets V0 h k]
    unfold bfsStep
    rw [if_pos h]

theorem bfsStep_grows (start : α) (f : α → List α) (t : α → β) (s : BfsGen α β) :
    s.paths <+: (bfsStep start f t s).paths ∧ (∀ v ∈ (bfsStep start f t s).targets, v ∈ s.targets) ∧
    s.asked <+: (bfsStep start f t s).asked := by
  unfold bfsStep
  split
  · simp
  split
  · unfold bfsTake
    split
    · simp
    · split
      · split
        · simp
        · exact ⟨List.prefix_append _ _, fun v hv => ((mem_sdiscard _ _ _).1 hv).1, List.prefix_rfl⟩
      · simp
  · unfold bfsAsk
    split
    · simp
    · simp

theorem bfsRun_grows (start : α) (f : α → List α) (t : α → β) (targets : List β) (V0 : Dict α (Option α)) (n : Nat) :
    ∀ k, (bfsRun start f t targets V0 n).paths <+: (bfsRun start f t targets V0 (n + k)).paths ∧
      (∀ v ∈ (bfsRun start f t targets V0 (n + k)).targets, v ∈ (bfsRun start f t targets V0 n).targets) ∧
      (bfsRun start f t targets V0 n).asked <+: (bfsRun start f t targets V0 (n + k)).asked
  | 0 => by simp
  | k + 1 => by
    obtain ⟨h1, h2, h3⟩ := bfsRun_grows start f t targets V0 n k
    obtain ⟨g1, g2, g3⟩ := bfsStep_grows start f t (bfsRun start f t targets V0 (n + k))
    exact ⟨h1.trans g1, fun v hv => h2 v (g2 v hv), h3.trans g3⟩

/-- Whatever finite set of nodes is given, the search ends or comes to a node that is not in it. -/
theorem bfsRun_leaves (start : α) (f : α → List α) (t : α → β) (targets : List β) (V0 : Dict α (Option α)) (L : List α) :
    ∀ (m n : Nat), (bfsRun start f t targets V0 n).node = none →
      missing L (bfsRun start f t targets V0 n).asked ≤ m →
      ∃ k, (bfsRun start f t targets V0 k).ended = true ∨ ((bfsRun start f t targets V0 k).node = none ∧
        ∃ x q, (bfsRun start f t targets V0 k).queue = x :: q ∧ x ∉ L) := by
  intro m
  induction m with
  | zero =>
    intro n hn hm
    cases hq : (bfsRun start f t targets V0 n).queue with
    | nil =>
      refine ⟨n + 1, Or.inl ?_⟩
      simp only [bfsRun, bfsStep]
      split
      · assumption
      · simp [hn, bfsTake, hq]
    | cons x q =>
      refine ⟨n, Or.inr ⟨hn, x, q, hq, ?_⟩⟩
      intro hx
      obtain ⟨rest, π, T, h⟩ := bfsRun_inv start f t targets V0 n
      have hnd := h.st.inv.nd
      rw [hn, hq] at hnd
      simp only [missing, Nat.le_zero_eq, List.length_eq_zero_iff, List.filter_eq_nil_iff, decide_eq_true_eq,
        Classical.not_not] at hm
      rw [List.nodup_append] at hnd
      exact hnd.2.2 x (hm x hx) x (by simp) rfl
  | succ m ih =>
    intro n hn hm
    cases hq : (bfsRun start f t targets V0 n).queue with
    | nil =>
      refine ⟨n + 1, Or.inl ?_⟩
      simp only [bfsRun, bfsStep]
      split
      · assumption
      · simp [hn, bfsTake, hq]
    | cons x q =>
      by_cases hx : x ∈ L
      · by_cases he : (bfsRun start f t targets V0 n).ended = true
        · exact ⟨n, Or.inl he⟩
        obtain ⟨rest, π, T, h⟩ := bfsRun_inv start f t targets V0 n
        have hnd := h.st.inv.nd
        rw [hn, hq] at hnd
        rw [List.nodup_append] at hnd
        have hxa : x ∉ (bfsRun start f t targets V0 n).asked := fun hm => hnd.2.2 x hm x (by simp) rfl
        have e1 : (bfsRun start f t targets V0 (n + 1)).node = some x ∧
            (bfsRun start f t targets V0 (n + 1)).asked = (bfsRun start f t targets V0 n).asked ∧
            (bfsRun start f t targets V0 (n + 1)).ended = false := by
          have hb := h.backtrack (x := x) (by simp [hq])
          simp only [bfsRun, bfsStep]
          rw [if_neg he]
          simp only [hn, bfsTake, hq]
          split
          · rw [hb]; simpa using he
          · simpa using he
        by_cases hT : (bfsRun start f t targets V0 (n + 1)).targets = []
        · refine ⟨n + 2, Or.inl ?_⟩
          change (bfsStep start f t (bfsRun start f t targets V0 (n + 1))).ended = true
          unfold bfsStep
          rw [if_neg (by simp [e1.2.2])]
          simp only [e1.1]
          unfold bfsAsk
          rw [if_pos hT]
        · have e2 : (bfsRun start f t targets V0 (n + 2)).node = none ∧
              (bfsRun start f t targets V0 (n + 2)).asked = (bfsRun start f t targets V0 n).asked ++ [x] := by
            change (bfsStep start f t (bfsRun start f t targets V0 (n + 1))).node = none ∧
              (bfsStep start f t (bfsRun start f t targets V0 (n + 1))).asked = _
            unfold bfsStep
            rw [if_neg (by simp [e1.2.2])]
            simp only [e1.1]
            unfold bfsAsk
            rw [if_neg hT]
            simp [e1.2.1]
          refine ih (n + 2) e2.1 ?_
          rw [e2.2]
          have := missing_lt (U := L) (l := (bfsRun start f t targets V0 n).asked)
            (l' := (bfsRun start f t targets V0 n).asked ++ [x]) (fun y hy => by simp [hy]) hx hxa (by simp)
          omega
      · exact ⟨n, Or.inr ⟨hn, x, q, hq, hx⟩⟩

/-- the ends of the walks of at most `k + 1` nodes -/
def within (f : α → List α) (start : α) : Nat → List α
  | 0 => [start]
  | k + 1 => within f start k ++ (within f start k).flatMap f

theorem mem_within {f : α → List α} {start x : α} {p : List α} (h : PathTo f start x p) :
    ∀ k, p.length ≤ k + 1 → x ∈ within f start k := by
  induction h with
  | start =>
    intro k _
    induction k with
    | zero => simp [within]
    | succ k ih => simp only [within]; exact List.mem_append_left _ (ih (by simp))
  | @snoc x y p hp hy ih =>
    intro k hk
    simp only [List.length_append, List.length_cons, List.length_nil] at hk
    cases k with
    | zero =>
      exfalso
      cases hp <;> simp at hk
    | succ k =>
      simp only [within]
      exact List.mem_append_right _ (List.mem_flatMap.2 ⟨x, ih k (by omega), hy⟩)

/-- every target that can be hit is found -/
theorem bfsRun_finds (start : α) (f : α → List α) (t : α → β) (targets : List β) (V0 : Dict α (Option α)) {v : β}
    {y : α} {q : List α} (hp : PathTo (without f (dkeys V0)) start y q) (hty : t y = v) :
    ∃ n, v ∉ (bfsRun start f t targets V0 n).targets := by
  obtain ⟨k, hk⟩ := bfsRun_leaves start f t targets V0 (within (without f (dkeys V0)) start q.length) _ 0 rfl (Nat.le_refl _)
  refine ⟨k, ?_⟩
  obtain ⟨rest, π, T, h⟩ := bfsRun_inv start f t targets V0 k
  have hst := h.st
  have htg := h.tg
  rcases hk with hk | ⟨hn, x, qu, hq, hx⟩
  · rcases h.fin hk with ⟨hn, hq⟩ | ⟨he, -⟩
    · simp only [hn, hq, Option.toList_none, List.nil_append] at hst htg
      intro hm
      rw [htg] at hm
      exact ((hst.tgt v).1 hm).2 y (hst.all hp) hty
    · simp [he]
  · simp only [hn, hq, Option.toList_none, List.nil_append] at hst htg
    intro hm
    rw [htg] at hm
    refine ((hst.tgt v).1 hm).2 y (hst.shorter hp ?_) hty
    apply Classical.byContradiction
    intro hlt
    exact hx (mem_within (hst.inv.path x (by simp)) _ (by omega))

/-- consumed to the end with no dictionary given, the generator is `breadthFirstSearch` -/
theorem bfsLoop_run (start : α) (f : α → List α) (t : α → β) (targets : List β) (V0 : Dict α (Option α)) :
    ∀ (fuel n : Nat) (ps : List (List α)), (bfsRun start f t targets V0 n).node = none →
      (bfsRun start f t targets V0 n).ended = false →
      bfsLoop start f t fuel (bfsRun start f t targets V0 n).queue (bfsRun start f t targets V0 n).visited
        (bfsRun start f t targets V0 n).targets = .ok ps →
      ∃ k, (bfsRun start f t targets V0 k).ended = true ∧
        (bfsRun start f t targets V0 k).paths = (bfsRun start f t targets V0 n).paths ++ ps
  | 0, n, ps, _, _, h => by simp [bfsLoop] at h
  | fuel + 1, n, ps, hn, he, h => by
    generalize hs : bfsRun start f t targets V0 n = s at *
    have h1 : bfsRun start f t targets V0 (n + 1) = bfsTake start t s := by
      simp only [bfsRun, hs, bfsStep]
      rw [if_neg (by simp [he])]
      simp only [hn]
    cases hq : s.queue with
    | nil =>
      rw [hq] at h
      simp only [bfsLoop, Except.ok.injEq] at h
      subst h
      exact ⟨n + 1, by rw [h1]; simp [bfsTake, hq], by rw [h1]; simp [bfsTake, hq]⟩
    | cons node queue =>
      rw [hq] at h
      unfold bfsLoop at h
      -- the second half of the turn
      have key : ∀ (s1 : BfsGen α β) (ps' : List (List α)), bfsRun start f t targets V0 (n + 1) = s1 →
          s1.node = some node → s1.ended = false → s1.queue = queue → s1.visited = s.visited →
          s1.targets = sdiscard (t node) s.targets →
          (if sdiscard (t node) s.targets = [] then .ok [] else
            let r := bfsExpand node (f node) queue s.visited
            bfsLoop start f t fuel r.1 r.2 (sdiscard (t node) s.targets) : Except GErr (List (List α))) = .ok ps' →
          ∃ k, (bfsRun start f t targets V0 k).ended = true ∧
            (bfsRun start f t targets V0 k).paths = s1.paths ++ ps' := by
        intro s1 ps' e1 e2 e3 e4 e5 e6 e7
        have h2 : bfsRun start f t targets V0 (n + 2) = bfsAsk f node s1 := by
          change bfsStep start f t (bfsRun start f t targets V0 (n + 1)) = _
          rw [e1]
          unfold bfsStep
          rw [if_neg (by simp [e3])]
          simp only [e2]
        unfold bfsAsk at h2
        split at e7
        · rename_i hT
          rw [if_pos (by rw [e6]; exact hT)] at h2
          simp only [Except.ok.injEq] at e7
          subst e7
          exact ⟨n + 2, by rw [h2], by rw [h2]; simp⟩
        · rename_i hT
          rw [if_neg (by rw [e6]; exact hT)] at h2
          obtain ⟨k, k1, k2⟩ := bfsLoop_run start f t targets V0 fuel (n + 2) ps' (by rw [h2])
            (by rw [h2]; exact e3) (by rw [h2]; simp only [e4, e5, e6]; exact e7)
          exact ⟨k, k1, by rw [k2, h2]⟩
      unfold bfsTake at h1
      rw [hq] at h1
      simp only at h h1
      split at h
      · rename_i htn
        rw [if_pos htn] at h1
        split at h
        · cases h
        · rename_i path hb
          rw [hb] at h1
          simp only at h1
          split at h
          · cases h
          · rename_i paths hp
            cases h
            obtain ⟨k, k1, k2⟩ := key _ paths h1 rfl he rfl rfl rfl hp
            exact ⟨k, k1, by rw [k2]; simp⟩
      · rename_i htn
        rw [if_neg htn] at h1
        have hsd : sdiscard (t node) s.targets = s.targets := by
          unfold sdiscard
          rw [List.filter_eq_self]
          intro v hv
          simp only [decide_eq_true_eq]
          exact fun e => htn (e ▸ hv)
        obtain ⟨k, k1, k2⟩ := key _ ps h1 rfl he rfl rfl hsd.symm h
        exact ⟨k, k1, k2⟩

end Verif.Graph
