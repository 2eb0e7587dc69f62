import Verif.Solve.Unsat
import Verif.Graph.Bfs
import Mathlib.Data.List.Chain
/-
Lemmas about the explanations of SatisfiabilityError.
-/
set_option linter.unusedSectionVars false
namespace Verif.Solve
open Verif Verif.Pkg Verif.Graph Verif.Rules

variable {N S U : Type} [LinearOrder N] [DecidableEq S] [LinearOrder U] [Syntax S U]

/-- `Uses e c d`: the clause `d` is in the trail of the learned clause `c`, or in that of a clause used for it. -/
inductive Uses (e : Evidence N U) : Nat → Nat → Prop
  | direct {c d ts} : e.learned c = true → dget e.trails c = some ts → d ∈ ts → Uses e c d
  | step {c d b ts} : e.learned c = true → dget e.trails c = some ts → b ∈ ts → Uses e b d → Uses e c d

/-- What is needed of the objects: a learned clause has a trail of older clauses and no rule. -/
structure Sane (e : Evidence N U) (n : Nat) : Prop where
  trail : ∀ c, c < n → e.learned c = true → ∃ ts, dget e.trails c = some ts ∧ ∀ d ∈ ts, d < c
  rule : ∀ c, c < n → e.learned c = true → e.rule c = none

structure MemoOK (e : Evidence N U) (m : Memo) : Prop where
  flat : ∀ c t, dget m.flat c = some t → (∀ d ∈ t, e.learned d = false ∧ Uses e c d) ∧ (e.learned c = false → t = [])
  reqs : ∀ c t, dget m.reqs c = some t → ∀ d ∈ t, e.hasReqs d = true ∧ (d = c ∨ Uses e c d)

theorem MemoOK.empty (e : Evidence N U) : MemoOK e ⟨[], []⟩ where
  flat := by intro c t h; cases h
  reqs := by intro c t h; cases h

theorem MemoOK.setFlat {e : Evidence N U} {m : Memo} (h : MemoOK e m) {c : Nat} {t : List Nat}
    (ht : ∀ d ∈ t, e.learned d = false ∧ Uses e c d) (hn : e.learned c = false → t = []) :
    MemoOK e { m with flat := dset m.flat c t } where
  flat := by
    intro d u hu
    rw [dget_dset] at hu
    split at hu
    · next heq => subst heq; cases hu; exact ⟨ht, hn⟩
    · exact h.flat d u hu
  reqs := h.reqs

theorem MemoOK.setReqs {e : Evidence N U} {m : Memo} (h : MemoOK e m) {c : Nat} {t : List Nat}
    (ht : ∀ d ∈ t, e.hasReqs d = true ∧ (d = c ∨ Uses e c d)) :
    MemoOK e { m with reqs := dset m.reqs c t } where
  flat := h.flat
  reqs := by
    intro d u hu
    rw [dget_dset] at hu
    split at hu
    · next heq => subst heq; cases hu; exact ht
    · exact h.reqs d u hu

theorem trailLoop_spec {e : Evidence N U} {self} {c : Nat} {ts0 : List Nat} (hc : e.learned c = true)
    (hts0 : dget e.trails c = some ts0)
    (hself : ∀ t ∈ ts0, ∀ ign m, MemoOK e m → ∃ u ign' m', self t ign m = .ok (u, ign', m') ∧ MemoOK e m' ∧
      (∀ d ∈ u, e.learned d = false ∧ Uses e t d)) :
    ∀ (ts flat ign : List Nat) (m : Memo), (∀ t ∈ ts, t ∈ ts0) → MemoOK e m →
      (∀ d ∈ flat, e.learned d = false ∧ Uses e c d) →
      ∃ u ign' m', trailLoop e self ts flat ign m = .ok (u, ign', m') ∧ MemoOK e m' ∧
        (∀ d ∈ u, e.learned d = false ∧ Uses e c d)
  | [], flat, ign, m, _, hm, hf => ⟨flat, ign, m, rfl, hm, hf⟩
  | t :: ts, flat, ign, m, hts, hm, hf => by
    unfold trailLoop
    split
    · obtain ⟨u, ign', m', h1, h2, h3⟩ := hself t (hts t (by simp)) ign m hm
      simp only [h1]
      refine trailLoop_spec hc hts0 hself ts _ _ _ (fun x hx => hts x (by simp [hx])) h2 ?_
      intro d hd
      rcases List.mem_append.1 hd with hd | hd
      · exact hf d hd
      · exact ⟨(h3 d hd).1, .step hc hts0 (hts t (by simp)) (h3 d hd).2⟩
    · next hl =>
      refine trailLoop_spec hc hts0 hself ts _ _ _ (fun x hx => hts x (by simp [hx])) hm ?_
      intro d hd
      rcases List.mem_append.1 hd with hd | hd
      · exact hf d hd
      · simp only [List.mem_singleton] at hd
        subst hd
        exact ⟨by simpa using hl, .direct hc hts0 (hts d (by simp))⟩

theorem clauseTrail_spec {e : Evidence N U} {n : Nat} (hs : Sane e n) :
    ∀ (fuel c : Nat), c < fuel → c < n → ∀ ign m, MemoOK e m →
      ∃ t ign' m', clauseTrail e fuel c ign m = .ok (t, ign', m') ∧ MemoOK e m' ∧
        (∀ d ∈ t, e.learned d = false ∧ Uses e c d) ∧ (e.learned c = false → t = [])
  | 0, c, h, _, _, _, _ => by omega
  | fuel + 1, c, hf, hn, ign, m, hm => by
    unfold clauseTrail
    split
    · exact ⟨[], ign, m, rfl, hm, by simp, by simp⟩
    · simp only
      split
      · next flat hg =>
        exact ⟨flat, _, m, rfl, hm, (hm.flat c flat hg).1, (hm.flat c flat hg).2⟩
      · split
        · next hl =>
          obtain ⟨ts, h1, h2⟩ := hs.trail c hn hl
          simp only [h1]
          obtain ⟨u, ign', m', k1, k2, k3⟩ := trailLoop_spec (self := clauseTrail e fuel) hl h1 (by
            intro t ht ign m hm
            obtain ⟨u, i', m', j1, j2, j3, -⟩ := clauseTrail_spec hs fuel t (by have := h2 t ht; omega)
              (by have := h2 t ht; omega) ign m hm
            exact ⟨u, i', m', j1, j2, j3⟩) ts [] (sadd c ign) m (fun t ht => ht) hm (by simp)
          simp only [k1]
          exact ⟨u, ign', _, rfl, k2.setFlat k3 (by simp [hl]), k3, by simp [hl]⟩
        · next hl =>
          exact ⟨[], _, _, rfl, hm.setFlat (by simp) (by simp), by simp, by simp⟩

theorem reqLoop_spec {e : Evidence N U} {self} {P : Nat → Prop} {T : List Nat}
    (hself : ∀ t ∈ T, ∀ ign m, MemoOK e m → ∃ u ign' m', self t ign m = .ok (u, ign', m') ∧ MemoOK e m' ∧ ∀ d ∈ u, P d) :
    ∀ (ts reqs ign : List Nat) (m : Memo), (∀ t ∈ ts, t ∈ T) → MemoOK e m → (∀ d ∈ reqs, P d) →
      ∃ u ign' m', reqLoop self ts reqs ign m = .ok (u, ign', m') ∧ MemoOK e m' ∧ ∀ d ∈ u, P d
  | [], reqs, ign, m, _, hm, hf => ⟨reqs, ign, m, rfl, hm, hf⟩
  | t :: ts, reqs, ign, m, hts, hm, hf => by
    obtain ⟨u, ign', m', h1, h2, h3⟩ := hself t (hts t (by simp)) ign m hm
    simp only [reqLoop, h1]
    refine reqLoop_spec hself ts _ _ _ (fun x hx => hts x (by simp [hx])) h2 ?_
    intro d hd
    rcases List.mem_append.1 hd with hd | hd
    · exact hf d hd
    · exact h3 d hd

theorem clauseRequirements_spec {e : Evidence N U} {n : Nat} (hs : Sane e n) :
    ∀ (fuel c : Nat), 0 < fuel → (e.learned c = true → 1 < fuel) → c < n → ∀ ign m, MemoOK e m →
      ∃ t ign' m', clauseRequirements e fuel c ign m = .ok (t, ign', m') ∧ MemoOK e m' ∧
        ∀ d ∈ t, e.hasReqs d = true ∧ (d = c ∨ Uses e c d)
  | 0, c, h, _, _, _, _, _ => by omega
  | fuel + 1, c, _, hf, hn, ign, m, hm => by
    have h0 : ∀ d ∈ (if e.hasReqs c then [c] else []), e.hasReqs d = true ∧ (d = c ∨ Uses e c d) := by
      intro d hd
      split at hd
      · next hr =>
        simp only [List.mem_singleton] at hd
        subst hd
        exact ⟨hr, Or.inl rfl⟩
      · cases hd
    unfold clauseRequirements
    split
    · exact ⟨[], ign, m, rfl, hm, by simp⟩
    · simp only
      split
      · next reqs hg =>
        exact ⟨reqs, _, m, rfl, hm, hm.reqs c reqs hg⟩
      · split
        · next hl =>
          obtain ⟨t, i', m', h1, h2, h3, -⟩ := clauseTrail_spec hs (c + 1) c (by omega) hn [] m hm
          simp only [h1]
          obtain ⟨u, ign', m', k1, k2, k3⟩ := reqLoop_spec (self := clauseRequirements e fuel)
            (P := fun d => e.hasReqs d = true ∧ (d = c ∨ Uses e c d)) (T := t) (by
              intro b hb ign m hm
              obtain ⟨hbl, hbu⟩ := h3 b hb
              have hbn : b < n := by
                have key : ∀ {x y}, Uses e x y → x < n → y < n := by
                  intro x y hxy
                  induction hxy with
                  | direct a1 a2 a3 =>
                    intro hx
                    obtain ⟨ts, b1, b2⟩ := hs.trail _ hx a1
                    rw [a2] at b1; cases b1
                    have := b2 _ a3; omega
                  | step a1 a2 a3 a4 ih =>
                    intro hx
                    obtain ⟨ts, b1, b2⟩ := hs.trail _ hx a1
                    rw [a2] at b1; cases b1
                    have := b2 _ a3
                    exact ih (by omega)
                exact key hbu hn
              obtain ⟨u, i', m', j1, j2, j3⟩ := clauseRequirements_spec hs fuel b (by have := hf hl; omega)
                (by rw [hbl]; intro k; cases k) hbn ign m hm
              refine ⟨u, i', m', j1, j2, ?_⟩
              intro d hd
              obtain ⟨q1, q2⟩ := j3 d hd
              refine ⟨q1, Or.inr ?_⟩
              rcases q2 with rfl | q2
              · exact hbu
              · cases q2 with
                | direct a1 _ _ => rw [hbl] at a1; cases a1
                | step a1 _ _ _ => rw [hbl] at a1; cases a1) t _ (sadd c ign) m' (fun b hb => hb) h2 h0
          simp only [k1]
          exact ⟨u, ign', _, rfl, k2.setReqs k3, k3⟩
        · exact ⟨_, _, _, rfl, hm.setReqs h0, h0⟩

/-! ### neighbours and paths -/

theorem mapX_ok {α β : Type} {f : α → Except XErr β} {l : List α} (h : ∀ x ∈ l, ∃ y, f x = .ok y) :
    ∃ ys, mapX f l = .ok ys := by
  induction l with
  | nil => exact ⟨[], rfl⟩
  | cons x xs ih =>
    obtain ⟨y, hy⟩ := h x (by simp)
    obtain ⟨ys, hys⟩ := ih (fun z hz => h z (by simp [hz]))
    exact ⟨y :: ys, by simp only [mapX, hy, hys]⟩

theorem mapX_spec {α β : Type} {f : α → Except XErr β} : ∀ {l : List α} {ys : List β}, mapX f l = .ok ys →
    List.Forall₂ (fun x y => f x = .ok y) l ys
  | [], ys, h => by cases h; exact .nil
  | x :: xs, ys, h => by
    unfold mapX at h
    split at h
    · cases h
    · next y hy =>
      split at h
      · cases h
      · next zs hzs =>
        cases h
        exact .cons hy (mapX_spec hzs)

theorem mapX_mem {α β : Type} {f : α → Except XErr β} {l : List α} {ys : List β} (h : mapX f l = .ok ys) (y : β) :
    y ∈ ys ↔ ∃ x ∈ l, f x = .ok y := by
  have := mapX_spec h
  clear h
  induction this with
  | nil => simp
  | cons h1 h2 ih =>
    simp only [List.mem_cons, ih]
    constructor
    · rintro (rfl | ⟨x, k1, k2⟩)
      · exact ⟨_, Or.inl rfl, h1⟩
      · exact ⟨x, Or.inr k1, k2⟩
    · rintro ⟨x, rfl | k1, k2⟩
      · rw [h1] at k2; cases k2; exact Or.inl rfl
      · exact Or.inr ⟨x, k1, k2⟩

/-- the sets of `lit_to_clauses` -/
theorem litFold_spec (c : Nat) (v : Int) : ∀ (ls : List Int) (d : Dict Int (List Nat)) (x : Nat),
    x ∈ ((dget (ls.foldl (fun d l => dset d (iabs l) (sadd c ((dget d (iabs l)).getD []))) d) v).getD []) ↔
      x ∈ ((dget d v).getD []) ∨ (x = c ∧ ∃ l ∈ ls, iabs l = v)
  | [], d, x => by simp
  | l :: ls, d, x => by
    rw [List.foldl_cons, litFold_spec c v ls, dget_dset]
    by_cases h : iabs l = v
    · subst h
      simp only [if_true, Option.getD_some, mem_sadd, List.mem_cons, exists_eq_or_imp]
      grind
    · simp only [if_neg h, List.mem_cons, exists_eq_or_imp]
      grind

theorem litToClauses_spec (e : Evidence N U) (v : Int) : ∀ (cs : List Nat) (d : Dict Int (List Nat)) (x : Nat),
    x ∈ ((dget (litToClauses e cs d) v).getD []) ↔ x ∈ ((dget d v).getD []) ∨ (x ∈ cs ∧ ∃ l ∈ e.lits x, iabs l = v)
  | [], d, x => by simp [litToClauses]
  | c :: cs, d, x => by
    rw [litToClauses, litToClauses_spec e v cs, litFold_spec]
    simp only [List.mem_cons]
    constructor
    · rintro ((h | ⟨rfl, h⟩) | h)
      · exact Or.inl h
      · exact Or.inr ⟨Or.inl rfl, h⟩
      · exact Or.inr ⟨Or.inr h.1, h.2⟩
    · rintro (h | ⟨rfl | h1, h2⟩)
      · exact Or.inl (Or.inl h)
      · exact Or.inl (Or.inr ⟨rfl, h2⟩)
      · exact Or.inr ⟨h1, h2⟩

/-- the clauses have a variable in common -/
def Evidence.Linked (e : Evidence N U) (c d : Nat) : Prop := ∃ l ∈ e.lits c, ∃ k ∈ e.lits d, iabs l = iabs k

theorem getNeighbors_spec (e : Evidence N U) (o : XOrders) {R : List Nat} {c : Nat} (hc : c ∈ R) (hne : e.lits c ≠ []) :
    ∃ ns, getNeighbors e o (litToClauses e R []) c = .ok ns ∧ ns.Nodup ∧ ∀ d, d ∈ ns ↔ d ∈ R ∧ e.Linked c d := by
  unfold getNeighbors
  split
  · next h => exact absurd h hne
  · next l ls h =>
    have hg : ∀ x ∈ l :: ls, ∃ y, clausesOf (litToClauses e R []) (iabs x) = .ok y := by
      intro x hx
      have : c ∈ ((dget (litToClauses e R []) (iabs x)).getD []) :=
        (litToClauses_spec e (iabs x) R [] c).2 (Or.inr ⟨hc, x, by rw [h]; exact hx, rfl⟩)
      cases hd : dget (litToClauses e R []) (iabs x) with
      | none => rw [hd] at this; cases this
      | some s => exact ⟨s, by unfold clausesOf; rw [hd]⟩
    obtain ⟨sets, hsets⟩ := mapX_ok hg
    rw [hsets]
    refine ⟨_, rfl, ?_, ?_⟩
    · have h1 := (sortBy_perm e.lits (o.near c (fromkeys sets.flatten))).trans (o.nearPerm c (fromkeys sets.flatten))
      exact h1.nodup_iff.2 (nodup_fromkeys _)
    · intro d
      rw [mem_sortBy, (o.nearPerm c _).mem_iff, mem_fromkeys, List.mem_flatten]
      constructor
      · rintro ⟨s, h1, h2⟩
        rw [mapX_mem hsets] at h1
        obtain ⟨x, hx, hs⟩ := h1
        have hd : d ∈ ((dget (litToClauses e R []) (iabs x)).getD []) := by
          unfold clausesOf at hs
          split at hs
          · cases hs
          · next s' hs' => cases hs; rw [hs']; exact h2
        rcases (litToClauses_spec e (iabs x) R [] d).1 hd with k | ⟨k1, y, k2, k3⟩
        · cases k
        · exact ⟨k1, x, by rw [h]; exact hx, y, k2, k3.symm⟩
      · rintro ⟨h1, x, hx, y, hy, hxy⟩
        have hd : d ∈ ((dget (litToClauses e R []) (iabs x)).getD []) :=
          (litToClauses_spec e (iabs x) R [] d).2 (Or.inr ⟨h1, y, hy, hxy.symm⟩)
        rw [h] at hx
        cases hq : dget (litToClauses e R []) (iabs x) with
        | none => rw [hq] at hd; cases hd
        | some s =>
          rw [hq] at hd
          exact ⟨s, (mapX_mem hsets s).2 ⟨x, hx, by unfold clausesOf; rw [hq]⟩, hd⟩

/-! ### the search -/

theorem bfsExpand_mem {node : Nat} {P : Nat → Prop} : ∀ (ns queue : List Nat) (visited : List (Nat × Option Nat)),
    (∀ x ∈ ns, P x) → (∀ x ∈ queue, P x) → ∀ x ∈ (bfsExpand node ns queue visited).1, P x
  | [], queue, visited, _, hq => hq
  | nb :: rest, queue, visited, hn, hq => by
    unfold bfsExpand
    split
    · exact bfsExpand_mem rest queue visited (fun x hx => hn x (by simp [hx])) hq
    · refine bfsExpand_mem rest _ _ (fun x hx => hn x (by simp [hx])) ?_
      intro x hx
      rcases List.mem_append.1 hx with hx | hx
      · exact hq x hx
      · simp only [List.mem_singleton] at hx
        subst hx
        exact hn _ (by simp)

/-- With a function of neighbours that does not raise, the search is that of `Graph.breadthFirstSearch`. -/
theorem bfsLoopX_eq {start : Nat} {F : Nat → Except XErr (List Nat)} {f : Nat → List Nat} {P : Nat → Prop}
    (hF : ∀ x, P x → F x = .ok (f x)) (hP : ∀ x, P x → ∀ y ∈ f x, P y) : ∀ (fuel : Nat) (queue : List Nat)
    (visited : List (Nat × Option Nat)) (targets : List Nat) (paths : List (List Nat)), (∀ x ∈ queue, P x) →
    bfsLoop start f id fuel queue visited targets = .ok paths → bfsLoopX start F fuel queue visited targets = .ok paths
  | 0, _, _, _, _, _, h => by cases h
  | fuel + 1, [], visited, targets, paths, _, h => by cases h; rfl
  | fuel + 1, node :: queue, visited, targets, paths, hq, h => by
    have hnode : P node := hq node (by simp)
    have key : ∀ ps, (if sdiscard node targets = [] then .ok [] else
        bfsLoop start f id fuel (bfsExpand node (f node) queue visited).1 (bfsExpand node (f node) queue visited).2
          (sdiscard node targets)) = .ok ps →
        (if sdiscard node targets = [] then .ok [] else match F node with
          | .error x => .error x
          | .ok ns => bfsLoopX start F fuel (bfsExpand node ns queue visited).1 (bfsExpand node ns queue visited).2
            (sdiscard node targets)) = (.ok ps : Except XErr (List (List Nat))) := by
      intro ps hps
      by_cases hs : sdiscard node targets = []
      · rw [if_pos hs] at hps ⊢; cases hps; rfl
      · rw [if_neg hs] at hps ⊢
        rw [hF node hnode]
        exact bfsLoopX_eq hF hP fuel _ _ _ ps
          (bfsExpand_mem _ _ _ (hP node hnode) (fun x hx => hq x (by simp [hx]))) hps
    unfold bfsLoop at h
    unfold bfsLoopX
    simp only [id] at h ⊢
    by_cases ht : node ∈ targets
    · rw [if_pos ht] at h ⊢
      split at h
      · cases h
      · next path hp =>
        split at h
        · cases h
        · next ps hps =>
          cases h
          simp only [hp]
          exact congrArg (fun z : Except XErr (List (List Nat)) => (match z with
            | .error x => .error x
            | .ok paths => .ok (path :: paths) : Except XErr (List (List Nat)))) (key ps hps)
    · rw [if_neg ht] at h ⊢
      exact key paths h

/-! ### chains -/

/-- `Connects e R p a b`: `p` goes from `a` to `b` within `R`, and any two consecutive clauses have a variable in
common. -/
structure Connects (e : Evidence N U) (R : List Nat) (p : List Nat) (a b : Nat) : Prop where
  first : p.head? = some a
  last : p.getLast? = some b
  within : ∀ c ∈ p, c ∈ R
  chain : p.IsChain e.Linked

theorem Connects.ofPath {e : Evidence N U} {R : List Nat} {f : Nat → List Nat}
    (hf : ∀ c ∈ R, ∀ d ∈ f c, d ∈ R ∧ e.Linked c d) {a b : Nat} {p : List Nat} (ha : a ∈ R) (h : PathTo f a b p) :
    Connects e R p a b := by
  induction h with
  | start => exact ⟨rfl, rfl, by simpa using ha, .singleton _⟩
  | snoc h1 h2 ih =>
    have hx : _ ∈ R := ih.within _ (List.mem_of_getLast? ih.last)
    obtain ⟨k1, k2⟩ := hf _ hx _ h2
    refine ⟨?_, by simp, ?_, ?_⟩
    · rw [List.head?_append, ih.first]; rfl
    · intro c hc
      rcases List.mem_append.1 hc with hc | hc
      · exact ih.within c hc
      · simp only [List.mem_singleton] at hc
        subst hc; exact k1
    · rw [List.isChain_append]
      refine ⟨ih.chain, .singleton _, ?_⟩
      intro x hx y hy
      rw [ih.last] at hx
      cases hx
      simp only [List.head?_cons, Option.mem_def, Option.some.injEq] at hy
      subst hy; exact k2

theorem Connects.toPath {e : Evidence N U} {R : List Nat} {f : Nat → List Nat}
    (hf : ∀ c ∈ R, ∀ d ∈ R, e.Linked c d → d ∈ f c) {a : Nat} : ∀ (n : Nat) {b : Nat} {p : List Nat}, p.length = n →
    Connects e R p a b → PathTo f a b p
  | 0, b, p, hn, h => by
    have := List.length_eq_zero_iff.1 hn
    subst this
    cases h.first
  | n + 1, b, p, hn, h => by
    rcases List.eq_nil_or_concat p with rfl | ⟨q, x, rfl⟩
    · cases h.first
    · simp only [List.concat_eq_append] at h hn ⊢
      have hx : x = b := by
        have := h.last
        simpa using this
      subst hx
      by_cases hq : q = []
      · subst hq
        have := h.first
        simp only [List.nil_append, List.head?_cons, Option.some.injEq] at this
        subst this
        exact .start
      · obtain ⟨y, hy⟩ : ∃ y, q.getLast? = some y := by
          cases hg : q.getLast? with
          | none => exact absurd (List.getLast?_eq_none_iff.1 hg) hq
          | some y => exact ⟨y, rfl⟩
        have hch := h.chain
        rw [List.isChain_append] at hch
        refine .snoc (x := y) (Connects.toPath hf n (by simpa using hn) ⟨?_, hy, ?_, hch.1⟩) ?_
        · have := h.first
          rw [List.head?_append] at this
          cases hh : q.head? with
          | none => exact absurd (List.head?_eq_none_iff.1 hh) hq
          | some z => rw [hh] at this; exact this
        · intro c hc; exact h.within c (by simp [hc])
        · refine hf y (h.within y ?_) x (h.within x (by simp)) (hch.2.2 y hy x (by simp))
          simp [List.mem_of_getLast? hy]

/-- The paths between the ends: from an end to a later one, each as short as possible, and one for every two ends that are
connected. -/
structure RawOK (e : Evidence N U) (R ends : List Nat) (raw : List (List Nat)) : Prop where
  sound : ∀ p ∈ raw, ∃ a b, a ∈ ends ∧ b ∈ ends ∧ a ≠ b ∧ Connects e R p a b ∧
    ∀ q, Connects e R q a b → p.length ≤ q.length
  complete : ∀ l a m b r, ends = l ++ a :: (m ++ b :: r) → (∃ q, Connects e R q a b) → ∃ p ∈ raw, Connects e R p a b

theorem rawPaths_spec {e : Evidence N U} {o : XOrders} {R : List Nat} (hne : ∀ c ∈ R, e.lits c ≠ []) {fuel : Nat}
    (hfuel : R.length < fuel) : ∀ (ends : List Nat), (∀ c ∈ ends, c ∈ R) → ends.Nodup →
    ∃ raw, rawPaths (getNeighbors e o (litToClauses e R [])) fuel ends = .ok raw ∧ RawOK e R ends raw
  | [], _, _ => by
    refine ⟨[], rfl, by simp, ?_⟩
    intro l a m b r h; simp at h
  | [x], _, _ => by
    refine ⟨[], rfl, by simp, ?_⟩
    intro l a m b r h
    have := congrArg List.length h
    simp only [List.length_cons, List.length_nil, List.length_append] at this
    omega
  | start :: x :: rest, hR, hnd => by
    let f : Nat → List Nat := fun c => match getNeighbors e o (litToClauses e R []) c with
      | .ok ns => ns
      | .error _ => []
    have hF : ∀ c, c ∈ R → getNeighbors e o (litToClauses e R []) c = .ok (f c) := by
      intro c hc
      obtain ⟨ns, h1, -⟩ := getNeighbors_spec e o hc (hne c hc)
      simp only [f, h1]
    have hf : ∀ c ∈ R, ∀ d, d ∈ f c ↔ d ∈ R ∧ e.Linked c d := by
      intro c hc d
      obtain ⟨ns, h1, -, h2⟩ := getNeighbors_spec e o hc (hne c hc)
      simp only [f, h1]
      exact h2 d
    have hf1 : ∀ c ∈ R, ∀ d ∈ f c, d ∈ R ∧ e.Linked c d := fun c hc d hd => (hf c hc d).1 hd
    have hf2 : ∀ c ∈ R, ∀ d ∈ R, e.Linked c d → d ∈ f c := fun c hc d hd hl => (hf c hc d).2 ⟨hd, hl⟩
    have hstart : start ∈ R := hR start (by simp)
    obtain ⟨paths, h1, h2⟩ := bfs_spec (start := start) (f := f) (t := id) (targets := x :: rest) (U := R)
      (fun y p hp => (Connects.ofPath hf1 hstart hp).within y
        (List.mem_of_getLast? (Connects.ofPath hf1 hstart hp).last)) hfuel
    unfold breadthFirstSearch at h1
    have h3 := bfsLoopX_eq (P := fun c => c ∈ R) hF (fun c hc d hd => (hf1 c hc d hd).1) fuel [start] [(start, none)]
      (fromkeys (x :: rest)) paths (by simpa using hstart) h1
    rw [List.nodup_cons] at hnd
    obtain ⟨qs, h4, h5⟩ := rawPaths_spec (o := o) hne hfuel (x :: rest) (fun c hc => hR c (by simp [hc])) hnd.2
    refine ⟨paths ++ qs, ?_, ?_, ?_⟩
    · simp only [rawPaths, h3, h4]
    · intro p hp
      rcases List.mem_append.1 hp with hp | hp
      · obtain ⟨y, k1, k2, k3⟩ := h2.sound p hp
        refine ⟨start, y, by simp, List.mem_cons_of_mem _ k2, ?_, Connects.ofPath hf1 hstart k1, ?_⟩
        · rintro rfl
          exact hnd.1 k2
        · intro q hq
          exact k3 y q (hq.toPath hf2 _ rfl) rfl
      · obtain ⟨a, b, k1, k2, k3⟩ := h5.sound p hp
        exact ⟨a, b, List.mem_cons_of_mem _ k1, List.mem_cons_of_mem _ k2, k3⟩
    · intro l a m b r heq hab
      cases l with
      | nil =>
        simp only [List.nil_append, List.cons.injEq] at heq
        obtain ⟨rfl, heq⟩ := heq
        obtain ⟨q, hq⟩ := hab
        obtain ⟨p, k1, y, k2, k3⟩ := h2.complete b (by rw [heq]; simp) ⟨b, q, hq.toPath hf2 _ rfl, rfl⟩
        simp only [id] at k3
        subst k3
        exact ⟨p, by simp [k1], Connects.ofPath hf1 hstart k2⟩
      | cons z l =>
        simp only [List.cons_append, List.cons.injEq] at heq
        obtain ⟨p, k1, k2⟩ := h5.complete l a m b r heq.2 hab
        exact ⟨p, by simp [k1], k2⟩

/-! ### the choice of paths -/

theorem takeWhile_sorted {α : Type} (key : α → Int) (k : Int) : ∀ (l : List α), l.Pairwise (fun a b => key a ≤ key b) →
    (∀ x ∈ l, k ≤ key x) → l.takeWhile (fun x => decide (key x = k)) = l.filter (fun x => decide (key x = k))
  | [], _, _ => rfl
  | x :: l, hs, hk => by
    rw [List.pairwise_cons] at hs
    by_cases h : key x = k
    · simp only [List.takeWhile_cons, List.filter_cons, h, decide_true, if_true]
      rw [takeWhile_sorted key k l hs.2 (fun y hy => hk y (by simp [hy]))]
    · simp only [List.takeWhile_cons, List.filter_cons, h, decide_false]
      symm
      simp only [Bool.false_eq_true, if_false]
      rw [List.filter_eq_nil_iff]
      intro y hy
      have h1 := hs.1 y hy
      have h2 := hk x (by simp)
      simp only [decide_eq_true_eq]
      omega

theorem mem_mostJobs (ps : List (List Nat × Nat)) (p : List Nat) :
    p ∈ mostJobs ps ↔ ∃ n, (p, n) ∈ ps ∧ ∀ q ∈ ps, q.2 ≤ n := by
  unfold mostJobs
  have hperm := sortBy_perm (fun p : List Nat × Nat => -(p.2 : Int)) ps
  have hsort := sortBy_sorted (fun p : List Nat × Nat => -(p.2 : Int)) ps
  split
  · next h =>
    rw [h] at hperm
    have := hperm.nil_eq
    subst this
    simp
  · next x rest h =>
    rw [h] at hperm hsort
    have hx : ∀ q ∈ x :: rest, q.2 ≤ x.2 := by
      intro q hq
      rw [List.pairwise_cons] at hsort
      rcases List.mem_cons.1 hq with rfl | hq
      · exact Nat.le_refl _
      · have := hsort.1 q hq; omega
    have htw : (x :: rest).takeWhile (fun q => decide (q.2 = x.2)) = (x :: rest).filter (fun q => decide (q.2 = x.2)) := by
      have := takeWhile_sorted (fun p : List Nat × Nat => -(p.2 : Int)) (-(x.2 : Int)) (x :: rest) hsort
        (fun y hy => by have := hx y hy; omega)
      simpa only [Int.neg_inj, Int.natCast_inj] using this
    rw [htw, List.mem_map]
    constructor
    · rintro ⟨⟨q, n⟩, h1, rfl⟩
      rw [List.mem_filter] at h1
      simp only [decide_eq_true_eq] at h1
      refine ⟨n, hperm.mem_iff.1 h1.1, ?_⟩
      intro y hy
      rw [h1.2]
      exact hx y (hperm.mem_iff.2 hy)
    · rintro ⟨n, h1, h2⟩
      refine ⟨(p, n), ?_, rfl⟩
      rw [List.mem_filter]
      refine ⟨hperm.mem_iff.2 h1, ?_⟩
      have k1 := hx (p, n) (hperm.mem_iff.2 h1)
      have k2 := h2 x (hperm.mem_iff.1 (by simp))
      simp only [decide_eq_true_eq]
      simp only at k1
      omega

theorem newPaths_sub : ∀ (ps : List (List Nat)) (seen : List Nat) (p : List Nat), p ∈ newPaths ps seen → p ∈ ps
  | [], _, _, h => by cases h
  | q :: ps, seen, p, h => by
    unfold newPaths at h
    split at h
    · exact List.mem_cons_of_mem _ (newPaths_sub ps seen p h)
    · rcases List.mem_cons.1 h with rfl | h
      · simp
      · exact List.mem_cons_of_mem _ (newPaths_sub ps _ p h)

theorem newPaths_cover : ∀ (ps : List (List Nat)) (seen : List Nat), ∀ p ∈ ps, ∀ c ∈ p,
    c ∈ seen ∨ ∃ q ∈ newPaths ps seen, c ∈ q
  | [], _, _, h, _, _ => by cases h
  | q :: ps, seen, p, h, c, hc => by
    unfold newPaths
    split
    · next hq =>
      rcases List.mem_cons.1 h with rfl | h
      · rw [List.all_eq_true] at hq
        exact Or.inl (by simpa using hq c hc)
      · exact newPaths_cover ps seen p h c hc
    · rcases List.mem_cons.1 h with rfl | h
      · exact Or.inr ⟨p, by simp, hc⟩
      · rcases newPaths_cover ps (supdate q seen) p h c hc with k | ⟨q', k1, k2⟩
        · rw [mem_supdate] at k
          rcases k with k | k
          · exact Or.inr ⟨q, by simp, k⟩
          · exact Or.inl k
        · exact Or.inr ⟨q', by simp [k1], k2⟩

theorem jobsInPath_spec {e : Evidence N U} : ∀ {p : List Nat}, (∀ c ∈ p, ∃ r, e.rule c = some r) →
    jobsInPath e p = .ok (p.countP (fun c => ((e.rule c).map (fun r => r.reason.isJob)).getD false))
  | [], _ => rfl
  | c :: cs, h => by
    obtain ⟨r, hr⟩ := h c (by simp)
    have ih := jobsInPath_spec (p := cs) (fun d hd => h d (by simp [hd]))
    simp only [jobsInPath, hr, ih, List.countP_cons, Option.map_some, Option.getD_some]
    split <;> rfl

/-- the number of rules of jobs in a path -/
def Evidence.jobs (e : Evidence N U) (p : List Nat) : Nat :=
  p.countP (fun c => ((e.rule c).map (fun r => r.reason.isJob)).getD false)

/-- The paths that are chosen when there are at least two ends. -/
structure PathsOK (e : Evidence N U) (R ends : List Nat) (paths : List (List Nat)) : Prop where
  /-- a path connects two different ends, and no path between them is shorter -/
  sound : ∀ p ∈ paths, ∃ a b, a ∈ ends ∧ b ∈ ends ∧ a ≠ b ∧ Connects e R p a b ∧
    ∀ q, Connects e R q a b → p.length ≤ q.length
  /-- there are paths if two ends are connected, and these have at least as many rules of jobs as some shortest path
  between the two ends -/
  best : ∀ a b, a ∈ ends → b ∈ ends → a ≠ b → (∃ p, Connects e R p a b) → paths ≠ [] ∧
    ∃ q, Connects e R q a b ∧ (∀ q', Connects e R q' a b → q.length ≤ q'.length) ∧ ∀ p ∈ paths, e.jobs q ≤ e.jobs p
  /-- all of them have the same number of rules of jobs -/
  jobs : ∀ p ∈ paths, ∀ q ∈ paths, e.jobs p = e.jobs q
  /-- shorter paths come first -/
  lengths : paths.Pairwise (fun p q => p.length ≤ q.length)
  /-- each path has something that the paths before it do not have -/
  fresh : ∀ l p r, paths = l ++ p :: r → ∃ c ∈ p, ∀ q ∈ l, c ∉ q

theorem newPaths_sublist : ∀ (ps : List (List Nat)) (seen : List Nat), (newPaths ps seen).Sublist ps
  | [], _ => .slnil
  | p :: ps, seen => by
    unfold newPaths
    split
    · exact (newPaths_sublist ps seen).cons _
    · exact (newPaths_sublist ps _).cons_cons _

theorem newPaths_fresh : ∀ (ps : List (List Nat)) (seen : List Nat) (l : List (List Nat)) (p : List Nat)
    (r : List (List Nat)), newPaths ps seen = l ++ p :: r → ∃ c ∈ p, c ∉ seen ∧ ∀ q ∈ l, c ∉ q
  | [], _, l, p, r, h => by simp [newPaths] at h
  | q :: ps, seen, l, p, r, h => by
    unfold newPaths at h
    split at h
    · exact newPaths_fresh ps seen l p r h
    · next hq =>
      cases l with
      | nil =>
        simp only [List.nil_append, List.cons.injEq] at h
        obtain ⟨rfl, -⟩ := h
        have : ∃ c ∈ q, c ∉ seen := by
          apply Classical.byContradiction
          intro hno
          apply hq
          rw [List.all_eq_true]
          intro c hc
          simp only [decide_eq_true_eq]
          exact Classical.byContradiction (fun hc' => hno ⟨c, hc, hc'⟩)
        obtain ⟨c, h1, h2⟩ := this
        exact ⟨c, h1, h2, by simp⟩
      | cons x l =>
        simp only [List.cons_append, List.cons.injEq] at h
        obtain ⟨rfl, h⟩ := h
        obtain ⟨c, h1, h2, h3⟩ := newPaths_fresh ps _ l p r h
        rw [mem_supdate] at h2
        refine ⟨c, h1, fun hs => h2 (Or.inr hs), ?_⟩
        intro y hy
        rcases List.mem_cons.1 hy with rfl | hy
        · exact fun hc => h2 (Or.inl hc)
        · exact h3 y hy

theorem Evidence.Linked.symm {e : Evidence N U} {c d : Nat} (h : e.Linked c d) : e.Linked d c := by
  obtain ⟨l, h1, k, h2, h3⟩ := h
  exact ⟨k, h2, l, h1, h3.symm⟩

theorem Connects.reverse {e : Evidence N U} {R p : List Nat} {a b : Nat} (h : Connects e R p a b) :
    Connects e R p.reverse b a where
  first := by rw [List.head?_reverse]; exact h.last
  last := by rw [List.getLast?_reverse]; exact h.first
  within := by intro c hc; exact h.within c (List.mem_reverse.1 hc)
  chain := by
    rw [List.isChain_reverse]
    exact h.chain.imp (fun _ _ h => Evidence.Linked.symm h)

theorem split_two {ends : List Nat} {a b : Nat} (ha : a ∈ ends) (hb : b ∈ ends) (hab : a ≠ b) :
    (∃ l m r, ends = l ++ a :: (m ++ b :: r)) ∨ (∃ l m r, ends = l ++ b :: (m ++ a :: r)) := by
  obtain ⟨l, t, rfl⟩ := List.append_of_mem ha
  rcases List.mem_append.1 hb with hb | hb
  · obtain ⟨l', m, rfl⟩ := List.append_of_mem hb
    exact Or.inr ⟨l', m, t, by simp⟩
  · rcases List.mem_cons.1 hb with rfl | hb
    · exact absurd rfl hab
    · obtain ⟨m, r, rfl⟩ := List.append_of_mem hb
      exact Or.inl ⟨l, m, r, rfl⟩

theorem exists_max (ps : List (List Nat × Nat)) (h : ps ≠ []) : ∃ p ∈ ps, ∀ q ∈ ps, q.2 ≤ p.2 := by
  induction ps with
  | nil => exact absurd rfl h
  | cons x xs ih =>
    by_cases hx : xs = []
    · subst hx
      exact ⟨x, by simp, by simp⟩
    · obtain ⟨p, h1, h2⟩ := ih hx
      rcases Nat.le_total x.2 p.2 with k | k
      · exact ⟨p, by simp [h1], by intro q hq; rcases List.mem_cons.1 hq with rfl | hq; exact k; exact h2 q hq⟩
      · refine ⟨x, by simp, ?_⟩
        intro q hq
        rcases List.mem_cons.1 hq with rfl | hq
        · exact Nat.le_refl _
        · have := h2 q hq; omega

theorem findConflictPaths_spec {e : Evidence N U} {o : XOrders} {R ends : List Nat}
    (hne : ∀ c ∈ R, e.lits c ≠ []) (hr : ∀ c ∈ R, ∃ r, e.rule c = some r) (hR : ∀ c ∈ ends, c ∈ R) (hnd : ends.Nodup) :
    ∃ paths, findConflictPaths e o ends R = .ok paths ∧ (ends.length < 2 → paths = [ends]) ∧
      (2 ≤ ends.length → PathsOK e R ends paths) := by
  unfold findConflictPaths
  simp only
  by_cases h2 : ends.length < 2
  · rw [if_pos h2]
    exact ⟨[ends], rfl, fun _ => rfl, fun h => by omega⟩
  · rw [if_neg h2, fromkeys_of_nodup _ hnd]
    obtain ⟨raw, k1, k2⟩ := rawPaths_spec (o := o) hne (fuel := R.length + 2) (by omega) ends hR hnd
    rw [k1]
    simp only
    have hrule : ∀ p ∈ raw, ∀ c ∈ p, ∃ r, e.rule c = some r := by
      intro p hp c hc
      obtain ⟨a, b, -, -, -, k, -⟩ := k2.sound p hp
      exact hr c (k.within c hc)
    have hw : ∀ p ∈ raw, withJobs e p = .ok (p, e.jobs p) := by
      intro p hp
      unfold withJobs
      rw [jobsInPath_spec (hrule p hp)]
      rfl
    obtain ⟨ps, hps⟩ := mapX_ok (f := withJobs e) (l := raw) (fun p hp => ⟨_, hw p hp⟩)
    rw [hps]
    have hmem : ∀ p n, (p, n) ∈ ps ↔ p ∈ raw ∧ n = e.jobs p := by
      intro p n
      rw [mapX_mem hps]
      constructor
      · rintro ⟨q, hq, h⟩
        rw [hw q hq] at h
        cases h
        exact ⟨hq, rfl⟩
      · rintro ⟨hp, rfl⟩
        exact ⟨p, hp, hw p hp⟩
    have hbest : ∀ p, p ∈ sortBy List.length (mostJobs ps) ↔ p ∈ raw ∧ ∀ q ∈ raw, e.jobs q ≤ e.jobs p := by
      intro p
      rw [mem_sortBy, mem_mostJobs]
      constructor
      · rintro ⟨n, h1, h3⟩
        obtain ⟨h4, rfl⟩ := (hmem p n).1 h1
        exact ⟨h4, fun q hq => h3 (q, e.jobs q) ((hmem _ _).2 ⟨hq, rfl⟩)⟩
      · rintro ⟨h1, h3⟩
        refine ⟨e.jobs p, (hmem _ _).2 ⟨h1, rfl⟩, ?_⟩
        rintro ⟨q, n⟩ hq
        obtain ⟨h4, rfl⟩ := (hmem q n).1 hq
        exact h3 q h4
    have hin : ∀ p ∈ newPaths (sortBy List.length (mostJobs ps)) [], p ∈ raw ∧ ∀ q ∈ raw, e.jobs q ≤ e.jobs p :=
      fun p hp => (hbest p).1 (newPaths_sub _ _ p hp)
    refine ⟨_, rfl, fun h => absurd h h2, fun _ => ⟨?_, ?_, ?_, ?_, ?_⟩⟩
    · intro p hp
      exact k2.sound p (hin p hp).1
    · intro a b ha hb hab hc
      have hraw : ∃ q ∈ raw, ∃ q', Connects e R q' a b ∧ (∀ q'', Connects e R q'' a b → q'.length ≤ q''.length) ∧
          e.jobs q' = e.jobs q := by
        rcases split_two ha hb hab with ⟨l, m, r, hl⟩ | ⟨l, m, r, hl⟩
        · obtain ⟨p, j1, j2⟩ := k2.complete l a m b r hl hc
          obtain ⟨a', b', -, -, -, i1, i2⟩ := k2.sound p j1
          have e1 : a' = a := by have := i1.first; rw [j2.first] at this; cases this; rfl
          have e2 : b' = b := by have := i1.last; rw [j2.last] at this; cases this; rfl
          subst e1 e2
          exact ⟨p, j1, p, j2, i2, rfl⟩
        · obtain ⟨p0, hp0⟩ := hc
          obtain ⟨p, j1, j2⟩ := k2.complete l b m a r hl ⟨_, hp0.reverse⟩
          obtain ⟨a', b', -, -, -, i1, i2⟩ := k2.sound p j1
          have e1 : a' = b := by have := i1.first; rw [j2.first] at this; cases this; rfl
          have e2 : b' = a := by have := i1.last; rw [j2.last] at this; cases this; rfl
          subst e1 e2
          refine ⟨p, j1, p.reverse, j2.reverse, ?_, ?_⟩
          · intro q'' hq''
            have := i2 _ hq''.reverse
            simpa using this
          · unfold Evidence.jobs
            exact (List.reverse_perm p).countP_eq _
      obtain ⟨q, q1, q', q2, q3, q4⟩ := hraw
      constructor
      · intro hnil
        have hps0 : ps ≠ [] := by
          rintro rfl
          exact absurd ((hmem q _).2 ⟨q1, rfl⟩) (by simp)
        obtain ⟨⟨p, n⟩, m1, m2⟩ := exists_max ps hps0
        obtain ⟨hp, rfl⟩ := (hmem p n).1 m1
        have hp' : p ∈ sortBy List.length (mostJobs ps) :=
          (hbest p).2 ⟨hp, fun x hx => m2 (x, e.jobs x) ((hmem _ _).2 ⟨hx, rfl⟩)⟩
        obtain ⟨a1, b1, -, -, -, i1, -⟩ := k2.sound p hp
        have hc1 : a1 ∈ p := List.mem_of_head? i1.first
        rcases newPaths_cover _ [] p hp' a1 hc1 with h | ⟨y, h, -⟩
        · cases h
        · rw [hnil] at h; cases h
      · refine ⟨q', q2, q3, ?_⟩
        intro p hp
        rw [q4]
        exact (hin p hp).2 q q1
    · intro p hp q hq
      have h1 := (hin p hp).2 q (hin q hq).1
      have h3 := (hin q hq).2 p (hin p hp).1
      omega
    · exact (sortBy_sorted List.length (mostJobs ps)).sublist (newPaths_sublist _ _)
    · intro l p r h
      obtain ⟨c, h1, -, h3⟩ := newPaths_fresh _ _ l p r h
      exact ⟨c, h1, h3⟩

end Verif.Solve
