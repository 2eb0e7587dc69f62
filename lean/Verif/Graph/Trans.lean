import Verif.Graph.Connected
import Verif.Graph.Topo
/-
Lemmas about transitive_neighbors.
-/
set_option linter.unusedSectionVars false
namespace Verif.Graph
open Verif Relation

variable {α : Type} [DecidableEq α]

theorem missing_mono {U l l' : List α} (h : ∀ x ∈ l, x ∈ l') : missing U l' ≤ missing U l := by
  by_cases hex : ∃ y ∈ U, y ∉ l ∧ y ∈ l'
  · obtain ⟨y, h1, h2, h3⟩ := hex
    exact Nat.le_of_lt (missing_lt h h1 h2 h3)
  · have : U.filter (fun x => decide (x ∉ l')) = U.filter (fun x => decide (x ∉ l)) := by
      apply List.filter_congr
      intro x hx
      by_cases hl : x ∈ l
      · simp [hl, h x hl]
      · have : x ∉ l' := fun k => hex ⟨x, hx, hl, k⟩
        simp [hl, this]
    unfold missing; rw [this]; exact Nat.le_refl _

theorem adjGet_cons (kv : α × List α) (t : Adj α) (x : α) :
    adjGet (kv :: t) x = if kv.1 = x then some kv.2 else adjGet t x := by
  unfold adjGet
  rw [List.find?_cons]
  by_cases h : kv.1 = x <;> simp [h]

theorem adjGet_transUpdate (t : Adj α) (x : α) (xs : List α) (y : α) :
    adjGet (transUpdate t x xs) y = if y = x then some (supdate xs ((adjGet t x).getD [])) else adjGet t y := by
  induction t with
  | nil =>
    unfold transUpdate
    rw [adjGet_cons]
    by_cases h : y = x
    · simp [h, adjGet]
    · simp [h, Ne.symm h]
  | cons kv t ih =>
    unfold transUpdate
    by_cases hk : kv.1 = x
    · simp only [if_pos hk, adjGet_cons]
      by_cases h : y = x
      · simp [h]
      · have : ¬ kv.1 = y := fun e => h (e ▸ hk)
        simp [h, Ne.symm h, this]
    · simp only [if_neg hk, adjGet_cons, ih]
      by_cases h : y = x
      · have : ¬ kv.1 = y := fun e => hk (e.trans h)
        subst h
        simp [this]
      · simp [h]

theorem adjGet_isSome {t : Adj α} {x : α} : (adjGet t x).isSome ↔ x ∈ t.map Prod.fst := by
  induction t with
  | nil => simp [adjGet]
  | cons kv t ih =>
    rw [adjGet_cons]
    by_cases h : kv.1 = x
    · simp [h]
    · simp only [if_neg h, ih, List.map_cons, List.mem_cons]
      constructor
      · exact Or.inr
      · rintro (e | e)
        · exact absurd e.symm h
        · exact e

theorem adjGet_some_mem {t : Adj α} {x : α} {l : List α} (h : adjGet t x = some l) : (x, l) ∈ t := by
  induction t with
  | nil => simp [adjGet] at h
  | cons kv t ih =>
    rw [adjGet_cons] at h
    by_cases hk : kv.1 = x
    · rw [if_pos hk] at h
      simp only [Option.some.injEq] at h
      obtain ⟨k, v⟩ := kv
      simp only at hk h
      simp [hk, h]
    · rw [if_neg hk] at h
      simp [ih h]

variable (g : Adj α)

/-- graph whose successors are all keys -/
structure Closed : Prop where
  nd : (g.map Prod.fst).Nodup
  closed : ∀ x v, (x, v) ∈ g → ∀ y ∈ v, y ∈ g.map Prod.fst

def keysOf (t : Adj α) : List α := t.map Prod.fst

/-- entries contain the direct successors and only reachable nodes -/
def Sound (t : Adj α) : Prop := ∀ x l, adjGet t x = some l →
  (∀ y ∈ l, TransGen (Edge g) x y) ∧ ∀ y, Edge g x y → y ∈ l

/-- no cycle of length two or more can be reached from `x` -/
def Good (x : α) : Prop := ∀ y, ReflTransGen (Edge g) x y → ¬ TransGen (Dep g) y y

def CompleteOutside (A : List α) (t : Adj α) : Prop :=
  ∀ x l, x ∉ A → Good g x → adjGet t x = some l → ∀ y, TransGen (Edge g) x y → y ∈ l

structure TransPost (t t' : Adj α) (node : α) : Prop where
  sound : Sound g t'
  same : ∀ x, (adjGet t x).isSome → adjGet t' x = adjGet t x
  mem : (adjGet t' node).isSome
  complete : ∀ A, (∀ a ∈ A, (adjGet t a).isSome ∧ TransGen (Edge g) a node) → CompleteOutside g A t → CompleteOutside g A t'

variable {g}

theorem edge_dep {x y : α} (h : Edge g x y) (hne : y ≠ x) : Dep g x y := ⟨h, hne⟩

/-- a path by edges between different nodes is a path without self loops -/
theorem trans_dep {x y : α} (h : TransGen (Edge g) x y) : x = y ∨ TransGen (Dep g) x y := by
  induction h with
  | @single b h =>
    by_cases hb : b = x
    · exact Or.inl hb.symm
    · exact Or.inr (.single ⟨h, hb⟩)
  | @tail b c _ h ih =>
    by_cases hc : c = b
    · subst hc; exact ih
    · rcases ih with rfl | ih
      · exact Or.inr (.single ⟨h, hc⟩)
      · exact Or.inr (ih.tail ⟨h, hc⟩)

theorem first_step {x y : α} (h : TransGen (Edge g) x y) :
    (Edge g x x ∧ x = y) ∨ ∃ c, c ≠ x ∧ Edge g x c ∧ ReflTransGen (Edge g) c y := by
  have key : ∀ {c}, Edge g x c → (Edge g x x ∧ x = c) ∨ ∃ d, d ≠ x ∧ Edge g x d ∧ ReflTransGen (Edge g) d c := by
    intro c h
    by_cases hc : c = x
    · subst hc; exact Or.inl ⟨h, rfl⟩
    · exact Or.inr ⟨c, hc, h, .refl⟩
  induction h with
  | single h => exact key h
  | @tail b c _ h ih =>
    rcases ih with ⟨-, e⟩ | ⟨d, h1, h2, h3⟩
    · subst e; exact key h
    · exact Or.inr ⟨d, h1, h2, h3.tail h⟩

theorem transNeighbors_spec (rec : α → Adj α → Except GErr (Adj α)) (bound : Nat) (node : α)
    (hrec : ∀ nb t, nb ∈ keysOf g → Sound g t → missing (keysOf g) (keysOf t) < bound →
      ∃ t', rec nb t = .ok t' ∧ TransPost g t t' nb)
    (hcl : Closed g) (nbs : List α) (hnbs : ∀ y ∈ nbs, Edge g node y) (t : Adj α) (l : List α)
    (hl : adjGet t node = some l) (hs : Sound g t) (hb : missing (keysOf g) (keysOf t) < bound) :
    ∃ t' l', transNeighbors rec node nbs t = .ok t' ∧ Sound g t' ∧
      (∀ x, x ≠ node → (adjGet t x).isSome → adjGet t' x = adjGet t x) ∧
      adjGet t' node = some l' ∧ (∀ y ∈ l, y ∈ l') ∧
      (∀ nb ∈ nbs, nb ≠ node → ∃ lnb, adjGet t' nb = some lnb ∧ ∀ y ∈ lnb, y ∈ l') ∧
      (∀ A, node ∈ A → (∀ a ∈ A, (adjGet t a).isSome ∧ ReflTransGen (Edge g) a node) → CompleteOutside g A t →
        CompleteOutside g A t') := by
  induction nbs generalizing t l with
  | nil => exact ⟨t, l, rfl, hs, fun _ _ _ => rfl, hl, fun _ h => h, by simp, fun _ _ _ h => h⟩
  | cons nb nbs ih =>
    unfold transNeighbors
    have hedge := hnbs nb (by simp)
    have hnbk : nb ∈ keysOf g := by
      obtain ⟨v, h1, h2⟩ := hedge
      exact hcl.closed _ _ h1 _ h2
    obtain ⟨t1, h1, hp⟩ := hrec nb t hnbk hs hb
    rw [h1]
    simp only
    obtain ⟨lnb, hlnb⟩ := Option.isSome_iff_exists.1 hp.mem
    rw [hlnb]
    simp only [Option.getD_some]
    have hl1 : adjGet t1 node = some l := by rw [hp.same node (by simp [hl])]; exact hl
    have hu : ∀ y, adjGet (transUpdate t1 node lnb) y = if y = node then some (supdate lnb l) else adjGet t1 y := by
      intro y; rw [adjGet_transUpdate, hl1]; rfl
    have hun : adjGet (transUpdate t1 node lnb) node = some (supdate lnb l) := by rw [hu]; simp
    have hs2 : Sound g (transUpdate t1 node lnb) := by
      intro x l' hx
      rw [hu] at hx
      by_cases hxn : x = node
      · rw [if_pos hxn] at hx
        simp only [Option.some.injEq] at hx
        subst hx hxn
        constructor
        · intro y hy
          rcases (mem_supdate _ _ _).1 hy with k | k
          · exact TransGen.head hedge ((hp.sound nb lnb hlnb).1 y k)
          · exact (hp.sound x l hl1).1 y k
        · intro y hy; exact (mem_supdate _ _ _).2 (Or.inr ((hp.sound x l hl1).2 y hy))
      · rw [if_neg hxn] at hx; exact hp.sound x l' hx
    have hkeys : ∀ x ∈ keysOf t, x ∈ keysOf (transUpdate t1 node lnb) := by
      intro x hx
      have h1 := adjGet_isSome.2 hx
      have h2 : (adjGet (transUpdate t1 node lnb) x).isSome := by
        rw [hu]; split
        · simp
        · rw [hp.same x h1]; exact h1
      exact adjGet_isSome.1 h2
    obtain ⟨t', l', k1, k2, k3, k4, k5, k6, k7⟩ := ih (fun y hy => hnbs y (by simp [hy])) (transUpdate t1 node lnb)
      (supdate lnb l) hun hs2 (Nat.lt_of_le_of_lt (missing_mono hkeys) hb)
    refine ⟨t', l', k1, k2, ?_, k4, fun y hy => k5 y (by simp [hy]), ?_, ?_⟩
    · intro x hxn hx
      have : adjGet (transUpdate t1 node lnb) x = adjGet t x := by rw [hu, if_neg hxn]; exact hp.same x hx
      rw [k3 x hxn (by rw [this]; exact hx), this]
    · intro b hb hbn
      rcases List.mem_cons.1 hb with rfl | hb
      · refine ⟨lnb, ?_, fun y hy => k5 y (by simp [hy])⟩
        have : adjGet (transUpdate t1 node lnb) b = some lnb := by rw [hu, if_neg hbn]; exact hlnb
        rw [k3 b hbn (by simp [this]), this]
      · exact k6 b hb hbn
    · intro A hA hanc hc
      refine k7 A hA ?_ ?_
      · intro a ha
        obtain ⟨a1, a2⟩ := hanc a ha
        refine ⟨?_, a2⟩
        exact adjGet_isSome.2 (hkeys a (adjGet_isSome.1 a1))
      · have hc1 := hp.complete A (fun a ha => ⟨(hanc a ha).1, TransGen.tail' (hanc a ha).2 hedge⟩) hc
        intro x l'' hxA hg hx
        have hxn : x ≠ node := by rintro rfl; exact hxA hA
        rw [hu, if_neg hxn] at hx
        exact hc1 x l'' hxA hg hx

theorem transNode_spec (hcl : Closed g) (fuel : Nat) (node : α) (t : Adj α) (hk : node ∈ keysOf g) (hs : Sound g t)
    (hf : missing (keysOf g) (keysOf t) < fuel) : ∃ t', transNode g fuel node t = .ok t' ∧ TransPost g t t' node := by
  induction fuel generalizing node t with
  | zero => omega
  | succ fuel ih =>
    unfold transNode
    split
    · rename_i hm
      exact ⟨t, rfl, hs, fun _ _ => rfl, hm, fun _ _ h => h⟩
    · rename_i hm
      obtain ⟨nbs, hn⟩ := Option.isSome_iff_exists.1 (adjGet_isSome.2 hk)
      rw [hn]
      simp only
      have hmem := adjGet_some_mem hn
      have hnone : adjGet t node = none := by simpa using hm
      have hedge : ∀ y, Edge g node y ↔ y ∈ nbs := by
        intro y
        constructor
        · rintro ⟨v, h1, h2⟩
          rw [unique_of_nodup hcl.nd h1 hmem] at h2; exact h2
        · intro h; exact ⟨nbs, hmem, h⟩
      have hu : ∀ y, adjGet (transUpdate t node nbs) y = if y = node then some (supdate nbs []) else adjGet t y := by
        intro y; rw [adjGet_transUpdate, hnone]; rfl
      have hun : adjGet (transUpdate t node nbs) node = some (supdate nbs []) := by rw [hu]; simp
      have hs1 : Sound g (transUpdate t node nbs) := by
        intro x l hx
        rw [hu] at hx
        by_cases hxn : x = node
        · rw [if_pos hxn] at hx
          simp only [Option.some.injEq] at hx
          subst hx hxn
          constructor
          · intro y hy; simp at hy; exact .single ((hedge y).2 hy)
          · intro y hy; simp; exact (hedge y).1 hy
        · rw [if_neg hxn] at hx; exact hs x l hx
      have hlt : missing (keysOf g) (keysOf (transUpdate t node nbs)) < fuel := by
        have : missing (keysOf g) (keysOf (transUpdate t node nbs)) < missing (keysOf g) (keysOf t) := by
          refine missing_lt (y := node) ?_ hk ?_ ?_
          · intro x hx
            apply adjGet_isSome.1
            rw [hu]; split
            · simp
            · exact adjGet_isSome.2 hx
          · intro h; have := adjGet_isSome.2 h; rw [hnone] at this; simp at this
          · exact adjGet_isSome.1 (by rw [hun]; simp)
        omega
      obtain ⟨t', l', k1, k2, k3, k4, k5, k6, k7⟩ := transNeighbors_spec (transNode g fuel) fuel node
        (fun nb t hnb hs hm => ih nb t hnb hs hm) hcl nbs (fun y hy => (hedge y).2 hy) _ _ hun hs1 hlt
      refine ⟨t', k1, k2, ?_, by simp [k4], ?_⟩
      · intro x hx
        have hxn : x ≠ node := by rintro rfl; rw [hnone] at hx; simp at hx
        have : adjGet (transUpdate t node nbs) x = adjGet t x := by rw [hu, if_neg hxn]
        rw [k3 x hxn (by rw [this]; exact hx), this]
      · intro A hanc hc
        have hc2 : CompleteOutside g (node :: A) t' := by
          refine k7 (node :: A) (by simp) ?_ ?_
          · intro a ha
            rcases List.mem_cons.1 ha with rfl | ha
            · exact ⟨by simp [hun], .refl⟩
            · refine ⟨?_, (hanc a ha).2.to_reflTransGen⟩
              rw [hu]; split
              · simp
              · exact (hanc a ha).1
          · intro x l hxA hg hx
            simp only [List.mem_cons, not_or] at hxA
            rw [hu, if_neg hxA.1] at hx
            exact hc x l hxA.2 hg hx
        intro x l hxA hg hx
        by_cases hxn : x = node
        · subst hxn
          rw [k4] at hx
          simp only [Option.some.injEq] at hx
          subst hx
          have hreach : ∀ y, TransGen (Edge g) x y → y ∈ l' := by
            intro y hy
            rcases first_step hy with ⟨e1, e2⟩ | ⟨c, hcx, hc1, hcy⟩
            · exact k5 y (by simp; exact (hedge y).1 (e2 ▸ e1))
            · obtain ⟨lc, hlc, hsub⟩ := k6 c ((hedge c).1 hc1) hcx
              have hcl' : c ∈ l' := k5 c (by simp; exact (hedge c).1 hc1)
              rcases (reflTransGen_iff_eq_or_transGen).1 hcy with e | e
              · rw [e]; exact hcl'
              · have hcA : c ∉ A := by
                  intro hcA
                  rcases trans_dep (hanc c hcA).2 with e' | e'
                  · exact hcx e'
                  · exact hg x .refl (TransGen.head ⟨hc1, hcx⟩ e')
                exact hsub y (hc2 c lc (by simp [hcx, hcA]) (fun z hz => hg z (ReflTransGen.head hc1 hz)) hlc y e)
          exact hreach
        · exact hc2 x l (by simp [hxn, hxA]) hg hx

theorem transAll_spec (hcl : Closed g) (fuel : Nat) (hf : (keysOf g).length < fuel) (xs : List α)
    (hxs : ∀ x ∈ xs, x ∈ keysOf g) (t : Adj α) (hs : Sound g t) (hc : CompleteOutside g [] t) :
    ∃ t', transAll g fuel xs t = .ok t' ∧ Sound g t' ∧ CompleteOutside g [] t' ∧
      (∀ x, (adjGet t x).isSome → (adjGet t' x).isSome) ∧ ∀ x ∈ xs, (adjGet t' x).isSome := by
  induction xs generalizing t with
  | nil => exact ⟨t, rfl, hs, hc, fun _ h => h, by simp⟩
  | cons x xs ih =>
    unfold transAll
    obtain ⟨t1, h1, hp⟩ := transNode_spec hcl fuel x t (hxs x (by simp)) hs
      (Nat.lt_of_le_of_lt (missing_le _ _) hf)
    rw [h1]
    simp only
    obtain ⟨t', k1, k2, k3, k4, k5⟩ := ih (fun y hy => hxs y (by simp [hy])) t1 hp.sound (hp.complete [] (by simp) hc)
    refine ⟨t', k1, k2, k3, fun y hy => k4 y (by rw [hp.same y hy]; exact hy), ?_⟩
    intro y hy
    rcases List.mem_cons.1 hy with rfl | hy
    · exact k4 _ hp.mem
    · exact k5 y hy

/-- entries are only made for keys -/
theorem transitiveNeighbors_spec (hcl : Closed g) : ∃ t, transitiveNeighbors g = .ok t ∧ Sound g t ∧
    CompleteOutside g [] t ∧ ∀ x ∈ keysOf g, (adjGet t x).isSome := by
  have h0 : Sound g ([] : Adj α) := by intro x l h; simp [adjGet] at h
  have h1 : CompleteOutside g [] ([] : Adj α) := by intro x l _ _ h; simp [adjGet] at h
  obtain ⟨t, k1, k2, k3, -, k5⟩ := transAll_spec hcl (g.length + 1) (by simp [keysOf]) (keysOf g) (fun _ h => h) [] h0 h1
  exact ⟨t, k1, k2, k3, k5⟩

end Verif.Graph
