import Verif.Graph.Trans
/-
Lemmas about transitive_neighbors: a node that is entered before everything that can be reached from it.
-/
set_option linter.unusedSectionVars false
namespace Verif.Graph
open Verif Relation

variable {α : Type} [DecidableEq α] {g : Adj α}

/-- What is known about the nodes entered between `t` and `t'`, `l` being the entry of the node that was entered first: they are in
`l`, with their neighbours, and their neighbours have been entered. -/
structure Covers (g : Adj α) (t t' : Adj α) (node : α) (l : List α) : Prop where
  self : ∀ x, (adjGet t' x).isSome → (adjGet t x).isSome ∨ x = node ∨ x ∈ l
  next : ∀ x, (adjGet t' x).isSome → (adjGet t x).isSome ∨ x = node ∨ ∀ y, Edge g x y → y ∈ l ∧ (adjGet t' y).isSome

theorem transNeighbors_covers (hcl : Closed g) (fuel : Nat) (node : α)
    (hrec : ∀ nb t, nb ∈ keysOf g → Sound g t → missing (keysOf g) (keysOf t) < fuel → ∀ t', transNode g fuel nb t = .ok t' →
      ∀ l, adjGet t' nb = some l → (adjGet t nb).isSome ∨ Covers g t t' nb l ∧ ∀ y, Edge g nb y → y ∈ l ∧ (adjGet t' y).isSome)
    (nbs : List α) (hnbs : ∀ y ∈ nbs, Edge g node y) (t0 t : Adj α) (l : List α) (hl : adjGet t node = some l)
    (hnl : ∀ y, Edge g node y → y ∈ l)
    (hs : Sound g t) (hb : missing (keysOf g) (keysOf t) < fuel) (hc : Covers g t0 t node l) :
    ∀ t', transNeighbors (transNode g fuel) node nbs t = .ok t' → ∃ l', adjGet t' node = some l' ∧ Covers g t0 t' node l' ∧
      (∀ y ∈ l, y ∈ l') ∧ (∀ x, (adjGet t x).isSome → (adjGet t' x).isSome) ∧ ∀ y ∈ nbs, (adjGet t' y).isSome := by
  induction nbs generalizing t l with
  | nil =>
    intro t' h
    cases h
    exact ⟨l, hl, hc, fun _ h => h, fun _ h => h, by simp⟩
  | cons nb nbs ih =>
    intro t' h
    unfold transNeighbors at h
    have hedge := hnbs nb (by simp)
    have hnbk : nb ∈ keysOf g := by
      obtain ⟨v, h1, h2⟩ := hedge
      exact hcl.closed _ _ h1 _ h2
    obtain ⟨t1, h1, hp⟩ := transNode_spec hcl fuel nb t hnbk hs hb
    rw [h1] at h
    simp only at h
    obtain ⟨lnb, hlnb⟩ := Option.isSome_iff_exists.1 hp.mem
    rw [hlnb] at h
    simp only [Option.getD_some] at h
    have hl1 : adjGet t1 node = some l := by rw [hp.same node (by simp [hl])]; exact hl
    have hu : ∀ y, adjGet (transUpdate t1 node lnb) y = if y = node then some (supdate lnb l) else adjGet t1 y := by
      intro y; rw [adjGet_transUpdate, hl1]; rfl
    have hun : adjGet (transUpdate t1 node lnb) node = some (supdate lnb l) := by rw [hu]; simp
    have hus : ∀ y, (adjGet (transUpdate t1 node lnb) y).isSome ↔ (adjGet t1 y).isSome := by
      intro y
      rw [hu]
      split
      · next e => subst e; simp [hl1]
      · rfl
    have hgrow : ∀ y, (adjGet t y).isSome → (adjGet t1 y).isSome := fun y hy => by rw [hp.same y hy]; exact hy
    have hs2 : Sound g (transUpdate t1 node lnb) := by
      intro x l' hx
      rw [hu] at hx
      by_cases hxn : x = node
      · rw [if_pos hxn] at hx
        simp only [Option.some.injEq] at hx
        subst hx hxn
        constructor
        · intro y hy
          rcases (mem_supdate _ _ _).1 hy with k | k
          · exact TransGen.head hedge ((hp.sound nb lnb hlnb).1 y k)
          · exact (hp.sound x l hl1).1 y k
        · intro y hy; exact (mem_supdate _ _ _).2 (Or.inr ((hp.sound x l hl1).2 y hy))
      · rw [if_neg hxn] at hx; exact hp.sound x l' hx
    have hkeys : ∀ x ∈ keysOf t, x ∈ keysOf (transUpdate t1 node lnb) := fun x hx =>
      adjGet_isSome.1 ((hus x).2 (hgrow x (adjGet_isSome.2 hx)))
    have hc1 : (Covers g t t1 nb lnb ∧ ∀ y, Edge g nb y → y ∈ lnb ∧ (adjGet t1 y).isSome) ∨ (adjGet t nb).isSome := (hrec nb t hnbk hs hb t1 h1 lnb hlnb).symm
    have hsame : (adjGet t nb).isSome → t1 = t := by
      intro hsome
      cases fuel with
      | zero => simp [transNode] at h1
      | succ f =>
        unfold transNode at h1
        rw [if_pos hsome] at h1
        exact (Except.ok.inj h1).symm
    have hc2 : Covers g t0 (transUpdate t1 node lnb) node (supdate lnb l) := by
      constructor
      · intro x hx
        rw [hus] at hx
        by_cases hxt : (adjGet t x).isSome
        · rcases hc.self x hxt with k | k | k
          · exact Or.inl k
          · exact Or.inr (Or.inl k)
          · exact Or.inr (Or.inr ((mem_supdate _ _ _).2 (Or.inr k)))
        · rcases hc1 with hc1 | hsome
          · rcases hc1.1.self x hx with k | k | k
            · exact absurd k hxt
            · subst k; exact Or.inr (Or.inr ((mem_supdate _ _ _).2 (Or.inr (hnl _ hedge))))
            · exact Or.inr (Or.inr ((mem_supdate _ _ _).2 (Or.inl k)))
          · rw [hsame hsome] at hx; exact absurd hx hxt
      · intro x hx
        rw [hus] at hx
        by_cases hxt : (adjGet t x).isSome
        · rcases hc.next x hxt with k | k | k
          · exact Or.inl k
          · exact Or.inr (Or.inl k)
          · refine Or.inr (Or.inr fun y hy => ?_)
            exact ⟨(mem_supdate _ _ _).2 (Or.inr (k y hy).1), (hus y).2 (hgrow y (k y hy).2)⟩
        · rcases hc1 with hc1 | hsome
          · rcases hc1.1.next x hx with k | k | k
            · exact absurd k hxt
            · subst k
              refine Or.inr (Or.inr fun y hy => ?_)
              exact ⟨(mem_supdate _ _ _).2 (Or.inl (hc1.2 y hy).1), (hus y).2 (hc1.2 y hy).2⟩
            · refine Or.inr (Or.inr fun y hy => ?_)
              exact ⟨(mem_supdate _ _ _).2 (Or.inl (k y hy).1), (hus y).2 (k y hy).2⟩
          · rw [hsame hsome] at hx; exact absurd hx hxt
    obtain ⟨l', k1, k2, k3, k4, k5⟩ := ih (fun y hy => hnbs y (by simp [hy])) (transUpdate t1 node lnb)
      (supdate lnb l) hun (fun y hy => (mem_supdate _ _ _).2 (Or.inr (hnl y hy))) hs2
      (Nat.lt_of_le_of_lt (missing_mono hkeys) hb) hc2 t' h
    refine ⟨l', k1, k2, fun y hy => k3 y (by simp [hy]), fun y hy => k4 y ((hus y).2 (hgrow y hy)), ?_⟩
    intro y hy
    rcases List.mem_cons.1 hy with rfl | hy
    · exact k4 y ((hus y).2 hp.mem)
    · exact k5 y hy

theorem transNode_covers (hcl : Closed g) (fuel : Nat) (node : α) (t : Adj α) (hk : node ∈ keysOf g) (hs : Sound g t)
    (hf : missing (keysOf g) (keysOf t) < fuel) (t' : Adj α) (h : transNode g fuel node t = .ok t') (l : List α)
    (hl : adjGet t' node = some l) :
    (adjGet t node).isSome ∨ Covers g t t' node l ∧ ∀ y, Edge g node y → y ∈ l ∧ (adjGet t' y).isSome := by
  induction fuel generalizing node t t' l with
  | zero => simp [transNode] at h
  | succ fuel ih =>
    unfold transNode at h
    split at h
    · next hm => exact Or.inl hm
    · next hm =>
      obtain ⟨nbs, hn⟩ := Option.isSome_iff_exists.1 (adjGet_isSome.2 hk)
      rw [hn] at h
      simp only at h
      have hmem := adjGet_some_mem hn
      have hnone : adjGet t node = none := by simpa using hm
      have hedge : ∀ y, Edge g node y ↔ y ∈ nbs := by
        intro y
        constructor
        · rintro ⟨v, h1, h2⟩
          rw [unique_of_nodup hcl.nd h1 hmem] at h2; exact h2
        · intro h; exact ⟨nbs, hmem, h⟩
      have hu : ∀ y, adjGet (transUpdate t node nbs) y = if y = node then some (supdate nbs []) else adjGet t y := by
        intro y; rw [adjGet_transUpdate, hnone]; rfl
      have hun : adjGet (transUpdate t node nbs) node = some (supdate nbs []) := by rw [hu]; simp
      have hs1 : Sound g (transUpdate t node nbs) := by
        intro x l hx
        rw [hu] at hx
        by_cases hxn : x = node
        · rw [if_pos hxn] at hx
          simp only [Option.some.injEq] at hx
          subst hx hxn
          constructor
          · intro y hy; simp at hy; exact .single ((hedge y).2 hy)
          · intro y hy; simp; exact (hedge y).1 hy
        · rw [if_neg hxn] at hx; exact hs x l hx
      have hlt : missing (keysOf g) (keysOf (transUpdate t node nbs)) < fuel := by
        have : missing (keysOf g) (keysOf (transUpdate t node nbs)) < missing (keysOf g) (keysOf t) := by
          refine missing_lt (y := node) ?_ hk ?_ ?_
          · intro x hx
            apply adjGet_isSome.1
            rw [hu]; split
            · simp
            · exact adjGet_isSome.2 hx
          · intro h; have := adjGet_isSome.2 h; rw [hnone] at this; simp at this
          · exact adjGet_isSome.1 (by rw [hun]; simp)
        omega
      have hin : ∀ y, Edge g node y → y ∈ supdate nbs [] := fun y hy => by simp; exact (hedge y).1 hy
      have hc0 : Covers g t (transUpdate t node nbs) node (supdate nbs []) := by
        constructor
        · intro x hx
          rw [hu] at hx
          split at hx
          · next e => exact Or.inr (Or.inl e)
          · exact Or.inl hx
        · intro x hx
          rw [hu] at hx
          split at hx
          · next e => exact Or.inr (Or.inl e)
          · exact Or.inl hx
      obtain ⟨l', k1, k2, k3, k4, k5⟩ := transNeighbors_covers hcl fuel node
        (fun nb t hnb hs hm t' h l hl => ih nb t hnb hs hm t' h l hl) nbs (fun y hy => (hedge y).2 hy) t _ _ hun hin hs1 hlt hc0
        t' h
      rw [k1] at hl
      cases hl
      exact Or.inr ⟨k2, fun y hy => ⟨k3 y (hin y hy), k5 y ((hedge y).1 hy)⟩⟩

/-- the entry of a node that is entered before everything that can be reached from it -/
theorem transNode_fresh (hcl : Closed g) (fuel : Nat) (node : α) (t : Adj α) (hk : node ∈ keysOf g) (hs : Sound g t)
    (hf : missing (keysOf g) (keysOf t) < fuel) (t' : Adj α) (h : transNode g fuel node t = .ok t') (l : List α)
    (hl : adjGet t' node = some l) (hfresh : ∀ y, ReflTransGen (Edge g) node y → adjGet t y = none) :
    ∀ y, TransGen (Edge g) node y → y ∈ l := by
  rcases transNode_covers hcl fuel node t hk hs hf t' h l hl with hn | ⟨hc, hn⟩
  · rw [hfresh node .refl] at hn; simp at hn
  · have key : ∀ y, TransGen (Edge g) node y → y ∈ l ∧ (adjGet t' y).isSome := by
      intro y hy
      induction hy with
      | single h => exact hn _ h
      | @tail b c hb hbc ih =>
        rcases hc.next b ih.2 with k | k | k
        · rw [hfresh b hb.to_reflTransGen] at k; simp at k
        · subst k; exact hn c hbc
        · exact k c hbc
    exact fun y hy => (key y hy).1

/-- only what can be reached from a node is entered on its behalf -/
theorem transNeighbors_entered (rec : α → Adj α → Except GErr (Adj α)) (node : α)
    (hrec : ∀ nb t t', rec nb t = .ok t' → ∀ x, (adjGet t' x).isSome → (adjGet t x).isSome ∨ ReflTransGen (Edge g) nb x)
    (nbs : List α) (hnbs : ∀ y ∈ nbs, Edge g node y) (t t' : Adj α) (h : transNeighbors rec node nbs t = .ok t')
    (x : α) (hx : (adjGet t' x).isSome) : (adjGet t x).isSome ∨ ReflTransGen (Edge g) node x := by
  induction nbs generalizing t with
  | nil => cases h; exact Or.inl hx
  | cons nb nbs ih =>
    unfold transNeighbors at h
    split at h
    · cases h
    · next t1 h1 =>
      rcases ih (fun y hy => hnbs y (by simp [hy])) _ h with k | k
      · rw [adjGet_transUpdate] at k
        split at k
        · next e => exact Or.inr (e ▸ .refl)
        · rcases hrec nb t t1 h1 x k with k | k
          · exact Or.inl k
          · exact Or.inr (.head (hnbs nb (by simp)) k)
      · exact Or.inr k

theorem transNode_entered (fuel : Nat) (node : α) (t t' : Adj α) (h : transNode g fuel node t = .ok t') (x : α)
    (hx : (adjGet t' x).isSome) : (adjGet t x).isSome ∨ ReflTransGen (Edge g) node x := by
  induction fuel generalizing node t t' x with
  | zero => simp [transNode] at h
  | succ fuel ih =>
    unfold transNode at h
    split at h
    · cases h; exact Or.inl hx
    · split at h
      · cases h
      · next nbs hn =>
        rcases transNeighbors_entered (transNode g fuel) node (fun nb t t' h x hx => ih nb t t' h x hx) nbs
          (fun y hy => ⟨nbs, adjGet_some_mem hn, hy⟩) _ t' h x hx with k | k
        · rw [adjGet_transUpdate] at k
          split at k
          · next e => exact Or.inr (e ▸ .refl)
          · exact Or.inl k
        · exact Or.inr k

theorem transAll_fresh (hcl : Closed g) (fuel : Nat) (hf : (keysOf g).length < fuel) (pre post : List α) (x : α)
    (hxs : ∀ y ∈ pre ++ x :: post, y ∈ keysOf g) (t : Adj α) (hs : Sound g t)
    (ht : ∀ y, ReflTransGen (Edge g) x y → adjGet t y = none)
    (hfresh : ∀ a ∈ pre, ∀ y, ReflTransGen (Edge g) a y → ¬ ReflTransGen (Edge g) x y)
    (t' : Adj α) (h : transAll g fuel (pre ++ x :: post) t = .ok t') :
    ∃ l, adjGet t' x = some l ∧ ∀ y, TransGen (Edge g) x y → y ∈ l := by
  induction pre generalizing t with
  | nil =>
    rw [List.nil_append] at h
    unfold transAll at h
    obtain ⟨t1, h1, hp⟩ := transNode_spec hcl fuel x t (hxs x (by simp)) hs (Nat.lt_of_le_of_lt (missing_le _ _) hf)
    rw [h1] at h
    simp only at h
    obtain ⟨l, hl⟩ := Option.isSome_iff_exists.1 hp.mem
    refine ⟨l, ?_, transNode_fresh hcl fuel x t (hxs x (by simp)) hs (Nat.lt_of_le_of_lt (missing_le _ _) hf) t1 h1 l hl ht⟩
    have keep : ∀ (xs : List α) (t1 : Adj α), (∀ y ∈ xs, y ∈ keysOf g) → Sound g t1 → adjGet t1 x = some l →
        transAll g fuel xs t1 = .ok t' → adjGet t' x = some l := by
      intro xs
      induction xs with
      | nil => intro t1 _ _ hl h; cases h; exact hl
      | cons z xs ih =>
        intro t1 hz hs hl h
        unfold transAll at h
        obtain ⟨t2, h2, hp⟩ := transNode_spec hcl fuel z t1 (hz z (by simp)) hs (Nat.lt_of_le_of_lt (missing_le _ _) hf)
        rw [h2] at h
        simp only at h
        exact ih t2 (fun y hy => hz y (by simp [hy])) hp.sound (by rw [hp.same x (by simp [hl])]; exact hl) h
    exact keep post t1 (fun y hy => hxs y (by simp [hy])) hp.sound hl h
  | cons a pre ih =>
    rw [List.cons_append] at h
    unfold transAll at h
    obtain ⟨t1, h1, hp⟩ := transNode_spec hcl fuel a t (hxs a (by simp)) hs (Nat.lt_of_le_of_lt (missing_le _ _) hf)
    rw [h1] at h
    simp only at h
    refine ih (fun y hy => hxs y (by rw [List.cons_append]; exact List.mem_cons_of_mem _ hy)) t1 hp.sound ?_
      (fun b hb => hfresh b (by simp [hb])) h
    intro y hy
    cases he : adjGet t1 y with
    | none => rfl
    | some l =>
      rcases transNode_entered fuel a t t1 h1 y (by simp [he]) with k | k
      · rw [ht y hy] at k; simp at k
      · exact absurd hy (hfresh a (by simp) y k)

end Verif.Graph
