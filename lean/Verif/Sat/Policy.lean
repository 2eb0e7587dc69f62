import Verif.Sat.PolicyModel
import Verif.Sat.Search
/-
The policies of simplesat meet the contract `Policy.OK`.
-/
namespace Verif.Sat
open Verif

theorem insertSorted_mem (x y : Int) (l : List Int) : y ∈ ASet.insertSorted x l ↔ y = x ∨ y ∈ l := by
  induction l with
  | nil => simp [ASet.insertSorted]
  | cons z l ih => simp only [ASet.insertSorted]; split <;> simp [ih]; grind

theorem isort_mem (y : Int) (l : List Int) : y ∈ ASet.isort l ↔ y ∈ l := by
  induction l with
  | nil => simp [ASet.isort]
  | cons z l ih =>
    have : ASet.isort (z :: l) = ASet.insertSorted z (ASet.isort l) := rfl
    rw [this, insertSorted_mem, ih]; simp

/-- the default policy always proposes an undecided known variable -/
theorem defaultPolicy_ok (U V : List Int) : defaultPolicy.OK U V (fun _ _ => True) (fun _ => True) where
  step := by
    intro ps a cs t _ hw _ hU _ _ ⟨v, hv, hn⟩
    unfold defaultPolicy
    simp only
    cases hf : a.items.find? (fun kv => kv.2.isNone) with
    | none =>
      rw [List.find?_eq_none] at hf
      have := hf (v, a.data v) (by
        unfold ASet.items
        exact List.mem_map.2 ⟨v, (isort_mem v _).2 hv, rfl⟩)
      simp [ASet.value] at hn
      simp [hn] at this
    | some kv =>
      obtain ⟨k, b⟩ := kv
      have h1 := List.mem_of_find?_eq_some hf
      have h2 := List.find?_some hf
      unfold ASet.items at h1
      obtain ⟨k', hk', e⟩ := List.mem_map.1 h1
      simp only [Prod.mk.injEq] at e
      obtain ⟨rfl, rfl⟩ := e
      rw [isort_mem] at hk'
      have hpos := hw.spos _ hk'
      refine ⟨(), a, k', rfl, trivial, ASet.Same.refl a, by omega, ?_, ?_, trivial⟩
      · simpa [ASet.value] using h2
      · rw [iabs_of_pos hpos]; exact hU _ hk'

section
variable {V : Type} [LinearOrder V]

theorem maxByFrom_spec (ver : Int → Option V) (l : List Int) (hl : ∀ x ∈ l, (ver x).isSome) (b : Int) (vb : V)
    (hb : ver b = some vb) :
    ∃ p vp, maxByFrom ver l (b, vb) = .ok p ∧ p ∈ b :: l ∧ ver p = some vp ∧
      ∀ q ∈ b :: l, ∀ vq, ver q = some vq → vq ≤ vp := by
  induction l generalizing b vb with
  | nil =>
    refine ⟨b, vb, rfl, by simp, hb, ?_⟩
    intro q hq vq hv
    simp only [List.mem_singleton] at hq; subst hq
    rw [hb] at hv; cases hv; exact le_refl _
  | cons x l ih =>
    have hx := hl x (by simp)
    obtain ⟨vx, hvx⟩ := Option.isSome_iff_exists.1 hx
    simp only [maxByFrom, hvx]
    have hl' : ∀ y ∈ l, (ver y).isSome := fun y hy => hl y (by simp [hy])
    split
    · rename_i hlt
      obtain ⟨p, vp, h1, h2, h3, h4⟩ := ih hl' x vx hvx
      refine ⟨p, vp, h1, by simp only [List.mem_cons] at h2 ⊢; grind, h3, ?_⟩
      intro q hq vq hv
      simp only [List.mem_cons] at hq
      rcases hq with rfl | rfl | hq
      · rw [hb] at hv; cases hv
        exact le_of_lt (lt_of_lt_of_le hlt (h4 x (by simp) vx hvx))
      · exact h4 q (by simp) vq hv
      · exact h4 q (by simp [hq]) vq hv
    · rename_i hlt
      obtain ⟨p, vp, h1, h2, h3, h4⟩ := ih hl' b vb hb
      refine ⟨p, vp, h1, by simp only [List.mem_cons] at h2 ⊢; grind, h3, ?_⟩
      intro q hq vq hv
      simp only [List.mem_cons] at hq
      rcases hq with rfl | rfl | hq
      · exact h4 q (by simp) vq hv
      · rw [hvx] at hv; cases hv
        exact le_trans (not_lt.1 hlt) (h4 b (by simp) vb hb)
      · exact h4 q (by simp [hq]) vq hv

/-- `best` over a set: none if everything is assigned, else an unassigned element of maximal version -/
theorem bestCandidate_spec (ver : Int → Option V) (order : List Int → List Int) (hord : ∀ l, (order l).Perm l)
    (ids : List Int) (a : ASet) (hv : ∀ x ∈ ids, (ver x).isSome) :
    (bestCandidate ver order ids a = .ok none ∧ ∀ x ∈ ids, x ∈ a.assigned) ∨
    (∃ p vp, bestCandidate ver order ids a = .ok (some p) ∧ p ∈ ids ∧ p ∉ a.assigned ∧ ver p = some vp ∧
      ∀ q ∈ ids, q ∉ a.assigned → ∀ vq, ver q = some vq → vq ≤ vp) := by
  unfold bestCandidate
  have hm : ∀ x, x ∈ order (withoutAssigned ids a) ↔ x ∈ ids ∧ x ∉ a.assigned := by
    intro x; rw [(hord _).mem_iff]; simp [withoutAssigned]
  cases ho : order (withoutAssigned ids a) with
  | nil =>
    left
    refine ⟨rfl, ?_⟩
    intro x hx
    by_cases h : x ∈ a.assigned
    · exact h
    · have := (hm x).2 ⟨hx, h⟩; rw [ho] at this; simp at this
  | cons y l =>
    right
    have hm' : ∀ x, x ∈ y :: l ↔ x ∈ ids ∧ x ∉ a.assigned := by rw [← ho]; exact hm
    obtain ⟨vy, hvy⟩ := Option.isSome_iff_exists.1 (hv y ((hm' y).1 (by simp)).1)
    obtain ⟨p, vp, h1, h2, h3, h4⟩ := maxByFrom_spec ver l (fun x hx => hv x ((hm' x).1 (by simp [hx])).1) y vy hvy
    refine ⟨p, vp, ?_, ((hm' p).1 h2).1, ((hm' p).1 h2).2, h3, ?_⟩
    · simp only [maxBy, hvy, h1]; rfl
    · intro q hq hqa vq hvq
      exact h4 q ((hm' q).2 ⟨hq, hqa⟩) vq hvq

/-- What the package policy guarantees about a choice `p` made with the assigned ids `asg`: the first undecided
preferred package; else an undecided requirement of maximal version; else anything. -/
def GoodChoice (ver : Int → Option V) (prefer reqs : List Int) (asg : List Int) (p : Int) : Prop :=
  (∃ pre post, prefer = pre ++ p :: post ∧ ∀ q ∈ pre, q ∈ asg) ∨
  ((∀ q ∈ prefer, q ∈ asg) ∧ p ∈ reqs ∧ ∀ q ∈ reqs, q ∉ asg → ∀ vq vp, ver q = some vq → ver p = some vp → vq ≤ vp) ∨
  ((∀ q ∈ prefer, q ∈ asg) ∧ (∀ q ∈ reqs, q ∈ asg))

structure PolInv (prefer reqs U : List Int) (st : PolState) : Prop where
  prefer : st.prefer = prefer
  reqs : ∀ x, x ∈ st.requirements ↔ x ∈ reqs
  dec : ∀ x ∈ st.decisionSet, x ∈ U

theorem bestSorted_spec (ids : List Int) (a : ASet) :
    (bestSorted ids a = none ∧ ∀ x ∈ ids, x ∈ a.assigned) ∨
    (∃ p pre post, bestSorted ids a = some p ∧ ids = pre ++ p :: post ∧ p ∉ a.assigned ∧ ∀ q ∈ pre, q ∈ a.assigned) := by
  unfold bestSorted
  cases h : ids.find? (fun p => decide (p ∉ a.assigned)) with
  | none =>
    left
    rw [List.find?_eq_none] at h
    refine ⟨rfl, fun x hx => ?_⟩
    simpa using h x hx
  | some p =>
    right
    rw [List.find?_eq_some_iff_append] at h
    obtain ⟨h1, pre, post, h2, h3⟩ := h
    exact ⟨p, pre, post, rfl, h2, by simpa using h1, fun q hq => by simpa using h3 q hq⟩

theorem refresh_spec {prefer reqs U : List Int} {st : PolState} (a : ASet) (cs : List Clause)
    (h : PolInv prefer reqs U st) (hcs : ∀ c ∈ cs, ∀ l ∈ c.lits, l ≠ 0 ∧ iabs l ∈ U) :
    PolInv prefer reqs U (refresh st a cs).1 ∧ ASet.Same a (refresh st a cs).2 ∧
    (∀ x, x ∈ (refresh st a cs).1.allIds ↔ x ∈ prefer ∨ ∃ c ∈ cs, ∃ l ∈ c.lits, iabs l = x) ∧
    (refresh st a cs).1.tick = st.tick := by
  unfold refresh
  refine ⟨⟨h.prefer, h.reqs, ?_⟩, a.consumeChangelog_same, ?_, rfl⟩
  · intro x hx
    simp only [List.mem_filter, mem_fromkeys, List.mem_flatMap, List.mem_map] at hx
    obtain ⟨⟨c, ⟨hc, -⟩, l, hl, rfl⟩, -⟩ := hx
    exact (hcs c hc l hl).2
  · intro x
    simp only [mem_supdate, mem_fromkeys, List.mem_flatMap, List.mem_map, h.prefer]

theorem GoodChoice.congr {ver : Int → Option V} {prefer reqs asg asg' : List Int} {p : Int} (e : asg = asg')
    (h : GoodChoice ver prefer reqs asg p) : GoodChoice ver prefer reqs asg' p := e ▸ h

theorem nextPackage_spec (ver : Int → Option V) (order : Nat → List Int → List Int)
    (hord : ∀ n l, (order n l).Perm l) {prefer reqs U W : List Int} (hver : ∀ x ∈ U, 0 < x ∧ (ver x).isSome)
    (hpU : ∀ x ∈ prefer, x ∈ U) (hrU : ∀ x ∈ reqs, x ∈ U) (hW : ∀ x ∈ U, x ∈ W ∨ x ∈ prefer ∨ x ∈ reqs)
    {st : PolState} {a : ASet} {cs : List Clause} (h : PolInv prefer reqs U st) (ha : a.WF)
    (hseen : ∀ v ∈ a.seen, v ∈ U) (hcs : ∀ c ∈ cs, ∀ l ∈ c.lits, l ≠ 0 ∧ iabs l ∈ U)
    (hcov : ∀ v ∈ W, ∃ c ∈ cs, ∃ l ∈ c.lits, iabs l = v) (hex : ∃ v ∈ a.seen, a.value v = none) :
    ∃ st' a' p, nextPackage ver order st a cs = .ok (st', a', p) ∧ PolInv prefer reqs U st' ∧ ASet.Same a a' ∧
      p ∈ U ∧ p ∉ a.assigned ∧ GoodChoice ver prefer reqs a.assigned p := by
  have hval : ∀ (a2 : ASet) p, ASet.Same a a2 → p ∉ a.assigned → p ∈ U → a2.value p = none := by
    intro a2 p hs hp hpU
    unfold ASet.value
    rw [hs.data]
    apply Classical.byContradiction
    intro hne
    exact hp ((ha.asg p).2 ⟨(hver p hpU).1, hne⟩)
  have hchk : ∀ st2 (a2 : ASet) p, ASet.Same a a2 → p ∉ a.assigned → p ∈ U →
      checkChoice st2 a2 (some p) = .ok (st2, a2, p) := by
    intro st2 a2 p hs hp hpU
    unfold checkChoice
    simp only
    rw [if_pos (hval a2 p hs hp hpU)]
  have hfin : ∀ ord : List Int → List Int, (∀ l, (ord l).Perm l) → ∀ st2 (a2 : ASet), PolInv prefer reqs U st2 →
      ASet.Same a a2 → (∀ q ∈ prefer, q ∈ a.assigned) → (∀ q ∈ reqs, q ∈ a.assigned) →
      (∀ x, x ∈ st2.allIds ↔ x ∈ prefer ∨ ∃ c ∈ cs, ∃ l ∈ c.lits, iabs l = x) →
      ∃ st' a' p, pickAfterRefresh ver ord st2 a2 = .ok (st', a', p) ∧ PolInv prefer reqs U st' ∧ ASet.Same a a' ∧
        p ∈ U ∧ p ∉ a.assigned ∧ GoodChoice ver prefer reqs a.assigned p := by
    intro ord hord st2 a2 hI hs hpa hra hall
    unfold pickAfterRefresh
    have has : a2.assigned = a.assigned := hs.assigned
    rcases bestCandidate_spec ver ord hord st2.decisionSet a2
      (fun x hx => (hver x (hI.dec x hx)).2) with ⟨f1, f2⟩ | ⟨p, vp, f1, f2, f3, f4, f5⟩
    rotate_left
    · rw [f1]
      simp only
      rw [has] at f3
      have hpU' : p ∈ U := hI.dec p f2
      rw [hchk st2 a2 p hs f3 hpU']
      exact ⟨_, a2, p, rfl, hI, hs, hpU', f3, Or.inr (Or.inr ⟨hpa, hra⟩)⟩
    rw [f1]
    simp only
    have hallU : ∀ x ∈ st2.allIds, x ∈ U := by
      intro x hx
      rcases (hall x).1 hx with k | ⟨c, hc, l, hl, rfl⟩
      · exact hpU x k
      · exact (hcs c hc l hl).2
    rcases bestCandidate_spec ver ord hord st2.allIds a2
      (fun x hx => (hver x (hallU x hx)).2) with ⟨g1, g2⟩ | ⟨p, vp, g1, g2, g3, g4, g5⟩
    rotate_left
    · rw [g1]
      simp only
      rw [has] at g3
      have hpU' : p ∈ U := hallU p g2
      rw [hchk st2 a2 p hs g3 hpU']
      exact ⟨_, a2, p, rfl, hI, hs, hpU', g3, Or.inr (Or.inr ⟨hpa, hra⟩)⟩
    -- impossible: some known variable is undecided
    exfalso
    obtain ⟨v, hv, hn⟩ := hex
    have hva : v ∉ a.assigned := fun hh => ((ha.asg v).1 hh).2 hn
    apply hva
    rcases hW v (hseen v hv) with k | k | k
    · rw [← has]
      exact g2 v ((hall v).2 (Or.inr (hcov v k)))
    · exact hpa v k
    · exact hra v k
  have hpick : ∀ ord : List Int → List Int, (∀ l, (ord l).Perm l) → ∀ st2 (a1 : ASet), PolInv prefer reqs U st2 →
      ASet.Same a a1 → ∃ st' a' p, pick ver ord st2 a1 cs = .ok (st', a', p) ∧ PolInv prefer reqs U st' ∧ ASet.Same a a' ∧
        p ∈ U ∧ p ∉ a.assigned ∧ GoodChoice ver prefer reqs a.assigned p := by
    intro ord hord st2 a1 hI2 hs1
    unfold pick
    have has1 : a1.assigned = a.assigned := hs1.assigned
    rcases bestSorted_spec st2.prefer a1 with ⟨b1, b2⟩ | ⟨p, pre, post, b1, b2, b3, b4⟩
    rotate_left
    · rw [b1]
      simp only
      rw [hI2.prefer] at b2
      rw [has1] at b3 b4
      have hpU' : p ∈ U := hpU p (by rw [b2]; simp)
      rw [hchk st2 a1 p hs1 b3 hpU']
      exact ⟨st2, a1, p, rfl, hI2, hs1, hpU', b3, Or.inl ⟨pre, post, b2, b4⟩⟩
    rw [b1]
    simp only
    rw [hI2.prefer, has1] at b2
    rcases bestCandidate_spec ver ord hord st2.requirements a1
      (fun x hx => (hver x (hrU x ((hI2.reqs x).1 hx))).2) with ⟨c1, c2⟩ | ⟨p, vp, c1, c2, c3, c4, c5⟩
    rotate_left
    · rw [c1]
      simp only
      rw [has1] at c3 c5
      have hpU' : p ∈ U := hrU p ((hI2.reqs p).1 c2)
      rw [hchk st2 a1 p hs1 c3 hpU']
      refine ⟨st2, a1, p, rfl, hI2, hs1, hpU', c3, Or.inr (Or.inl ⟨b2, (hI2.reqs p).1 c2, ?_⟩)⟩
      intro q hq hqa vq vp' hvq hvp
      rw [c4] at hvp; cases hvp
      exact c5 q ((hI2.reqs q).2 hq) hqa vq hvq
    rw [c1]
    simp only
    have c2' : ∀ q ∈ reqs, q ∈ a.assigned := by
      intro q hq; rw [← has1]; exact c2 q ((hI2.reqs q).2 hq)
    have hI3 : PolInv prefer reqs U { st2 with decisionSet := withoutAssigned st2.decisionSet a1 } :=
      ⟨hI2.prefer, hI2.reqs, fun x hx => hI2.dec x (List.mem_filter.1 hx).1⟩
    rcases bestCandidate_spec ver ord hord st2.decisionSet a1
      (fun x hx => (hver x (hI2.dec x hx)).2) with ⟨d1, d2⟩ | ⟨p, vp, d1, d2, d3, d4, d5⟩
    rotate_left
    · rw [d1]
      simp only
      rw [has1] at d3
      have hpU' : p ∈ U := hI2.dec p d2
      rw [hchk _ a1 p hs1 d3 hpU']
      exact ⟨_, a1, p, rfl, hI3, hs1, hpU', d3, Or.inr (Or.inr ⟨b2, c2'⟩)⟩
    rw [d1]
    obtain ⟨r1, r2, r3, r4⟩ := refresh_spec a1 cs hI3 hcs
    exact hfin ord hord _ _ r1 (hs1.trans r2) b2 c2' r3
  unfold nextPackage
  simp only
  by_cases hk : a.newKeys ≠ []
  · rw [if_pos hk]
    obtain ⟨k1, k2, -, -⟩ := refresh_spec a cs h hcs
    exact hpick _ (hord st.tick) _ _ ⟨k1.prefer, k1.reqs, k1.dec⟩ k2
  · rw [if_neg hk]
    exact hpick _ (hord st.tick) _ _ ⟨h.prefer, h.reqs, h.dec⟩ (ASet.Same.refl a)

/-- The decision guarantee in terms of the literals `t` that are true when the decision is made. -/
def pkgD (ver : Int → Option V) (prefer reqs : List Int) (p : Int) (t : List Int) : Prop :=
  0 < p ∧ ∀ asg, (∀ q, 0 < q → (q ∈ asg ↔ q ∈ t ∨ -q ∈ t)) → (∀ q ∈ asg, 0 < q) → GoodChoice ver prefer reqs asg p

theorem GoodChoice.of_mem {ver : Int → Option V} {prefer reqs asg asg' : List Int} {p : Int}
    (e : ∀ q, q ∈ asg ↔ q ∈ asg') (h : GoodChoice ver prefer reqs asg p) : GoodChoice ver prefer reqs asg' p := by
  unfold GoodChoice at *
  simpa only [e] using h

/-- The package policy meets the contract of the solver. -/
theorem packagePolicy_ok (ver : Int → Option V) (order : Nat → List Int → List Int)
    (hord : ∀ n l, (order n l).Perm l) {prefer reqs U W : List Int} (hver : ∀ x ∈ U, 0 < x ∧ (ver x).isSome)
    (hpU : ∀ x ∈ prefer, x ∈ U) (hrU : ∀ x ∈ reqs, x ∈ U) (hW : ∀ x ∈ U, x ∈ W ∨ x ∈ prefer ∨ x ∈ reqs) :
    (packagePolicy ver order).OK U W (pkgD ver prefer reqs) (PolInv prefer reqs U) where
  step := by
    intro ps a cs t hps ha ht hseen hcs hcov hex
    have hs := a.getChangelog_same
    obtain ⟨st', a', p, h1, h2, h3, h4, h5, h6⟩ := nextPackage_spec ver order hord hver hpU hrU hW hps (ha.same hs)
      (by rw [hs.seen]; exact hseen) hcs hcov (by
        obtain ⟨v, hv, hn⟩ := hex
        exact ⟨v, by rw [hs.seen]; exact hv, by unfold ASet.value at *; rw [hs.data]; exact hn⟩)
    rw [hs.assigned] at h5 h6
    have hp0 := (hver p h4).1
    refine ⟨st', a'.consumeChangelog.1, p, ?_, h2, hs.trans (h3.trans a'.consumeChangelog_same), by omega, ?_, ?_, hp0, ?_⟩
    · unfold packagePolicy
      simp only [h1]
    · apply Classical.byContradiction
      intro hne
      exact h5 ((ha.asg p).2 ⟨hp0, hne⟩)
    · rw [iabs_of_pos hp0]; exact h4
    · intro asg hasg hpos
      apply h6.of_mem
      intro q
      have hmem : q ∈ a.assigned ↔ 0 < q ∧ (q ∈ t ∨ -q ∈ t) := by
        rw [ha.asg, ← ht, ← ht]
        unfold ASet.value
        rw [ha.neg]
        cases a.data q with
        | none => simp
        | some b => cases b <;> simp
      rw [hmem]
      constructor
      · rintro ⟨k1, k2⟩; exact (hasg q k1).2 k2
      · intro k1; exact ⟨hpos q k1, (hasg q (hpos q k1)).1 k1⟩

theorem start_inv (prefer reqs U : List Int) : PolInv prefer reqs U (PolState.start prefer reqs) :=
  ⟨rfl, fun x => by simp [PolState.start], by intro x hx; simp [PolState.start] at hx⟩

end
end Verif.Sat
