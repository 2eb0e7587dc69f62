import Verif.Sat.Setup
import Verif.Sat.Policy
/-
Consequences of the invariants: reachable states, what a finished search says, lexicographic preference.
-/
namespace Verif.Sat
open Verif
namespace Solver

theorem val_cases {F U D} {s : Solver} (h : Base F U D s) (l : Int) :
    l ∈ s.trail ∨ -l ∈ s.trail ∨ s.val l = none := by
  cases hv : s.val l with
  | none => simp
  | some b =>
    cases b with
    | true => exact Or.inl ((h.vT l).1 hv)
    | false => exact Or.inr (Or.inl ((h.vF l).1 hv))

/-- after complete propagation every clause is satisfied or has two undecided literals -/
theorem clause_status {R F U D} {s : Solver} (h : Inv R F U D s) (hq : s.propQueue = []) {cid : Nat}
    (hc : cid ∈ s.clauses) :
    (∃ l ∈ s.litsOf cid, s.val l = some true) ∨
    (∃ l ∈ s.litsOf cid, ∃ k ∈ s.litsOf cid, l ≠ k ∧ s.val l = none ∧ s.val k = none) := by
  have hb := h.base
  cases hl : s.litsOf cid with
  | nil => exact absurd hl (hb.cne cid hc)
  | cons a r =>
    cases r with
    | nil =>
      left
      exact ⟨a, by simp, (hb.vT a).2 (h.units cid hc a hl).1⟩
    | cons b r =>
      obtain ⟨w1, w2⟩ := h.wv cid hc a b r hl
      unfold WOk at w1 w2
      simp only [hq, List.not_mem_nil, false_or] at w1 w2
      rcases val_cases hb a with ha | ha | ha
      · exact Or.inl ⟨a, by simp, (hb.vT a).2 ha⟩
      · exact Or.inl ⟨b, by simp, (hb.vT b).2 (w1 ha).1⟩
      · rcases val_cases hb b with hb' | hb' | hb'
        · exact Or.inl ⟨b, by simp, (hb.vT b).2 hb'⟩
        · exact Or.inl ⟨a, by simp, (hb.vT a).2 (w2 hb').1⟩
        · right
          refine ⟨a, by simp, b, by simp, ?_, ha, hb'⟩
          have := hb.cnd cid hc
          rw [hl, List.nodup_cons] at this
          rintro rfl; exact this.1 (by simp)

theorem Done.clause {F U D} {s : Solver} (h : Done F U D s) {cid : Nat} (hc : cid ∈ s.clauses) :
    ∃ l ∈ s.litsOf cid, s.val l = some true := by
  rcases clause_status h.inv h.q hc with k | ⟨l, hl, _, _, _, hn, _⟩
  · exact k
  · exfalso
    have := h.all _ (h.inv.cs cid hc l hl)
    unfold val ASet.value at this hn
    exact this ((h.inv.base.aset.iabs_none l).2 hn)

/-- trail literals follow from the clauses and the decisions -/
theorem trail_forced {F U D} {s : Solver} (h : Base F U D s) {m : Nat → Bool}
    (hm : ∀ cid ∈ s.clauses, SatC m (s.litsOf cid))
    (hd : ∀ p r, (p :: r) <:+ s.trail → r.length ∈ s.trailLim → litTrue m p) :
    ∀ p ∈ s.trail, litTrue m p := by
  suffices H : ∀ n, ∀ p r, (p :: r) <:+ s.trail → r.length = n → litTrue m p by
    intro p hp
    obtain ⟨r, hr⟩ := mem_suffix hp
    exact H r.length p r hr rfl
  intro n
  induction n using Nat.strongRecOn with
  | _ n ih =>
    intro p r hp hn
    obtain ⟨cid, -, h1 | ⟨h2, h3, h4⟩⟩ := h.reas p r hp
    · exact hd p r hp h1.1
    · obtain ⟨l, hl, ht⟩ := hm cid h2
      by_cases e : l = p
      · rw [← e]; exact ht
      · exfalso
        have hlr := h4 l hl e
        obtain ⟨r', hr'⟩ := mem_suffix hlr
        have hlen : r'.length < n := by
          have := hr'.length_le
          simp only [List.length_cons] at this; omega
        have := ih r'.length hlen (-l) r' (hr'.trans ((List.suffix_cons _ _).trans hp)) rfl
        exact (litTrue_neg m (h.cnz cid h2 l hl)).1 this ht

end Solver

/-- States at the head of the search loop. -/
inductive Reach {σ : Type} (pol : Policy σ) (G : List (List Int)) (ps0 : σ) : σ → Solver → Prop where
  | start {s} : Solver.fromRules G = .ok s → Reach pol G ps0 ps0 s
  | turn {ps s ps' s'} : Reach pol G ps0 ps s → Solver.turn pol 0 ps s = .next ps' s' → Reach pol G ps0 ps' s'

theorem Reach.head {σ : Type} {pol : Policy σ} {U : List Int} {D PI} {G : List (List Int)}
    (hpol : pol.OK U (varsOf G) D PI) (hU : ∀ v ∈ varsOf G, v ∈ U)
    (hnz : ∀ c ∈ G, ∀ l ∈ c, l ≠ 0) {ps0 : σ} (hps : PI ps0) {ps : σ} {s : Solver} (h : Reach pol G ps0 ps s) :
    Solver.Head (nonempty G) U D s ∧ PI ps := by
  induction h with
  | start h =>
    rcases fromRules_head (D := D) G hnz hU with ⟨s, h1, h2, h3, hroot⟩ | ⟨u, h1, h2⟩
    · rw [h1] at h; cases h; exact ⟨h2, hps⟩
    · rw [h1] at h; simp at h
  | turn _ ht ih =>
    rcases Solver.turn_spec hpol (varsOf_nonempty G) ih.1 ih.2 with ⟨s', k1, -⟩ | ⟨u, s', k1, -⟩ | ⟨ps', s', k1, k2, k3, -⟩
    · rw [k1] at ht; simp at ht
    · rw [k1] at ht; simp at ht
    · rw [k1] at ht; cases ht; exact ⟨k2, k3⟩

/-- more turns do not change a search that has stopped -/
theorem searchLoop_mono {σ : Type} (pol : Policy σ) (root n : Nat) (ps : σ) (s : Solver)
    (h : ∀ s', Solver.searchLoop pol root n ps s ≠ .error (.outOfFuel, s')) :
    ∀ k, Solver.searchLoop pol root (n + k) ps s = Solver.searchLoop pol root n ps s := by
  intro k
  induction n generalizing ps s with
  | zero => exact absurd rfl (h s)
  | succ n ih =>
    rw [Nat.add_right_comm]
    simp only [Solver.searchLoop] at h ⊢
    cases ht : Solver.turn pol root ps s with
    | done s a => rfl
    | fail e s => rfl
    | next ps' s' =>
      simp only
      apply ih
      intro s''
      have := h s''
      rw [ht] at this
      exact this

/-- The heart of "preferred packages first". `K` is a set of positive variables with a priority, `before q p`
meaning that `q` is decided before `p`; every decision is either a member of `K` whose predecessors are all decided, or
made when all of `K` is decided. If `q ∈ K` ends up false, then `q` is false in every model that agrees with the
result on the true members of `K` that do not come after `q`. -/
theorem lex_preference {F U D} {s : Solver} (h : Solver.Base F U D s) (K : Int → Prop) (before : Int → Int → Prop)
    (hK : ∀ q, K q → 0 < q)
    (hD : ∀ p t, D p t → (K p ∧ ∀ q, K q → before q p → q ∈ t ∨ -q ∈ t) ∨ (∀ q, K q → q ∈ t ∨ -q ∈ t))
    {q : Int} (hq : K q) (hf : s.val q = some false) {m : Nat → Bool} (hm : Sat m F)
    (hagree : ∀ p, K p → ¬ before q p → s.val p = some true → litTrue m p) : ¬ litTrue m q := by
  have hnt := (h.vF q).1 hf
  obtain ⟨r, hr⟩ := Solver.mem_suffix hnt
  have hq0 := hK q hq
  rw [← litTrue_neg m (by omega)]
  refine h.implied hm (r.length + 1) ?_ (-q) r hr (by omega)
  intro p r' hp hlim hlen hdec
  have hqr : ¬ (q ∈ r' ∨ -q ∈ r') := by
    -- r' is a suffix of r
    have hsuf : r' <:+ r := by
      have a1 : r' <:+ s.trail := (List.suffix_cons _ _).trans hp
      have a2 : r <:+ s.trail := (List.suffix_cons _ _).trans hr
      exact List.suffix_of_suffix_length_le a1 a2 (by omega)
    have hnd := h.tnd
    obtain ⟨pre, hpre⟩ := hr
    rw [← hpre, List.map_append, List.map_cons, List.nodup_append, List.nodup_cons] at hnd
    have hno := hnd.2.1.1
    rintro (k | k)
    · exact hno (by rw [iabs_neg]; exact List.mem_map_of_mem (hsuf.subset k))
    · exact hno (List.mem_map_of_mem (hsuf.subset k))
  rcases hD p r' hdec with ⟨k1, k2⟩ | k
  · refine hagree p k1 (fun hb => hqr (k2 q hq hb)) ?_
    exact (h.vT p).2 (Solver.suffix_mem hp)
  · exact absurd (k q hq) hqr

end Verif.Sat
