import Verif.Sat.Inv
/-
Backtracking: `cancel` and `cancel_until`.
-/
namespace Verif.Sat
open Verif
namespace Solver

theorem undoOne_lim (s : Solver) (x : List Nat) :
    ({ s with trailLim := x } : Solver).undoOne = { s.undoOne with trailLim := x } := by
  cases ht : s.trail <;> simp [undoOne, ht]

theorem undoN_lim (n : Nat) (s : Solver) (x : List Nat) :
    undoN n { s with trailLim := x } = { undoN n s with trailLim := x } := by
  induction n generalizing s with
  | zero => rfl
  | succ n ih => simp only [undoN, undoOne_lim, ih]

theorem popLim_base {F U D} {s : Solver} (h : Base F U D s) {n : Nat} {lim : List Nat}
    (hl : s.trailLim = n :: lim) (ht : s.trail.length = n) : Base F U D { s with trailLim := lim } := by
  have hP := h.limP
  rw [hl] at hP
  have hP' := List.pairwise_cons.1 hP
  have hlen : ∀ {p r}, (p :: r) <:+ s.trail → r.length < n := by
    intro p r hr
    have := hr.length_le; simp at this; omega
  refine ⟨h.aset, h.vT, h.tnz, h.tnd, h.seenU, hP'.2, ?_, ?_, ?_, h.h0, h.npos, h.idr, h.cnd, h.cne, h.cnz, h.cU,
    h.cent⟩
  · intro m hm; exact h.limLe m (by rw [hl]; simp only at hm; simp [hm])
  · intro p r hr
    have := h.lev p r hr
    rw [hl, lv_cons_lt n lim (hlen hr)] at this
    exact this
  · intro p r hr
    obtain ⟨cid, hc, hh⟩ := h.reas p r hr
    refine ⟨cid, hc, ?_⟩
    rcases hh with ⟨h1, h2, h3⟩ | hh
    · left
      rw [hl] at h1
      have := hlen hr
      rcases List.mem_cons.1 h1 with h1 | h1
      · omega
      · exact ⟨h1, h2, h3⟩
    · exact Or.inr hh

theorem suffix_pos {t' t : List Int} (h : t' <:+ t) {p : Int} {r : List Int} (hp : (p :: r) <:+ t)
    (hn : r.length < t'.length) : (p :: r) <:+ t' := by
  apply List.suffix_of_suffix_length_le hp h
  simp only [List.length_cons]; omega

theorem cancel_spec {F U D} {s : Solver} (h : Base F U D s) {n : Nat} {lim : List Nat}
    (hl : s.trailLim = n :: lim) :
    Base F U D s.cancel ∧ Undone s s.cancel ∧ s.cancel.trailLim = lim ∧ s.cancel.trail.length = n ∧
    (∀ p, p ∈ s.cancel.trail ↔ p ∈ s.trail ∧ s.levels (iabs p) < (s.decisionLevel : Int)) := by
  have hn : n ≤ s.trail.length := h.limLe n (by rw [hl]; simp)
  have hP := h.limP
  rw [hl] at hP
  have hP' := List.pairwise_cons.1 hP
  obtain ⟨hb, hu, hlen, hlm⟩ := undoN_spec (s.trail.length - n) h (by omega) (by
    intro m hm; rw [hl] at hm
    rcases List.mem_cons.1 hm with rfl | hm
    · omega
    · have := hP'.1 m hm; omega)
  have hc : s.cancel = { undoN (s.trail.length - n) s with trailLim := lim } := by
    unfold cancel; rw [hl]; exact undoN_lim _ _ _
  have hlen' : (undoN (s.trail.length - n) s).trail.length = n := by omega
  rw [hc]
  refine ⟨popLim_base hb (hlm.trans hl) hlen', ⟨hu.trail, hu.lev, hu.levs, hu.heap, hu.nextId, hu.clauses,
    hu.watches, hu.queue, hu.assigning, hu.ct, hu.seen⟩, rfl, hlen', ?_⟩
  intro p
  show p ∈ (undoN (s.trail.length - n) s).trail ↔ _
  constructor
  · intro hp
    refine ⟨hu.trail.subset hp, ?_⟩
    obtain ⟨r, hr⟩ := mem_suffix hp
    rw [h.lev_lt_iff hl (hr.trans hu.trail)]
    have := hr.length_le; simp at this; omega
  · rintro ⟨hp, hlt⟩
    obtain ⟨r, hr⟩ := mem_suffix hp
    rw [h.lev_lt_iff hl hr] at hlt
    exact suffix_mem (suffix_pos hu.trail hr (by omega))

theorem cancelN_spec {F U D} (k : Nat) {s : Solver} (h : Base F U D s) (hk : k ≤ s.decisionLevel) :
    Base F U D (cancelN k s) ∧ Undone s (cancelN k s) ∧ (cancelN k s).trailLim = s.trailLim.drop k ∧
    (∀ p, p ∈ (cancelN k s).trail ↔ p ∈ s.trail ∧ s.levels (iabs p) ≤ ((s.decisionLevel - k : Nat) : Int)) ∧
    (0 < k → ∀ n ∈ (cancelN k s).trailLim, n < (cancelN k s).trail.length) := by
  induction k generalizing s with
  | zero =>
    refine ⟨h, Undone.refl s, rfl, ?_, fun h => absurd h (by omega)⟩
    intro p
    exact ⟨fun hp => ⟨hp, h.levLe hp⟩, fun hp => hp.1⟩
  | succ k ih =>
    cases hl : s.trailLim with
    | nil => unfold decisionLevel at hk; rw [hl] at hk; simp at hk
    | cons n lim =>
      have hd : s.decisionLevel = lim.length + 1 := by unfold decisionLevel; rw [hl]; rfl
      obtain ⟨hb, hu, hlm, hlen, hmem⟩ := cancel_spec h hl
      have hd' : s.cancel.decisionLevel = lim.length := by unfold decisionLevel; rw [hlm]
      obtain ⟨hb2, hu2, hlm2, hmem2, hst2⟩ := ih hb (by omega)
      refine ⟨hb2, hu.trans hu2, ?_, ?_, ?_⟩
      · show (cancelN k s.cancel).trailLim = _
        rw [hlm2, hlm]; rfl
      · intro p
        show p ∈ (cancelN k s.cancel).trail ↔ _
        rw [hmem2, hmem, hd, hd']
        constructor
        · rintro ⟨⟨h1, h2⟩, h3⟩
          refine ⟨h1, ?_⟩
          rw [hu.lev p ((hmem p).2 ⟨h1, by rw [hd]; exact h2⟩)] at h3; omega
        · rintro ⟨h1, h2⟩
          have h3 : s.levels (iabs p) < ((lim.length + 1 : Nat) : Int) := by omega
          refine ⟨⟨h1, h3⟩, ?_⟩
          rw [hu.lev p ((hmem p).2 ⟨h1, by rw [hd]; exact h3⟩)]; omega
      · intro _
        show ∀ n ∈ (cancelN k s.cancel).trailLim, n < (cancelN k s.cancel).trail.length
        by_cases hk0 : 0 < k
        · exact hst2 hk0
        · have : k = 0 := by omega
          subst this
          show ∀ n ∈ s.cancel.trailLim, n < s.cancel.trail.length
          rw [hlm, hlen]
          have hP := h.limP
          rw [hl] at hP
          exact fun m hm => (List.pairwise_cons.1 hP).1 m hm

theorem cancelUntil_spec {F U D} (k : Nat) {s : Solver} (h : Base F U D s) (hk : k ≤ s.decisionLevel) :
    Base F U D (s.cancelUntil k) ∧ Undone s (s.cancelUntil k) ∧ (s.cancelUntil k).decisionLevel = k ∧
    (∀ p, p ∈ (s.cancelUntil k).trail ↔ p ∈ s.trail ∧ s.levels (iabs p) ≤ (k : Int)) ∧
    (k < s.decisionLevel → ∀ n ∈ (s.cancelUntil k).trailLim, n < (s.cancelUntil k).trail.length) := by
  have e : ((s.decisionLevel : Int) - (k : Int)).toNat = s.decisionLevel - k := by omega
  unfold cancelUntil
  rw [e]
  obtain ⟨h1, h2, h3, h4, h5⟩ := cancelN_spec (s.decisionLevel - k) h (by omega)
  refine ⟨h1, h2, ?_, ?_, ?_⟩
  · unfold decisionLevel at *; rw [h3]; simp; omega
  · intro p; rw [h4]
    have : s.decisionLevel - (s.decisionLevel - k) = k := by omega
    rw [this]
  · intro hlt; exact h5 (by omega)

end Solver
end Verif.Sat
