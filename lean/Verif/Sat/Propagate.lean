import Verif.Sat.Cancel
/-
Unit propagation.
-/
namespace Verif.Sat
open Verif

theorem findWatch_some {val : Int → Option Bool} {x : Int} {rest rest' : List Int} {w : Int}
    (h : findWatch val x rest = some (w, rest')) :
    w ∈ rest ∧ val w ≠ some false ∧ (w :: rest').Perm (x :: rest) := by
  induction rest generalizing rest' w with
  | nil => simp [findWatch] at h
  | cons o rest ih =>
    simp only [findWatch] at h
    split at h
    · rename_i ho
      simp only [Option.some.injEq, Prod.mk.injEq] at h
      obtain ⟨rfl, rfl⟩ := h
      exact ⟨by simp, ho, List.Perm.swap _ _ _⟩
    · split at h
      · simp at h
      · rename_i w' r' hf
        simp only [Option.some.injEq, Prod.mk.injEq] at h
        obtain ⟨rfl, rfl⟩ := h
        obtain ⟨h1, h2, h3⟩ := ih hf
        refine ⟨by simp [h1], h2, ?_⟩
        exact ((List.Perm.swap _ _ _).trans (h3.cons o)).trans (List.Perm.swap _ _ _)

theorem findWatch_none {val : Int → Option Bool} {x : Int} {rest : List Int}
    (h : findWatch val x rest = none) : ∀ o ∈ rest, val o = some false := by
  induction rest with
  | nil => simp
  | cons o rest ih =>
    simp only [findWatch] at h
    split at h
    · simp at h
    · rename_i ho
      split at h
      · rename_i hf
        intro y hy
        rcases List.mem_cons.1 hy with rfl | hy
        · simpa using ho
        · exact ih hf y hy
      · simp at h

/-- What `Clause.rewatch` does to a clause of at least two literals that watches `-lit`. -/
theorem rewatch_spec (val : Int → Option Bool) {a b : Int} {r : List Int} {lit : Int}
    (hw : a = -lit ∨ b = -lit) :
    ∃ other w r' u, rewatch val (a :: b :: r) lit = .ok (other :: w :: r', u) ∧
      (other :: w :: r').Perm (a :: b :: r) ∧
      ((a = -lit ∧ other = b) ∨ (b = -lit ∧ other = a)) ∧
      ((w = -lit ∧ val other = some true ∧ u = none) ∨
       (w ∈ r ∧ val w ≠ some false ∧ u = none) ∨
       (w = -lit ∧ r' = r ∧ (∀ o ∈ r, val o = some false) ∧ val other ≠ some true ∧ u = some other)) := by
  simp only [rewatch, hw, if_true]
  have hperm : (if a = -lit then b else a) :: -lit :: r |>.Perm (a :: b :: r) := by
    split
    · rename_i h; subst h; exact List.Perm.swap _ _ _
    · rename_i h; rcases hw with hw | hw
      · exact absurd hw h
      · subst hw; exact List.Perm.refl _
  have hcase : (a = -lit ∧ (if a = -lit then b else a) = b) ∨ (b = -lit ∧ (if a = -lit then b else a) = a) := by
    split
    · rename_i h; exact Or.inl ⟨h, rfl⟩
    · rename_i h; exact Or.inr ⟨hw.resolve_left h, rfl⟩
  generalize ho : (if a = -lit then b else a) = other at *
  split
  · rename_i hv
    exact ⟨other, -lit, r, none, rfl, hperm, hcase, Or.inl ⟨rfl, hv, rfl⟩⟩
  · rename_i hv
    split
    · rename_i w r' hf
      obtain ⟨h1, h2, h3⟩ := findWatch_some hf
      exact ⟨other, w, r', none, rfl, (h3.cons other).trans hperm, hcase, Or.inr (Or.inl ⟨h1, h2, rfl⟩)⟩
    · rename_i hf
      exact ⟨other, -lit, r, some other, rfl, hperm, hcase,
        Or.inr (Or.inr ⟨rfl, rfl, findWatch_none hf, hv, rfl⟩)⟩

namespace Solver

/-- Invariant between two calls of the solver's top-level steps. -/
structure Inv (R : Nat) (F : List (List Int)) (U : List Int) (D : Int → List Int → Prop) (s : Solver) : Prop where
  base : Base F U D s
  limS : ∀ n ∈ s.trailLim, n < s.trail.length
  units : Units R s
  cs : CSeen s
  wid : WIdx s s.watches
  wv : WVal R s (fun _ k => k ∈ s.propQueue)
  q : ∀ k ∈ s.propQueue, k ∈ s.trail ∧ s.levels (iabs k) = (s.decisionLevel : Int)

/-- Invariant of the inner loop of `propagate`: `pend` is what is left of the watch list of `lit`. -/
structure Loop (R : Nat) (F : List (List Int)) (U : List Int) (D : Int → List Int → Prop) (lit : Int)
    (pend : List Nat) (s : Solver) : Prop where
  base : Base F U D s
  limS : ∀ n ∈ s.trailLim, n < s.trail.length
  units : Units R s
  cs : CSeen s
  wid : WIdx s (fun k => s.watches k ++ if k = lit then pend else [])
  wv : WVal R s (fun cid k => k ∈ s.propQueue ∨ (k = lit ∧ cid ∈ pend))
  q : ∀ k ∈ s.propQueue, k ∈ s.trail ∧ s.levels (iabs k) = (s.decisionLevel : Int)
  lt : lit ∈ s.trail
  ll : s.levels (iabs lit) = (s.decisionLevel : Int)

/-- State after a conflict: clause `cid` is false. -/
structure Conf (R : Nat) (F : List (List Int)) (U : List Int) (D : Int → List Int → Prop) (cid : Nat) (s : Solver) : Prop where
  base : Base F U D s
  limS : ∀ n ∈ s.trailLim, n < s.trail.length
  units : Units R s
  cs : CSeen s
  wid : WIdx s s.watches
  wv : WVal R s (fun _ k => s.levels (iabs k) = (s.decisionLevel : Int))
  q : s.propQueue = []
  mem : cid ∈ s.clauses
  fls : ∀ l ∈ s.litsOf cid, -l ∈ s.trail
  cur : ∃ l ∈ s.litsOf cid, s.levels (iabs l) = (s.decisionLevel : Int)

/-- `s'` is reached from `s` by propagation only. -/
structure Ext (s s' : Solver) : Prop where
  trail : s.trail <:+ s'.trail
  lim : s'.trailLim = s.trailLim
  clauses : s'.clauses = s.clauses
  nextId : s'.nextId = s.nextId
  seen : s'.assignments.seen = s.assignments.seen
  ct : s'.clauseTrails = s.clauseTrails
  lits : ∀ c, (s'.litsOf c).Perm (s.litsOf c)
  learned : ∀ c, (s'.heap c).learned = (s.heap c).learned
  rule : ∀ c, (s'.heap c).rule = (s.heap c).rule

theorem Ext.refl (s : Solver) : Ext s s :=
  ⟨List.suffix_rfl, rfl, rfl, rfl, rfl, rfl, fun _ => List.Perm.refl _, fun _ => rfl, fun _ => rfl⟩

theorem Ext.trans {s s' s'' : Solver} (h : Ext s s') (h' : Ext s' s'') : Ext s s'' :=
  ⟨h.trail.trans h'.trail, h'.lim.trans h.lim, h'.clauses.trans h.clauses, h'.nextId.trans h.nextId,
   h'.seen.trans h.seen, h'.ct.trans h.ct, fun c => (h'.lits c).trans (h.lits c),
   fun c => (h'.learned c).trans (h.learned c), fun c => (h'.rule c).trans (h.rule c)⟩

theorem entails_perm {F : List (List Int)} {c c' : List Int} (h : Entails F c) (hp : c'.Perm c) : Entails F c' := by
  intro m hm
  obtain ⟨l, hl, ht⟩ := h m hm
  exact ⟨l, hp.mem_iff.2 hl, ht⟩

/-- reordering literals inside clauses does not matter for `Base` -/
theorem Base.perm {F U D} {s s' : Solver} (h : Base F U D s) (hp : ∀ c, (s'.litsOf c).Perm (s.litsOf c))
    (e1 : s'.assignments = s.assignments)
    (e2 : s'.trail = s.trail) (e3 : s'.trailLim = s.trailLim) (e4 : s'.levels = s.levels)
    (e5 : s'.assigning = s.assigning) (e7 : s'.clauses = s.clauses)
    (e8 : s'.nextId = s.nextId) : Base F U D s' := by
  have hm : ∀ c l, l ∈ s'.litsOf c ↔ l ∈ s.litsOf c := fun c l => (hp c).mem_iff
  constructor
  · rw [e1]; exact h.aset
  · intro l; unfold val; rw [e1, e2]; exact h.vT l
  · rw [e2]; exact h.tnz
  · rw [e2]; exact h.tnd
  · rw [e1]; exact h.seenU
  · rw [e3]; exact h.limP
  · rw [e3, e2]; exact h.limLe
  · rw [e2, e3, e4]; exact h.lev
  · rw [e2, e3, e5, e7]; simp only [hm]; exact h.reas
  · have := hp 0; rw [h.h0] at this; exact this.eq_nil
  · rw [e8]; exact h.npos
  · rw [e7, e8]; exact h.idr
  · rw [e7]; intro c hc; exact (hp c).nodup_iff.2 (h.cnd c hc)
  · rw [e7]; intro c hc h0; have h1 := hp c; rw [h0] at h1; exact h.cne c hc h1.symm.eq_nil
  · rw [e7]; simp only [hm]; exact h.cnz
  · rw [e7]; simp only [hm]; exact h.cU
  · rw [e7]; intro c hc; exact entails_perm (h.cent c hc) (hp c)

theorem push_ext {s : Solver} {l : Int} {c : Nat} (hs : iabs l ∈ s.assignments.seen) : Ext s (s.push l c) := by
  refine ⟨List.suffix_cons _ _, rfl, rfl, rfl, ?_, rfl, fun _ => List.Perm.refl _, fun _ => rfl, fun _ => rfl⟩
  show (s.assignments.setItem (iabs l) (some (decide (0 < l)))).seen = _
  simp only [ASet.setItem]
  split <;> simp [sadd, hs]

/-- `s` with the literals of clause `cid` reordered and `cid` put on the watch list of `k`:
minisat.py:377-380. -/
def rewatched (s : Solver) (cid : Nat) (lits' : List Int) (k : Int) : Solver :=
  ({ s with heap := fset s.heap cid { s.heap cid with lits := lits' } } : Solver).watch k cid

theorem rewatched_litsOf (s : Solver) (cid : Nat) (lits' : List Int) (k : Int) (c : Nat) :
    (s.rewatched cid lits' k).litsOf c = if c = cid then lits' else s.litsOf c := by
  show (fset s.heap cid { s.heap cid with lits := lits' } c).lits = _
  unfold fset; split <;> rfl

theorem rewatched_perm {s : Solver} {cid : Nat} {lits' : List Int} {k : Int}
    (hp : lits'.Perm (s.litsOf cid)) (c : Nat) : ((s.rewatched cid lits' k).litsOf c).Perm (s.litsOf c) := by
  rw [rewatched_litsOf]; split
  · rename_i h; subst h; exact hp
  · exact List.Perm.refl _

theorem rewatched_ext {s : Solver} {cid : Nat} {lits' : List Int} {k : Int}
    (hp : lits'.Perm (s.litsOf cid)) : Ext s (s.rewatched cid lits' k) := by
  refine ⟨List.suffix_rfl, rfl, rfl, rfl, rfl, rfl, rewatched_perm hp, ?_, ?_⟩
  · intro c
    show (fset s.heap cid { s.heap cid with lits := lits' } c).learned = _
    unfold fset; split
    · rename_i h; subst h; rfl
    · rfl
  · intro c
    show (fset s.heap cid { s.heap cid with lits := lits' } c).rule = _
    unfold fset; split
    · rename_i h; subst h; rfl
    · rfl

theorem rewatched_base {F U D} {s : Solver} {cid : Nat} {lits' : List Int} {k : Int} (h : Base F U D s)
    (hp : lits'.Perm (s.litsOf cid)) : Base F U D (s.rewatched cid lits' k) :=
  h.perm (rewatched_perm hp) rfl rfl rfl rfl rfl rfl rfl

theorem rewatched_units {R : Nat} {s : Solver} {cid : Nat} {x y : Int} {r : List Int} {k : Int} (h : Units R s) :
    Units R (s.rewatched cid (x :: y :: r) k) := by
  intro c hc l hl
  rw [rewatched_litsOf] at hl
  split at hl
  · simp at hl
  · exact h c hc l hl

theorem rewatched_cseen {s : Solver} {cid : Nat} {lits' : List Int} {k : Int} (h : CSeen s)
    (hp : lits'.Perm (s.litsOf cid)) : CSeen (s.rewatched cid lits' k) := by
  intro c hc l hl
  exact h c hc l ((rewatched_perm hp c).mem_iff.1 hl)

theorem rewatched_watches (s : Solver) (cid : Nat) (lits' : List Int) (k x : Int) :
    (s.rewatched cid lits' k).watches x = if x = k then s.watches k ++ [cid] else s.watches x := by
  show fset s.watches k (s.watches k ++ [cid]) x = _
  unfold fset; rfl

/-- one turn of the inner loop keeps the watch index -/
theorem rewatched_widx {s : Solver} {lit : Int} {cid : Nat} {rest : List Nat} {a b : Int} {r : List Int}
    {other w : Int} {r' : List Int}
    (hw : WIdx s (fun k => s.watches k ++ if k = lit then cid :: rest else []))
    (hlits : s.litsOf cid = a :: b :: r) (hnd : (s.litsOf cid).Nodup) (hc : cid ∈ s.clauses)
    (ho : (a = -lit ∧ other = b) ∨ (b = -lit ∧ other = a))
    (hww : w = -lit ∨ w ∈ r) :
    WIdx (s.rewatched cid (other :: w :: r') (-w))
      (fun k => (s.rewatched cid (other :: w :: r') (-w)).watches k ++ if k = lit then rest else []) := by
  rw [hlits] at hnd
  have hnd' : a ≠ b ∧ a ∉ r ∧ b ∉ r := by
    simp only [List.nodup_cons, List.mem_cons, not_or] at hnd
    exact ⟨hnd.1.1, hnd.1.2, hnd.2.1⟩
  have hol : other ≠ -lit := by rcases ho with ⟨h1, h2⟩ | ⟨h1, h2⟩ <;> omega
  have hlitN := hw.nd lit
  simp only [if_true] at hlitN
  have hcl : cid ∉ s.watches lit ∧ cid ∉ rest := by
    rw [List.nodup_append] at hlitN
    refine ⟨fun h => hlitN.2.2 cid h cid (by simp) rfl, ?_⟩
    have := hlitN.2.1; rw [List.nodup_cons] at this; exact this.1
  have hcid : ∀ k, k ≠ lit → (cid ∈ s.watches k ↔ k = -other) := by
    intro k hk
    have := hw.iff k cid
    simp only [hk, if_false, List.append_nil] at this
    rw [this]
    constructor
    · rintro ⟨-, a', b', r'', e, h⟩
      rw [hlits] at e
      simp only [List.cons.injEq] at e
      obtain ⟨e1, e2, -⟩ := e
      rw [← e1, ← e2] at h
      clear e1 e2 this hw hlitN
      rcases ho with ⟨h1, h2⟩ | ⟨h1, h2⟩ <;> rcases h with h | h
      · exact absurd (by rw [h, h1, Int.neg_neg]) hk
      · rw [h, h2]
      · rw [h, h2]
      · exact absurd (by rw [h, h1, Int.neg_neg]) hk
    · intro h
      have hk2 : k = -a ∨ k = -b := by clear hw hlitN this; omega
      exact ⟨hc, a, b, r, hlits, hk2⟩
  constructor
  · intro k
    simp only [rewatched_watches]
    have hk0 := hw.nd k
    by_cases hkl : k = lit
    · subst hkl
      simp only [if_true] at hk0 ⊢
      split
      · rename_i h; rw [← h]
        have : (s.watches k ++ [cid] ++ rest).Perm (s.watches k ++ cid :: rest) := by simp
        exact this.nodup_iff.2 hk0
      · rw [List.nodup_append] at hk0 ⊢
        refine ⟨hk0.1, (List.nodup_cons.1 hk0.2.1).2, fun x hx y hy => hk0.2.2 x hx y (by simp [hy])⟩
    · simp only [hkl, if_false, List.append_nil] at hk0 ⊢
      split
      · rename_i h
        rw [← h]
        rw [List.nodup_append]
        refine ⟨hk0, by simp, ?_⟩
        intro x hx y hy e
        simp only [List.mem_singleton] at hy
        subst hy; subst e
        rw [hcid k hkl] at hx
        have : w = other := by omega
        rcases hww with hww | hww
        · omega
        · rcases ho with ⟨h1, h2⟩ | ⟨h1, h2⟩
          · exact hnd'.2.2 (by rw [← h2, ← this]; exact hww)
          · exact hnd'.2.1 (by rw [← h2, ← this]; exact hww)
      · exact hk0
  · intro k c
    show _ ↔ c ∈ s.clauses ∧ _
    simp only [rewatched_watches, rewatched_litsOf, List.mem_append]
    by_cases hcc : c = cid
    · subst hcc
      simp only [if_true, hc, true_and]
      have hR : (∃ a_1 b_1 r_1, other :: w :: r' = a_1 :: b_1 :: r_1 ∧ (k = -a_1 ∨ k = -b_1)) ↔ (k = -other ∨ k = -w) := by
        constructor
        · rintro ⟨a', b', r'', e, h⟩
          simp only [List.cons.injEq] at e
          obtain ⟨rfl, rfl, rfl⟩ := e
          exact h
        · intro h; exact ⟨_, _, _, rfl, h⟩
      rw [hR]
      by_cases hkl : k = lit
      · subst hkl
        simp only [if_true, hcl.2, or_false]
        split
        · rename_i h; simp [← h]
        · rename_i h
          have h1 : k ≠ -other := by omega
          simp [hcl.1, h1, h]
      · simp only [hkl, if_false, List.not_mem_nil, or_false]
        split
        · rename_i h; simp [← h]
        · rename_i h; rw [hcid k hkl]; simp [h]
    · simp only [hcc, if_false]
      have := hw.iff k c
      rw [← this]
      simp only [List.mem_append]
      have e1 : (c ∈ if k = -w then s.watches (-w) ++ [cid] else s.watches k) ↔ c ∈ s.watches k := by
        split
        · rename_i h; subst h; simp [hcc]
        · rfl
      rw [e1]
      split
      · simp [hcc]
      · simp

theorem Loop.head {R F U D} {lit : Int} {cid : Nat} {rest : List Nat} {s : Solver} (h : Loop R F U D lit (cid :: rest) s) :
    cid ∈ s.clauses ∧ ∃ a b r, s.litsOf cid = a :: b :: r ∧ (a = -lit ∨ b = -lit) := by
  have := (h.wid.iff lit cid).1 (by simp)
  obtain ⟨h1, a, b, r, h2, h3⟩ := this
  exact ⟨h1, a, b, r, h2, by omega⟩

theorem Loop.wok_rest {R F U D} {lit : Int} {cid : Nat} {rest : List Nat} {s : Solver} (h : Loop R F U D lit (cid :: rest) s)
    {c : Nat} (hc : c ∈ s.clauses) (hne : c ≠ cid) {a b : Int} {r : List Int} (hl : s.litsOf c = a :: b :: r) :
    WOk R s (fun cid k => k ∈ s.propQueue ∨ (k = lit ∧ cid ∈ rest)) c a b ∧
    WOk R s (fun cid k => k ∈ s.propQueue ∨ (k = lit ∧ cid ∈ rest)) c b a := by
  obtain ⟨h1, h2⟩ := h.wv c hc a b r hl
  constructor
  · intro hx
    rcases h1 hx with (h3 | ⟨h3, h4⟩) | h3
    · exact Or.inl (Or.inl h3)
    · exact Or.inl (Or.inr ⟨h3, by simpa [hne] using h4⟩)
    · exact Or.inr h3
  · intro hx
    rcases h2 hx with (h3 | ⟨h3, h4⟩) | h3
    · exact Or.inl (Or.inl h3)
    · exact Or.inl (Or.inr ⟨h3, by simpa [hne] using h4⟩)
    · exact Or.inr h3

/-- a turn of the inner loop that finds no unit information -/
theorem loop_step_none {R F U D} {lit : Int} {cid : Nat} {rest : List Nat} {s : Solver}
    (h : Loop R F U D lit (cid :: rest) s) {a b : Int} {r : List Int} (hlits : s.litsOf cid = a :: b :: r)
    {other w : Int} {r' : List Int} (hp : (other :: w :: r').Perm (a :: b :: r))
    (ho : (a = -lit ∧ other = b) ∨ (b = -lit ∧ other = a))
    (hcase : (w = -lit ∧ s.val other = some true) ∨ (w ∈ r ∧ s.val w ≠ some false)) :
    Loop R F U D lit rest (s.rewatched cid (other :: w :: r') (-w)) := by
  have hc := h.head.1
  have hp' : (other :: w :: r').Perm (s.litsOf cid) := by rw [hlits]; exact hp
  have hnl : -lit ∉ s.trail := h.base.cons h.lt
  refine ⟨rewatched_base h.base hp', h.limS, rewatched_units h.units, rewatched_cseen h.cs hp',
    rewatched_widx h.wid hlits (h.base.cnd cid hc) hc ho (hcase.imp And.left And.left), ?_, h.q, h.lt, h.ll⟩
  intro c hcc x y z hl
  by_cases hne : c = cid
  · subst hne
    rw [rewatched_litsOf, if_pos rfl] at hl
    simp only [List.cons.injEq] at hl
    obtain ⟨rfl, rfl, rfl⟩ := hl
    have hwo := h.wv c hc a b r hlits
    rcases hcase with ⟨rfl, hv⟩ | ⟨hwr, hv⟩
    · have ht := (h.base.vT _).1 hv
      refine ⟨fun hx => absurd hx (h.base.cons ht), fun _ => Or.inr ⟨ht, ?_⟩⟩
      show s.levels _ ≤ max (s.levels _) _
      rw [iabs_neg, h.ll]; exact Int.le_trans (h.base.levLe ht) (Int.le_max_left _ _)
    · refine ⟨fun hx => ?_, fun hx => absurd ((h.base.vF _).2 hx) hv⟩
      have hx : -other ∈ s.trail := hx
      left
      have hh : WOk R s (fun cid k => k ∈ s.propQueue ∨ (k = lit ∧ cid ∈ c :: rest)) c other (-lit) := by
        rcases ho with ⟨h1, h2⟩ | ⟨h1, h2⟩
        · rw [h2, ← h1]; exact hwo.2
        · rw [h2, ← h1]; exact hwo.1
      rcases hh hx with (h3 | ⟨h3, -⟩) | h3
      · exact Or.inl h3
      · exfalso
        have hnd := h.base.cnd c hc
        rw [hlits] at hnd
        simp only [List.nodup_cons, List.mem_cons, not_or] at hnd
        rcases ho with ⟨h1, h2⟩ | ⟨h1, h2⟩ <;> omega
      · exact absurd h3.1 hnl
  · rw [rewatched_litsOf, if_neg hne] at hl
    exact h.wok_rest hcc hne hl

/-- a turn of the inner loop that enqueues a unit literal -/
theorem loop_step_unit {R F U D} {lit : Int} {cid : Nat} {rest : List Nat} {s : Solver}
    (h : Loop R F U D lit (cid :: rest) s) {a b : Int} {r : List Int} (hlits : s.litsOf cid = a :: b :: r)
    {other : Int} (hp : (other :: -lit :: r).Perm (a :: b :: r))
    (ho : (a = -lit ∧ other = b) ∨ (b = -lit ∧ other = a))
    (hr : ∀ o ∈ r, s.val o = some false) (hv : s.val other = none) :
    Loop R F U D lit rest ((s.rewatched cid (other :: -lit :: r) (- -lit)).push other cid) ∧
    iabs other ∈ s.assignments.seen := by
  have hc := h.head.1
  have hp' : (other :: -lit :: r).Perm (s.litsOf cid) := by rw [hlits]; exact hp
  have hom : other ∈ s.litsOf cid := hp'.mem_iff.1 (by simp)
  have hb := rewatched_base (k := - -lit) h.base hp'
  have hv1 : (s.rewatched cid (other :: -lit :: r) (- -lit)).val other = none := hv
  have hosn := h.cs cid hc other hom
  have hnd : (other :: -lit :: r).Nodup := hp'.nodup_iff.2 (h.base.cnd cid hc)
  have hb2 := push_base (c := cid) hb hv1 (h.base.cnz cid hc other hom) (h.base.seenU _ hosn) (by
    right
    refine ⟨hc, ?_, ?_⟩
    · rw [rewatched_litsOf, if_pos rfl]; simp
    · intro x hx hxo
      rw [rewatched_litsOf, if_pos rfl] at hx
      show -x ∈ s.trail
      simp only [List.mem_cons] at hx
      rcases hx with hx | hx | hx
      · exact absurd hx hxo
      · subst hx; simpa using h.lt
      · exact (h.base.vF x).1 (hr x hx))
  have hu1 := rewatched_units (cid := cid) (x := other) (y := -lit) (r := r) (k := - -lit) h.units
  have hw := rewatched_widx h.wid hlits (h.base.cnd cid hc) hc ho (w := -lit) (r' := r) (Or.inl rfl)
  refine ⟨⟨hb2, ?_, ?_, ?_, ⟨hw.nd, hw.iff⟩, ?_, ?_, ?_, ?_⟩, hosn⟩
  · intro n hn
    have := h.limS n hn
    show n < (other :: s.trail).length
    simp; omega
  · intro c hcc l hl
    obtain ⟨h1, h2⟩ := hu1 c hcc l hl
    exact ⟨List.mem_cons_of_mem _ h1, by rw [push_levels hb hv1 h1]; exact h2⟩
  · intro c hcc l hl
    have := rewatched_cseen h.cs hp' (k := - -lit) c hcc l hl
    show iabs l ∈ (s.assignments.setItem (iabs other) (some (decide (0 < other)))).seen
    rw [ASet.setItem_seen]; exact Or.inr this
  · intro c hcc x y z hl
    have hl : (s.rewatched cid (other :: -lit :: r) (- -lit)).litsOf c = x :: y :: z := hl
    by_cases hne : c = cid
    · subst hne
      rw [rewatched_litsOf, if_pos rfl] at hl
      simp only [List.cons.injEq] at hl
      obtain ⟨rfl, rfl, rfl⟩ := hl
      refine ⟨fun hx => absurd hx (hb2.cons (List.mem_cons_self)), fun _ => Or.inr ⟨List.mem_cons_self, ?_⟩⟩
      rw [push_level_new, iabs_neg, push_levels hb hv1 h.lt]
      show (s.decisionLevel : Int) ≤ max (s.levels (iabs lit)) _
      rw [h.ll]; exact Int.le_max_left _ _
    · rw [rewatched_litsOf, if_neg hne] at hl
      have hh := h.wok_rest hcc hne hl
      have aux : ∀ {x y : Int}, WOk R s (fun cid k => k ∈ s.propQueue ∨ (k = lit ∧ cid ∈ rest)) c x y →
          WOk R ((s.rewatched cid (other :: -lit :: r) (- -lit)).push other cid)
            (fun c' k => k ∈ ((s.rewatched cid (other :: -lit :: r) (- -lit)).push other cid).propQueue ∨ (k = lit ∧ c' ∈ rest)) c x y := by
        intro x y hxy hx
        have hx : -x ∈ other :: s.trail := hx
        show (-x ∈ s.propQueue ++ [other] ∨ _) ∨ _
        rcases List.mem_cons.1 hx with hx | hx
        · left; left; rw [hx]; simp
        · rcases hxy hx with (h3 | h3) | h3
          · left; left; simp [h3]
          · exact Or.inl (Or.inr h3)
          · right
            refine ⟨List.mem_cons_of_mem _ h3.1, ?_⟩
            rw [push_levels hb hv1 h3.1, ← iabs_neg x, push_levels hb hv1 hx, iabs_neg]
            exact h3.2
      exact ⟨aux hh.1, aux hh.2⟩
  · intro k hk
    have hk : k ∈ s.propQueue ++ [other] := hk
    rcases List.mem_append.1 hk with hk | hk
    · obtain ⟨h1, h2⟩ := h.q k hk
      exact ⟨List.mem_cons_of_mem _ h1, by rw [push_levels hb hv1 h1]; exact h2⟩
    · simp only [List.mem_singleton] at hk
      subst hk
      exact ⟨List.mem_cons_self, push_level_new _ _ _⟩
  · exact List.mem_cons_of_mem _ h.lt
  · rw [push_levels hb hv1 h.lt]; exact h.ll

/-- a turn of the inner loop that finds a conflict -/
theorem loop_step_conf {R F U D} {lit : Int} {cid : Nat} {rest : List Nat} {s : Solver}
    (h : Loop R F U D lit (cid :: rest) s) {a b : Int} {r : List Int} (hlits : s.litsOf cid = a :: b :: r)
    {other : Int} (hp : (other :: -lit :: r).Perm (a :: b :: r))
    (ho : (a = -lit ∧ other = b) ∨ (b = -lit ∧ other = a))
    (hr : ∀ o ∈ r, s.val o = some false) (hv : s.val other = some false) :
    Conf R F U D cid
      { s.rewatched cid (other :: -lit :: r) (- -lit) with
        propQueue := []
        watches := fset (s.rewatched cid (other :: -lit :: r) (- -lit)).watches lit
          ((s.rewatched cid (other :: -lit :: r) (- -lit)).watches lit ++ rest.reverse) } := by
  have hc := h.head.1
  have hp' : (other :: -lit :: r).Perm (s.litsOf cid) := by rw [hlits]; exact hp
  have hb := rewatched_base (k := - -lit) h.base hp'
  have hnl : -lit ∉ s.trail := h.base.cons h.lt
  have hu1 := rewatched_units (cid := cid) (x := other) (y := -lit) (r := r) (k := - -lit) h.units
  have hw := rewatched_widx h.wid hlits (h.base.cnd cid hc) hc ho (w := -lit) (r' := r) (Or.inl rfl)
  have hlo : ∀ c, (s.rewatched cid (other :: -lit :: r) (- -lit)).litsOf c = if c = cid then other :: -lit :: r else s.litsOf c :=
    rewatched_litsOf _ _ _ _
  generalize hs1 : s.rewatched cid (other :: -lit :: r) (- -lit) = s1 at *
  have e1 : s1.trail = s.trail := by rw [← hs1]; rfl
  have e2 : s1.levels = s.levels := by rw [← hs1]; rfl
  have e3 : s1.trailLim = s.trailLim := by rw [← hs1]; rfl
  have e4 : s1.clauses = s.clauses := by rw [← hs1]; rfl
  have e5 : s1.assignments = s.assignments := by rw [← hs1]; rfl
  have hm : ∀ l ∈ s1.litsOf cid, -l ∈ s.trail := by
    intro l hl
    rw [hlo, if_pos rfl] at hl
    simp only [List.mem_cons] at hl
    rcases hl with rfl | rfl | hl
    · exact (h.base.vF _).1 hv
    · simpa using h.lt
    · exact (h.base.vF _).1 (hr l hl)
  refine ⟨hb.congr rfl rfl rfl rfl rfl rfl rfl rfl, ?_, ?_, ?_, ?_, ?_, rfl, ?_, ?_, ?_⟩
  · show ∀ n ∈ s1.trailLim, n < s1.trail.length
    rw [e1, e3]; exact h.limS
  · exact hu1
  · intro c hcc l hl
    show iabs l ∈ s1.assignments.seen
    rw [e5]
    have hcc : c ∈ s1.clauses := hcc
    rw [e4] at hcc
    have hl : l ∈ s1.litsOf c := hl
    rw [← hs1] at hl
    exact rewatched_cseen h.cs hp' (k := - -lit) c hcc l hl
  · have hmem : ∀ k c, c ∈ fset s1.watches lit (s1.watches lit ++ rest.reverse) k ↔
        c ∈ s1.watches k ++ if k = lit then rest else [] := by
      intro k c; unfold fset
      by_cases hk : k = lit
      · subst hk; simp
      · simp [hk]
    constructor
    · intro k
      show (fset s1.watches lit (s1.watches lit ++ rest.reverse) k).Nodup
      have := hw.nd k
      unfold fset
      by_cases hk : k = lit
      · subst hk
        simp only [if_true] at this ⊢
        have hpp : (s1.watches k ++ rest.reverse).Perm (s1.watches k ++ rest) :=
          (List.reverse_perm rest).append_left _
        exact hpp.nodup_iff.2 this
      · simpa [hk] using this
    · intro k c
      show c ∈ fset s1.watches lit (s1.watches lit ++ rest.reverse) k ↔ _
      rw [hmem]; exact hw.iff k c
  · have aux : ∀ {c : Nat} {x y : Int}, WOk R s (fun c' k => k ∈ s.propQueue ∨ (k = lit ∧ c' ∈ cid :: rest)) c x y →
        WOk R s1 (fun _ k => s1.levels (iabs k) = (s1.decisionLevel : Int)) c x y := by
      intro c x y hxy hx
      rw [e1] at hx
      have ed : s1.decisionLevel = s.decisionLevel := by unfold decisionLevel; rw [e3]
      rw [e1, e2, ed]
      rcases hxy hx with (h3 | ⟨h3, -⟩) | h3
      · exact Or.inl (h.q _ h3).2
      · left; simp only; rw [h3]; exact h.ll
      · exact Or.inr h3
    intro c hcc x y z hl
    have hcc : c ∈ s1.clauses := hcc
    rw [e4] at hcc
    have hl : s1.litsOf c = x :: y :: z := hl
    show WOk R s1 (fun _ k => s1.levels (iabs k) = (s1.decisionLevel : Int)) c x y ∧
      WOk R s1 (fun _ k => s1.levels (iabs k) = (s1.decisionLevel : Int)) c y x
    by_cases hne : c = cid
    · subst hne
      rw [hlo, if_pos rfl] at hl
      simp only [List.cons.injEq] at hl
      obtain ⟨rfl, rfl, rfl⟩ := hl
      have hwo := h.wv c hc a b r hlits
      constructor
      · rcases ho with ⟨h1, h2⟩ | ⟨h1, h2⟩
        · rw [h2, ← h1]; exact aux hwo.2
        · rw [h2, ← h1]; exact aux hwo.1
      · intro _
        left
        simp only [iabs_neg]
        have ed : s1.decisionLevel = s.decisionLevel := by unfold decisionLevel; rw [e3]
        rw [e2, ed, h.ll]
    · rw [hlo, if_neg hne] at hl
      have hh := h.wv c hcc x y z hl
      exact ⟨aux hh.1, aux hh.2⟩
  · show cid ∈ s1.clauses
    rw [e4]; exact hc
  · intro l hl
    show -l ∈ s1.trail
    rw [e1]; exact hm l hl
  · refine ⟨-lit, ?_, ?_⟩
    · show -lit ∈ s1.litsOf cid
      rw [hlo, if_pos rfl]; simp
    · show s1.levels (iabs (-lit)) = (s1.decisionLevel : Int)
      have ed : s1.decisionLevel = s.decisionLevel := by unfold decisionLevel; rw [e3]
      rw [iabs_neg, e2, ed, h.ll]

theorem propClauses_spec {R F U D} {lit : Int} (pend : List Nat) {s : Solver} (h : Loop R F U D lit pend s) :
    ∃ s' r, propClauses lit pend s = .ok (s', r) ∧ Ext s s' ∧
      (r = none → Loop R F U D lit [] s' ∧
        s'.propQueue.length + s.trail.length = s.propQueue.length + s'.trail.length) ∧
      (∀ cid, r = some cid → Conf R F U D cid s') := by
  induction pend generalizing s with
  | nil => exact ⟨s, none, rfl, Ext.refl s, fun _ => ⟨h, rfl⟩, by simp⟩
  | cons cid rest ih =>
    obtain ⟨hc, a, b, r, hlits, hab⟩ := h.head
    obtain ⟨other, w, r', u, hrw, hperm, ho, hcase⟩ := rewatch_spec s.val (r := r) hab
    simp only [propClauses, hlits, hrw]
    have hp' : (other :: w :: r').Perm (s.litsOf cid) := by rw [hlits]; exact hperm
    have hE : Ext s (s.rewatched cid (other :: w :: r') (-w)) := rewatched_ext hp'
    have stepNone : ((w = -lit ∧ s.val other = some true) ∨ (w ∈ r ∧ s.val w ≠ some false)) → u = none →
        ∃ s' r_1, (match u with
          | none => propClauses lit rest (s.rewatched cid (other :: w :: r') (-w))
          | some u =>
            if (s.rewatched cid (other :: w :: r') (-w)).val u = some false then
              .ok ({ s.rewatched cid (other :: w :: r') (-w) with
                propQueue := []
                watches := fset (s.rewatched cid (other :: w :: r') (-w)).watches lit
                  ((s.rewatched cid (other :: w :: r') (-w)).watches lit ++ rest.reverse) }, some cid)
            else propClauses lit rest ((s.rewatched cid (other :: w :: r') (-w)).enqueue u cid).1)
            = .ok (s', r_1) ∧ Ext s s' ∧
          (r_1 = none → Loop R F U D lit [] s' ∧
            s'.propQueue.length + s.trail.length = s.propQueue.length + s'.trail.length) ∧
          (∀ cid, r_1 = some cid → Conf R F U D cid s') := by
      intro hcs hu
      subst hu
      have hL := loop_step_none h hlits hperm ho hcs
      obtain ⟨s', r2, h1, h2, h3, h4⟩ := ih hL
      exact ⟨s', r2, h1, hE.trans h2, h3, h4⟩
    rcases hcase with ⟨hw, hv, hu⟩ | ⟨hw, hv, hu⟩ | ⟨hw, hr', hr, hv, hu⟩
    · exact stepNone (Or.inl ⟨hw, hv⟩) hu
    · exact stepNone (Or.inr ⟨hw, hv⟩) hu
    · subst hw hr' hu
      show ∃ s' r_1, (if (s.rewatched cid (other :: -lit :: r') (- -lit)).val other = some false then
          .ok ({ s.rewatched cid (other :: -lit :: r') (- -lit) with
            propQueue := []
            watches := fset (s.rewatched cid (other :: -lit :: r') (- -lit)).watches lit
              ((s.rewatched cid (other :: -lit :: r') (- -lit)).watches lit ++ rest.reverse) }, some cid)
        else propClauses lit rest ((s.rewatched cid (other :: -lit :: r') (- -lit)).enqueue other cid).1)
          = .ok (s', r_1) ∧ _
      have hve : (s.rewatched cid (other :: -lit :: r') (- -lit)).val other = s.val other := rfl
      by_cases hvf : s.val other = some false
      · rw [if_pos (by rw [hve]; exact hvf)]
        have hC := loop_step_conf h hlits hperm ho hr hvf
        refine ⟨_, some cid, rfl, ?_, by simp, ?_⟩
        · exact ⟨hE.trail, hE.lim, hE.clauses, hE.nextId, hE.seen, hE.ct, hE.lits, hE.learned, hE.rule⟩
        · intro cid' hcid'
          simp only [Option.some.injEq] at hcid'
          subst hcid'
          exact hC
      · have hvn : s.val other = none := by
          cases hvv : s.val other with
          | none => rfl
          | some b => cases b <;> simp_all
        rw [if_neg (by rw [hve]; exact hvf)]
        have hen : ((s.rewatched cid (other :: -lit :: r') (- -lit)).enqueue other cid).1 =
            (s.rewatched cid (other :: -lit :: r') (- -lit)).push other cid := by
          unfold enqueue; rw [hve, hvn]
        rw [hen]
        obtain ⟨hL, hsn⟩ := loop_step_unit h hlits hperm ho hr hvn
        obtain ⟨s', r2, h1, h2, h3, h4⟩ := ih hL
        have hE2 : Ext s ((s.rewatched cid (other :: -lit :: r') (- -lit)).push other cid) :=
          hE.trans (push_ext hsn)
        refine ⟨s', r2, h1, hE2.trans h2, ?_, h4⟩
        intro hr2
        obtain ⟨h5, h6⟩ := h3 hr2
        refine ⟨h5, ?_⟩
        have e1 : ((s.rewatched cid (other :: -lit :: r') (- -lit)).push other cid).propQueue.length = s.propQueue.length + 1 := by
          show (s.propQueue ++ [other]).length = _
          simp
        have e2 : ((s.rewatched cid (other :: -lit :: r') (- -lit)).push other cid).trail.length = s.trail.length + 1 := rfl
        rw [e1, e2] at h6
        omega

theorem Base.trail_le_seen {F U D} {s : Solver} (h : Base F U D s) : s.trail.length ≤ s.assignments.seen.length := by
  have : s.trail.map iabs ⊆ s.assignments.seen := by
    intro v hv
    obtain ⟨l, hl, rfl⟩ := List.mem_map.1 hv
    exact h.trailSeen hl
  have := (List.subperm_of_subset h.tnd this).length_le
  simpa using this

/-- Unit propagation never fails, keeps the invariant, and ends with an empty queue or a false clause. -/
theorem propagate_spec {R F U D} (fuel : Nat) {s : Solver} (h : Inv R F U D s)
    (hf : s.propQueue.length + (s.assignments.seen.length - s.trail.length) ≤ fuel) :
    ∃ s' r, propagate fuel s = .ok (s', r) ∧ Ext s s' ∧
      (r = none → Inv R F U D s' ∧ s'.propQueue = []) ∧ (∀ cid, r = some cid → Conf R F U D cid s') := by
  induction fuel generalizing s with
  | zero =>
    have hq : s.propQueue = [] := by
      cases hq : s.propQueue with
      | nil => rfl
      | cons a b => rw [hq] at hf; simp at hf
    exact ⟨s, none, by unfold propagate; rw [hq], Ext.refl s, fun _ => ⟨h, hq⟩, by simp⟩
  | succ fuel ih =>
    cases hq : s.propQueue with
    | nil => exact ⟨s, none, by unfold propagate; rw [hq], Ext.refl s, fun _ => ⟨h, hq⟩, by simp⟩
    | cons lit queue =>
      have hL : Loop R F U D lit (s.watches lit).reverse { s with propQueue := queue, watches := fset s.watches lit [] } := by
        have hqq := h.q
        rw [hq] at hqq
        refine ⟨h.base.congr rfl rfl rfl rfl rfl rfl rfl rfl, h.limS, h.units, h.cs, ?_, ?_, ?_, (hqq lit (by simp)).1, (hqq lit (by simp)).2⟩
        · constructor
          · intro k
            show (fset s.watches lit [] k ++ if k = lit then (s.watches lit).reverse else []).Nodup
            unfold fset
            have := h.wid.nd k
            by_cases hk : k = lit
            · subst hk; simpa using (List.reverse_perm _).nodup_iff.2 this
            · simpa [hk] using this
          · intro k c
            refine Iff.trans ?_ (h.wid.iff k c)
            show c ∈ (fset s.watches lit [] k ++ if k = lit then (s.watches lit).reverse else []) ↔ _
            unfold fset
            by_cases hk : k = lit
            · subst hk; simp
            · simp [hk]
        · intro c hc x y z hl
          have hh := h.wv c hc x y z hl
          have aux : ∀ {x y}, (x ∈ s.litsOf c ∧ c ∈ s.watches (-x)) → WOk R s (fun _ k => k ∈ s.propQueue) c x y →
            WOk R { s with propQueue := queue, watches := fset s.watches lit [] }
              (fun c k => k ∈ queue ∨ (k = lit ∧ c ∈ (s.watches lit).reverse)) c x y := by
            intro x y hxw hxy hx
            rcases hxy hx with h3 | h3
            · simp only [hq, List.mem_cons] at h3
              rcases h3 with h3 | h3
              · left; right; refine ⟨h3, ?_⟩; rw [← h3]; simpa using hxw.2
              · exact Or.inl (Or.inl h3)
            · exact Or.inr h3
          have hl' : s.litsOf c = x :: y :: z := hl
          exact ⟨aux ⟨by rw [hl']; simp, (h.wid.iff _ _).2 ⟨hc, x, y, z, hl, Or.inl rfl⟩⟩ hh.1,
            aux ⟨by rw [hl']; simp, (h.wid.iff _ _).2 ⟨hc, x, y, z, hl, Or.inr rfl⟩⟩ hh.2⟩
        · intro k hk; exact hqq k (List.mem_cons_of_mem _ hk)
      obtain ⟨s', r, h1, h2, h3, h4⟩ := propClauses_spec _ hL
      unfold propagate
      rw [hq]
      simp only [h1]
      have hE : Ext s s' := ⟨h2.trail, h2.lim, h2.clauses, h2.nextId, h2.seen, h2.ct, h2.lits, h2.learned, h2.rule⟩
      cases r with
      | some cid => exact ⟨s', some cid, rfl, hE, by simp, h4⟩
      | none =>
        obtain ⟨h5, h6⟩ := h3 rfl
        have hI : Inv R F U D s' := by
          have hw := h5.wid
          refine ⟨h5.base, h5.limS, h5.units, h5.cs, ⟨?_, ?_⟩, ?_, h5.q⟩
          · intro k; have := hw.nd k; simpa using this
          · intro k c; have := hw.iff k c; simpa using this
          · intro c hc x y z hl
            have := h5.wv c hc x y z hl
            simpa using this
        have hlen := hI.base.trail_le_seen
        obtain ⟨s2, r2, g1, g2, g3, g4⟩ := ih hI (by
          rw [hq] at hf
          have e1 : s'.assignments.seen = s.assignments.seen := hE.seen
          have e2 : s.trail.length ≤ s'.trail.length := hE.trail.length_le
          simp only [List.length_cons] at hf
          simp only at h6
          rw [e1] at hlen ⊢
          omega)
        exact ⟨s2, r2, g1, hE.trans g2, g3, g4⟩

end Solver
end Verif.Sat
