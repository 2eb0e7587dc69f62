import Verif.Sat.Record
/-
The search loop: one conflict, one decision, termination, and the main theorem about `search`.
-/
namespace Verif.Sat
open Verif

/-- What the solver needs from a decision policy. `V` are the variables of the rules, `U ⊇ V` a finite set
of variables that the policy may propose, `D p t` what it guarantees about a decision `p` taken when the literals
`t` are true, `PI` an invariant of its own state. The policy is asked only when some known variable is
undecided, with the clauses of the solver, whose variables are in `U` and include all of `V`. -/
structure Policy.OK {σ : Type} (pol : Policy σ) (U V : List Int) (D : Int → List Int → Prop) (PI : σ → Prop) : Prop where
  step : ∀ ps a cs t, PI ps → a.WF → (∀ l, a.value l = some true ↔ l ∈ t) →
    (∀ v ∈ a.seen, v ∈ U) → (∀ c ∈ cs, ∀ l ∈ c.lits, l ≠ 0 ∧ iabs l ∈ U) →
    (∀ v ∈ V, ∃ c ∈ cs, ∃ l ∈ c.lits, iabs l = v) →
    (∃ v ∈ a.seen, a.value v = none) →
    ∃ ps' a' p, pol.next ps a cs = .ok (ps', a', p) ∧ PI ps' ∧ ASet.Same a a' ∧ p ≠ 0 ∧ a.value p = none ∧
      iabs p ∈ U ∧ D p t

namespace Solver

theorem Base.asg {F U D} {s : Solver} (h : Base F U D s) {a : ASet} (ha : a.WF) (hd : a.data = s.assignments.data)
    (hs : ∀ v ∈ a.seen, v ∈ U) : Base F U D { s with assignments := a } :=
  ⟨ha, fun l => by rw [← h.vT]; unfold val ASet.value; rw [hd], h.tnz, h.tnd, hs, h.limP, h.limLe, h.lev, h.reas, h.h0,
   h.npos, h.idr, h.cnd, h.cne, h.cnz, h.cU, h.cent⟩

theorem Inv.asg {R F U D} {s : Solver} (h : Inv R F U D s) {a : ASet} (ha : ASet.Same s.assignments a) :
    Inv R F U D { s with assignments := a } := by
  refine ⟨h.base.asg (h.base.aset.same ha) ha.data (by rw [ha.seen]; exact h.base.seenU), h.limS, h.units, ?_,
    ⟨h.wid.nd, h.wid.iff⟩, h.wv, h.q⟩
  intro c hc l hl
  show iabs l ∈ a.seen
  rw [ha.seen]; exact h.cs c hc l hl

/-- weight of one literal of the trail -/
def wt (n : Nat) (s : Solver) (p : Int) : Nat := (n + 1) ^ (n - (s.levels (iabs p)).toNat)

/-- weight of the trail: increases with every turn of the search loop -/
def weight (n : Nat) (s : Solver) : Nat := (s.trail.map (wt n s)).sum

theorem sum_le_of_forall (l : List Int) (f : Int → Nat) (b : Nat) (h : ∀ x ∈ l, f x ≤ b) :
    (l.map f).sum ≤ l.length * b := by
  induction l with
  | nil => simp
  | cons x l ih =>
    have h1 := h x (by simp)
    have h2 := ih (fun y hy => h y (by simp [hy]))
    simp only [List.map_cons, List.sum_cons, List.length_cons]
    rw [Nat.add_mul]; omega

theorem Base.trail_le_U {F U D} {s : Solver} (h : Base F U D s) : s.trail.length ≤ U.length := by
  have : s.trail.map iabs ⊆ U := by
    intro v hv
    obtain ⟨l, hl, rfl⟩ := List.mem_map.1 hv
    exact h.trailU hl
  have := (List.subperm_of_subset h.tnd this).length_le
  simpa using this

theorem weight_le {F U D} {s : Solver} (h : Base F U D s) :
    weight U.length s ≤ U.length * (U.length + 1) ^ U.length := by
  have h1 := sum_le_of_forall s.trail (wt U.length s) ((U.length + 1) ^ U.length) (by
    intro x _
    unfold wt
    exact Nat.pow_le_pow_right (by omega) (by omega))
  have h2 := h.trail_le_U
  exact Nat.le_trans h1 (Nat.mul_le_mul_right _ h2)

theorem lim_length_le (lim : List Nat) (L : Nat) (hp : lim.Pairwise (· > ·)) (hl : ∀ n ∈ lim, n < L) :
    lim.length ≤ L := by
  induction lim generalizing L with
  | nil => simp
  | cons n lim ih =>
    rw [List.pairwise_cons] at hp
    have := ih n hp.2 (fun m hm => hp.1 m hm)
    have := hl n (by simp)
    simp only [List.length_cons]; omega

theorem weight_ext {F U D} {n : Nat} {s s' : Solver} (h : Base F U D s) (h' : Base F U D s') (hE : Ext s s') :
    weight n s ≤ weight n s' := by
  obtain ⟨pre, hpre⟩ := hE.trail
  unfold weight
  rw [← hpre, List.map_append, List.sum_append]
  have : s.trail.map (wt n s) = s.trail.map (wt n s') := by
    apply List.map_congr_left
    intro p hp
    obtain ⟨r, hr⟩ := mem_suffix hp
    unfold wt
    rw [h.lev p r hr, h'.lev p r (hr.trans hE.trail), hE.lim]
  rw [this]; omega

/-- state after the last two lines of `analyze`: the learned clause object is on the heap -/
def learn (s : Solver) (lits : List Int) (ct : List Nat) : Solver :=
  { s with
    heap := fset s.heap s.nextId (Clause.new lits true none)
    nextId := s.nextId + 1
    clauseTrails := s.clauseTrails ++ [(s.nextId, ct)] }

/-- `s'` has one clause more than `s`, a learned one. Its literals are `x`, which has just become true, and literals that are
false in `s'`; in `s` all of them were false. No clause of `s` has only literals of the new one. -/
structure Learnt (s s' : Solver) : Prop where
  new : ∃ cid x ls, s'.clauses = s.clauses ++ [cid] ∧ cid ∉ s.clauses ∧ (s'.heap cid).learned = true ∧
    (s'.litsOf cid).Perm (ls ++ [x]) ∧ s'.trail.head? = some x ∧ (∀ l ∈ ls, -l ∈ s'.trail) ∧
    (∀ l ∈ ls ++ [x], -l ∈ s.trail) ∧ ∀ c ∈ s.clauses, ∃ l ∈ s.litsOf c, l ∉ ls ++ [x]
  lits : ∀ c ∈ s.clauses, (s'.litsOf c).Perm (s.litsOf c) ∧ (s'.heap c).learned = (s.heap c).learned

/-- just before `record`, no clause has only literals of the clause to be recorded -/
theorem PreRecord.fresh {R F U D} {cid : Nat} {ls : List Int} {x : Int} {s : Solver} (h : PreRecord R F U D cid ls x s)
    {c : Nat} (hc : c ∈ s.clauses) : ∃ l ∈ s.litsOf c, l ∉ ls ++ [x] := by
  apply Classical.byContradiction
  intro hno
  have hsub : ∀ l ∈ s.litsOf c, l ∈ ls ++ [x] := by
    intro l hl
    apply Classical.byContradiction
    exact fun hn => hno ⟨l, hl, hn⟩
  have hx := (h.base.vN x).1 h.xv
  have hnt : ∀ l ∈ ls ++ [x], l ∉ s.trail := by
    intro l hl ht
    rcases List.mem_append.1 hl with hl | hl
    · exact h.base.cons ht (h.fls l hl)
    · simp only [List.mem_singleton] at hl; subst hl; exact hx.1 ht
  rcases hlits : s.litsOf c with _ | ⟨a, _ | ⟨b, r⟩⟩
  · exact h.base.cne c hc hlits
  · exact hnt a (hsub a (by rw [hlits]; simp)) (h.units c hc a hlits).1
  · have ha := hsub a (by rw [hlits]; simp)
    have hb := hsub b (by rw [hlits]; simp)
    obtain ⟨w1, w2⟩ := h.wv c hc a b r hlits
    have hab : a ≠ b := by
      have := h.base.cnd c hc
      rw [hlits] at this
      simp only [List.nodup_cons, List.mem_cons, not_or] at this
      exact this.1.1
    have hno : ∀ y z, y ∈ ls ++ [x] → z ∈ ls ++ [x] → WOk R s (fun _ _ => False) c y z → y ∉ ls := by
      intro y z _ hz w hy
      rcases w (h.fls y hy) with e | ⟨e, -⟩
      · exact e
      · exact hnt z hz e
    have h1 := hno a b ha hb w1
    have h2 := hno b a hb ha w2
    simp only [List.mem_append, List.mem_singleton] at ha hb
    rcases ha with ha | ha
    · exact h1 ha
    rcases hb with hb | hb
    · exact h2 hb
    exact hab (ha.trans hb.symm)

/-- What was on the trail of `s0`, with all its decisions, is still there in `s`, at level `R` at most. -/
structure KeptTrail (R : Nat) (s0 s : Solver) : Prop where
  trail : s0.trail <:+ s.trail
  lim : s0.trailLim <:+ s.trailLim
  lev : ∀ p ∈ s0.trail, s.levels (iabs p) ≤ (R : Int)
  dl : s0.decisionLevel = R

theorem KeptTrail.le {R : Nat} {s0 s : Solver} (h : KeptTrail R s0 s) : R ≤ s.decisionLevel := by
  have := h.lim.length_le
  have := h.dl
  unfold decisionLevel at *
  omega

theorem undoN_trailLim (n : Nat) (s : Solver) : (undoN n s).trailLim = s.trailLim := by
  induction n generalizing s with
  | zero => rfl
  | succ n ih =>
    show (undoN n s.undoOne).trailLim = _
    rw [ih]
    unfold undoOne
    split <;> rfl

theorem cancelN_lim_suffix (n : Nat) (s : Solver) : (cancelN n s).trailLim <:+ s.trailLim := by
  induction n generalizing s with
  | zero => exact List.suffix_rfl
  | succ n ih =>
    refine (ih s.cancel).trans ?_
    unfold cancel
    cases h : s.trailLim with
    | nil => simp only; rw [h]; exact List.suffix_rfl
    | cons m lim => simp only; rw [undoN_trailLim]; exact List.suffix_cons m lim

/-- effect of a conflict above the level at which the search began: analyze, backtrack, record -/
theorem conflict_step {R F U D} {s : Solver} {conflict : Nat} (h : Conf R F U D conflict s)
    (hdl : R < s.decisionLevel) (hcov : Covers F s) :
    ∃ s2 learned bt s4, s.analyze conflict = .ok (s2, learned, bt) ∧ s2.decisionLevel = s.decisionLevel ∧
      (s2.cancelUntil (max bt (R : Int))).record learned = .ok s4 ∧
      Inv R F U D s4 ∧ Covers F s4 ∧ weight U.length s + 1 ≤ weight U.length s4 ∧ Learnt s s4 ∧
      ∀ s0, KeptTrail R s0 s → KeptTrail R s0 s4 := by
  obtain ⟨s1, a, p, ct, hA, hO⟩ := analyze_spec h
  have hb := h.base
  -- the literal p
  have hpt : p ∈ s.trail := suffix_mem hO.psuf
  have hp0 : p ≠ 0 := hb.tnz p hpt
  have hpn : p ∉ s1.trail ∧ -p ∉ s1.trail := by
    have hnd := hb.tnd
    obtain ⟨pre, hpre⟩ := hO.psuf
    rw [← hpre, List.map_append, List.map_cons, List.nodup_append, List.nodup_cons] at hnd
    have hm := hnd.2.1.1
    constructor
    · intro hh; exact hm (List.mem_map_of_mem hh)
    · intro hh; apply hm; rw [← iabs_neg]; exact List.mem_map_of_mem hh
  have hd1 : s1.decisionLevel = s.decisionLevel := Undone.dl hO.lim
  have hlv : ∀ l ∈ a.learned, 0 ≤ s1.levels (iabs l) ∧ s1.levels (iabs l) < (s.decisionLevel : Int) := by
    intro l hl
    obtain ⟨g1, g2, -⟩ := hO.lrn l hl
    have g3 := hO.base.levLe g1
    have g4 := hO.base.levNonneg g1
    rw [iabs_neg] at g3 g4
    rw [hd1] at g3
    exact ⟨g4, by omega⟩
  have hbt : a.btlevel < (s.decisionLevel : Int) := by
    rcases hO.bt with e | ⟨l, hl, e⟩
    · rw [e]; omega
    · rw [← e]; exact (hlv l hl).2
  have hbt0 := hO.bt0
  have hnd : (a.learned ++ [-p]).Nodup := by
    rw [List.nodup_append]
    refine ⟨hO.nd, by simp, ?_⟩
    intro x hx y hy e
    simp only [List.mem_singleton] at hy
    subst hy; subst e
    have := (hlv _ hx).1
    rw [iabs_neg, hO.pgone] at this
    omega
  have hfk : fromkeys (a.learned ++ [-p]) = a.learned ++ [-p] := fromkeys_of_nodup _ hnd
  have hidn : s1.nextId ∉ s1.clauses := fun hc => by have := hO.base.idr _ hc; omega
  have hid0 := hO.base.npos
  -- state after `analyze`
  have hs2b : Base F U D (learn s1 (a.learned ++ [-p]) ct) :=
    (heapOther_base hO.base (Clause.new (a.learned ++ [-p]) true none) hidn (by omega) (n := s1.nextId + 1) (by omega)).congr
      rfl rfl rfl rfl rfl rfl rfl rfl
  have hAn : s.analyze conflict = .ok (learn s1 (a.learned ++ [-p]) ct, s1.nextId, a.btlevel) := by
    unfold analyze; rw [hA]; rfl
  generalize hs2 : learn s1 (a.learned ++ [-p]) ct = s2 at *
  have f1 : s2.trail = s1.trail := by rw [← hs2]; rfl
  have f2 : s2.levels = s1.levels := by rw [← hs2]; rfl
  have f3 : s2.trailLim = s1.trailLim := by rw [← hs2]; rfl
  have f4 : s2.clauses = s1.clauses := by rw [← hs2]; rfl
  have f5 : s2.assignments = s1.assignments := by rw [← hs2]; rfl
  have f6 : s2.propQueue = s1.propQueue := by rw [← hs2]; rfl
  have f7 : s2.watches = s1.watches := by rw [← hs2]; rfl
  have f8 : s2.nextId = s1.nextId + 1 := by rw [← hs2]; rfl
  have f9 : ∀ c, s2.litsOf c = if c = s1.nextId then a.learned ++ [-p] else s1.litsOf c := by
    intro c
    rw [← hs2]
    show (fset s1.heap s1.nextId (Clause.new (a.learned ++ [-p]) true none) c).lits = _
    unfold fset
    split
    · show fromkeys (a.learned ++ [-p]) = _
      exact hfk
    · rfl
  have hd2 : s2.decisionLevel = s.decisionLevel := by unfold decisionLevel; rw [f3]; exact hd1
  -- backtracking
  obtain ⟨k, hmax⟩ : ∃ k : Nat, max a.btlevel (R : Int) = (k : Int) := ⟨(max a.btlevel (R : Int)).toNat, by omega⟩
  obtain ⟨c1, c2, c3, c4, c5⟩ := cancelUntil_spec k hs2b (by omega)
  have c5 := c5 (by omega)
  generalize hs3 : s2.cancelUntil (k : Int) = s3 at *
  have g1 : s3.clauses = s.clauses := by rw [c2.clauses, f4, hO.und.clauses]
  have g2 : ∀ c ∈ s.clauses, s3.litsOf c = s.litsOf c := by
    intro c hc
    have e0 : s3.litsOf c = s2.litsOf c := by unfold litsOf; rw [c2.heap]
    rw [e0, f9, if_neg]
    · unfold litsOf; rw [hO.und.heap]
    · rintro rfl
      exact hidn (by rw [hO.und.clauses]; exact hc)
  have g3 : s3.litsOf s1.nextId = a.learned ++ [-p] := by
    have e0 : s3.litsOf s1.nextId = s2.litsOf s1.nextId := by unfold litsOf; rw [c2.heap]
    rw [e0, f9, if_pos rfl]
  have g4 : s3.watches = s.watches := by rw [c2.watches, f7, hO.und.watches]
  have g5 : s3.propQueue = [] := by rw [c2.queue, f6, hO.und.queue, h.q]
  have g6 : s3.trail <:+ s.trail := c2.trail.trans (by rw [f1]; exact hO.und.trail)
  have g7 : ∀ x ∈ s3.trail, s3.levels (iabs x) = s.levels (iabs x) := by
    intro x hx
    have hx2 : x ∈ s1.trail := by rw [← f1]; exact c2.trail.subset hx
    rw [c2.lev x hx, f2, hO.und.lev x hx2]
  have g8 : ∀ x, x ∈ s3.trail ↔ x ∈ s.trail ∧ s.levels (iabs x) ≤ (k : Int) := by
    intro x
    rw [c4, f1, f2]
    constructor
    · rintro ⟨k1, k2⟩; exact ⟨hO.und.trail.subset k1, by rw [hO.und.lev x k1] at k2; exact k2⟩
    · rintro ⟨k1, k2⟩
      -- x has a level below the current one, so it was not popped by analyze
      have : x ∈ s1.trail := by
        obtain ⟨r, hr⟩ := mem_suffix k1
        have hpos : r.length < s1.trail.length := by
          cases hlim : s.trailLim with
          | nil => unfold decisionLevel at hdl; rw [hlim] at hdl; simp at hdl
          | cons n lim =>
            have k3 := (hb.lev_lt_iff hlim hr).1 (by omega)
            have k4 := hO.base.limLe n (by rw [hO.lim, hlim]; simp)
            omega
        exact suffix_mem (suffix_pos hO.und.trail hr hpos)
      exact ⟨this, by rw [hO.und.lev x this]; exact k2⟩
  have g9 : ∀ v, v ∈ s3.assignments.seen ↔ v ∈ s.assignments.seen := by
    intro v; rw [c2.seen, f5, hO.und.seen]
  have g10 : ∀ l ∈ a.learned, -l ∈ s3.trail := by
    intro l hl
    obtain ⟨k1, k2, k3⟩ := hO.lrn l hl
    rw [c4, f1, f2]
    exact ⟨k1, by rw [iabs_neg]; omega⟩
  have hpre : PreRecord R F U D s1.nextId a.learned (-p) s3 := by
    refine ⟨c1, c5, ?_, ?_, ?_, ?_, g5, hid0, ?_, ?_, g3, hnd, ?_, by omega, ?_, ?_, g10, ?_, hO.ent⟩
    · intro c hc l hl
      rw [g1] at hc
      rw [g2 c hc] at hl
      obtain ⟨k1, k2⟩ := h.units c hc l hl
      have : l ∈ s3.trail := (g8 l).2 ⟨k1, by omega⟩
      exact ⟨this, by rw [g7 l this]; exact k2⟩
    · intro c hc l hl
      rw [g1] at hc
      rw [g2 c hc] at hl
      rw [g9]; exact h.cs c hc l hl
    · rw [g4]
      refine ⟨h.wid.nd, ?_⟩
      intro k' c
      rw [h.wid.iff, g1]
      constructor
      · rintro ⟨k1, k2⟩; exact ⟨k1, by rw [g2 c k1]; exact k2⟩
      · rintro ⟨k1, k2⟩; exact ⟨k1, by rw [g2 c k1] at k2; exact k2⟩
    · intro c hc x y z hl
      rw [g1] at hc
      rw [g2 c hc] at hl
      have hh := h.wv c hc x y z hl
      have aux : ∀ {x y : Int}, WOk R s (fun _ k => s.levels (iabs k) = (s.decisionLevel : Int)) c x y →
          WOk R s3 (fun _ _ => False) c x y := by
        intro x y hxy hx
        obtain ⟨k1, k2⟩ := (g8 _).1 hx
        rw [iabs_neg] at k2
        right
        rcases hxy k1 with e | ⟨k3, k4⟩
        · simp only [iabs_neg] at e; omega
        · have hy : y ∈ s3.trail := (g8 y).2 ⟨k3, by omega⟩
          have hx7 := g7 (-x) hx
          rw [iabs_neg] at hx7
          exact ⟨hy, by rw [g7 y hy, hx7]; exact k4⟩
      exact ⟨aux hh.1, aux hh.2⟩
    · rw [c2.nextId, f8]; omega
    · rw [g1]; rw [hO.und.clauses] at hidn; exact hidn
    · rw [c1.vN]
      constructor
      · intro hh; apply hpn.2; rw [← f1]; exact c2.trail.subset hh
      · intro hh; apply hpn.1; rw [← f1]; have := c2.trail.subset hh; simpa using this
    · rw [iabs_neg, g9]; exact hb.trailSeen hpt
    · rw [iabs_neg]
      rcases c2.levs (iabs p) with e | e
      · rw [e, f2]; exact hO.pgone
      · exact e
    · rw [c3]
      rcases hO.bt with e | ⟨l, hl, e⟩
      · left; omega
      · by_cases hlt : a.btlevel ≤ (R : Int)
        · left; omega
        · right
          refine ⟨l, hl, ?_⟩
          have k3 := c2.lev (-l) (g10 l hl)
          rw [iabs_neg, f2] at k3
          rw [k3, e]; omega
  obtain ⟨s4, r1, r2, r3⟩ := record_spec hpre
  refine ⟨s2, s1.nextId, a.btlevel, s4, hAn, hd2, by rw [hmax, hs3]; exact r1, r2, ?_, ?_, ?_, ?_⟩
  · intro c hc hne
    obtain ⟨cid, k1, k2⟩ := hcov c hc hne
    refine ⟨cid, by rw [r3.clauses, g1]; simp [k1], ?_⟩
    intro l
    rw [(r3.lits cid).mem_iff, g2 cid k1]; exact k2 l
  · -- the weight
    have hdn : s.decisionLevel ≤ U.length := by
      have k1 := lim_length_le s.trailLim s.trail.length hb.limP h.limS
      have k2 := hb.trail_le_U
      unfold decisionLevel; omega
    obtain ⟨pre, hpre'⟩ := g6
    have hw : weight U.length s = (pre.map (wt U.length s)).sum + (s3.trail.map (wt U.length s)).sum := by
      unfold weight; rw [← hpre', List.map_append, List.sum_append]
    have hw4 : weight U.length s4 = wt U.length s4 (-p) + (s3.trail.map (wt U.length s)).sum := by
      unfold weight
      rw [r3.trail, List.map_cons, List.sum_cons]
      congr 2
      apply List.map_congr_left
      intro x hx
      unfold wt; rw [r3.lev x hx, g7 x hx]
    have hx4 : wt U.length s4 (-p) = (U.length + 1) ^ (U.length - k) := by
      unfold wt; rw [r3.xlev, c3]; simp
    have hpl : pre.length ≤ U.length := by
      have := hb.trail_le_U
      rw [← hpre'] at this
      simp only [List.length_append] at this; omega
    have hps : (pre.map (wt U.length s)).sum ≤ pre.length * (U.length + 1) ^ (U.length - k - 1) := by
      apply sum_le_of_forall
      intro x hx
      unfold wt
      apply Nat.pow_le_pow_right (by omega)
      have hxt : x ∈ s.trail := by rw [← hpre']; simp [hx]
      have hx3 : x ∉ s3.trail := by
        intro hh
        have hnd := hb.tnd
        rw [← hpre', List.map_append, List.nodup_append] at hnd
        exact hnd.2.2 _ (List.mem_map_of_mem hx) _ (List.mem_map_of_mem hh) rfl
      have : ¬ s.levels (iabs x) ≤ (k : Int) := fun hh => hx3 ((g8 x).2 ⟨hxt, hh⟩)
      omega
    have hpw : (U.length + 1) ^ (U.length - k) = (U.length + 1) * (U.length + 1) ^ (U.length - k - 1) := by
      have : U.length - k = (U.length - k - 1) + 1 := by omega
      rw [this, Nat.pow_succ, Nat.mul_comm]; simp
    have h1 : pre.length * (U.length + 1) ^ (U.length - k - 1) ≤ U.length * (U.length + 1) ^ (U.length - k - 1) :=
      Nat.mul_le_mul_right _ hpl
    have h2 : 0 < (U.length + 1) ^ (U.length - k - 1) := Nat.pow_pos (by omega)
    rw [hw, hw4, hx4, hpw, Nat.add_mul]
    omega
  · refine ⟨⟨s1.nextId, -p, a.learned, by rw [r3.clauses, g1], by rw [← g1]; exact hpre.idf, ?_, ?_, by rw [r3.trail]; rfl, ?_, ?_, ?_⟩, ?_⟩
    · rw [r3.learned, c2.heap, ← hs2]
      show (fset s1.heap s1.nextId (Clause.new (a.learned ++ [-p]) true none) s1.nextId).learned = true
      rw [fset_same]; rfl
    · rw [← g3]; exact r3.lits _
    · intro l hl; rw [r3.trail]; exact List.mem_cons_of_mem _ (g10 l hl)
    · intro l hl
      rcases List.mem_append.1 hl with hl | hl
      · exact g6.subset (g10 l hl)
      · simp only [List.mem_singleton] at hl; subst hl; rw [Int.neg_neg]; exact hpt
    · intro c hc
      obtain ⟨l, k1, k2⟩ := hpre.fresh (c := c) (by rw [g1]; exact hc)
      exact ⟨l, by rw [← g2 c hc]; exact k1, k2⟩
    · intro c hc
      refine ⟨by rw [← g2 c hc]; exact r3.lits c, ?_⟩
      rw [r3.learned, c2.heap, ← hs2]
      show (fset s1.heap s1.nextId (Clause.new (a.learned ++ [-p]) true none) c).learned = _
      rw [fset_ne, hO.und.heap]
      rintro rfl
      exact hidn (by rw [hO.und.clauses]; exact hc)
  · intro s0 hK
    have hRk : (R : Int) ≤ (k : Int) := by omega
    have hin : ∀ x ∈ s0.trail, x ∈ s3.trail := fun x hx =>
      (g8 x).2 ⟨hK.trail.subset hx, Int.le_trans (hK.lev x hx) hRk⟩
    have hsuf : s0.trail <:+ s3.trail := by
      rcases List.suffix_or_suffix_of_suffix hK.trail g6 with e | e
      · exact e
      · have hnd : s0.trail.Nodup := ((List.pairwise_map.1 hb.tnd).imp (fun h e => h (by rw [e])) : s.trail.Nodup).sublist hK.trail.sublist
        have := (List.subperm_of_subset hnd hin).length_le
        rw [e.eq_of_length (by have := e.length_le; omega)]
        exact List.suffix_rfl
    have hl4 : s4.trailLim = s3.trailLim := r3.lim
    have hl3 : s3.trailLim <:+ s.trailLim := by
      rw [← hs3]
      have := cancelN_lim_suffix ((s2.decisionLevel : Int) - (k : Int)).toNat s2
      rw [f3, hO.lim] at this
      exact this
    refine ⟨?_, ?_, ?_, hK.dl⟩
    · rw [r3.trail]; exact hsuf.trans (List.suffix_cons _ _)
    · rw [hl4]
      refine List.suffix_of_suffix_length_le hK.lim hl3 ?_
      have e1 : s0.trailLim.length = R := hK.dl
      have e2 : s3.trailLim.length = k := c3
      omega
    · intro x hx
      rw [r3.lev x (hsuf.subset hx), g7 x (hsuf.subset hx)]
      exact hK.lev x hx

/-- a conflict at level 0 refutes the formula -/
theorem conflict_zero {R F U D} {s : Solver} {conflict : Nat} (h : Conf R F U D conflict s) (hdl : s.decisionLevel = 0) :
    ∃ s2 learned bt, s.analyze conflict = .ok (s2, learned, bt) ∧ s2.decisionLevel = 0 ∧
      s2.mkUnsat conflict learned = .satisfiability ⟨conflict, learned⟩ ∧ ¬ Satisfiable F ∧
      s2.clauses = s.clauses ∧ (∀ c ∈ s.clauses, s2.litsOf c = s.litsOf c) ∧ ∀ c ∈ s.clauses, s2.heap c = s.heap c := by
  obtain ⟨s1, a, p, ct, hA, hO⟩ := analyze_spec h
  have hb := h.base
  have hpt : p ∈ s.trail := suffix_mem hO.psuf
  have hl : a.learned = [] := by
    apply List.eq_nil_iff_forall_not_mem.2
    intro l hl
    obtain ⟨g1, g2, -⟩ := hO.lrn l hl
    have g3 := hO.base.levLe g1
    have g4 := hO.base.levNonneg g1
    rw [iabs_neg] at g3 g4
    have : s1.decisionLevel = s.decisionLevel := Undone.dl hO.lim
    omega
  have hlim : s.trailLim = [] := by unfold decisionLevel at hdl; exact List.eq_nil_of_length_eq_zero hdl
  refine ⟨learn s1 (a.learned ++ [-p]) ct, s1.nextId, a.btlevel, by unfold analyze; rw [hA]; rfl, ?_, ?_, ?_, ?_, ?_, ?_⟩
  · show s1.trailLim.length = 0
    rw [hO.lim, hlim]; rfl
  · obtain ⟨r, hr⟩ := mem_suffix hpt
    obtain ⟨cid, hc, -⟩ := hb.reas p r hr
    unfold mkUnsat
    have e1 : (learn s1 (a.learned ++ [-p]) ct).litsOf s1.nextId = [-p] := by
      show (fset s1.heap s1.nextId (Clause.new (a.learned ++ [-p]) true none) s1.nextId).lits = _
      rw [fset_same, hl]; rfl
    rw [e1]
    simp only
    have e2 : (learn s1 (a.learned ++ [-p]) ct).assigning (iabs (- -p)) = some cid := by
      show s1.assigning (iabs (- -p)) = some cid
      rw [Int.neg_neg, hO.und.assigning]; exact hc
    rw [e2]
  · rintro ⟨m, hm⟩
    have h1 : litTrue m p := by
      obtain ⟨r, hr⟩ := mem_suffix hpt
      exact hb.implied hm (r.length + 1) (by intro q r' _ hq; rw [hlim] at hq; simp at hq) p r hr (by omega)
    obtain ⟨l, hl', ht⟩ := hO.ent m hm
    rw [hl] at hl'
    simp only [List.nil_append, List.mem_singleton] at hl'
    subst hl'
    exact (litTrue_neg m (hb.tnz p hpt)).1 ht h1
  · show s1.clauses = s.clauses
    exact hO.und.clauses
  · intro c hc
    show (fset s1.heap s1.nextId (Clause.new (a.learned ++ [-p]) true none) c).lits = _
    rw [fset_ne, hO.und.heap]; rfl
    rintro rfl
    have := hO.base.idr _ (by rw [hO.und.clauses]; exact hc)
    omega
  · intro c hc
    show fset s1.heap s1.nextId (Clause.new (a.learned ++ [-p]) true none) c = _
    rw [fset_ne, hO.und.heap]
    rintro rfl
    have := hO.base.idr _ (by rw [hO.und.clauses]; exact hc)
    omega

/-- A state reached at the end of a successful search. -/
structure Done (F : List (List Int)) (U : List Int) (D : Int → List Int → Prop) (s : Solver) : Prop where
  inv : Inv 0 F U D s
  cov : Covers F s
  q : s.propQueue = []
  all : ∀ v ∈ s.assignments.seen, s.val v ≠ none

/-- What holds at the head of the search loop. -/
structure Head (F : List (List Int)) (U : List Int) (D : Int → List Int → Prop) (s : Solver) : Prop where
  inv : Inv 0 F U D s
  cov : Covers F s

theorem Covers.ext {F : List (List Int)} {s s' : Solver} (hcov : Covers F s) (g2 : Ext s s') : Covers F s' := by
  intro c hc hne
  obtain ⟨cid, k1, k2⟩ := hcov c hc hne
  exact ⟨cid, by rw [g2.clauses]; exact k1, fun l => by rw [(g2.lits cid).mem_iff]; exact k2 l⟩

/-- What holds at the head of the loop of a search that began in the state `s0`, at level `R`. -/
structure At (R : Nat) (s0 : Solver) (F : List (List Int)) (U : List Int) (D : Int → List Int → Prop) (s : Solver) : Prop where
  inv : Inv R F U D s
  cov : Covers F s
  kept : KeptTrail R s0 s

/-- `p` was decided, and is still on the trail -/
def Decided (s : Solver) (p : Int) : Prop := ∃ r, (p :: r) <:+ s.trail ∧ r.length ∈ s.trailLim

theorem KeptTrail.ext {R F U D} {s0 s s' : Solver} (h : KeptTrail R s0 s) (hb : Base F U D s) (hb' : Base F U D s') (hE : Ext s s') :
    KeptTrail R s0 s' := by
  refine ⟨h.trail.trans hE.trail, by rw [hE.lim]; exact h.lim, ?_, h.dl⟩
  intro p hp
  obtain ⟨r, hr⟩ := mem_suffix (h.trail.subset hp)
  have := h.lev p hp
  rw [hb.lev p r hr] at this
  rw [hb'.lev p r (hr.trans hE.trail), hE.lim]
  exact this

/-- a conflict at the level at which the search began refutes the formula together with the decisions of that time -/
theorem conflict_root {R F U D} {s0 s : Solver} {conflict : Nat} (h : Conf R F U D conflict s) (hdl : s.decisionLevel = R)
    (hk : KeptTrail R s0 s) (hl0 : ∀ n ∈ s0.trailLim, n < s0.trail.length) :
    ∃ s2 learned bt, s.analyze conflict = .ok (s2, learned, bt) ∧ s2.decisionLevel = R ∧
      ((∃ u, s2.mkUnsat conflict learned = .satisfiability u) ∨ (0 < R ∧ s2.mkUnsat conflict learned = .assertion)) ∧
      (¬ ∃ m, Sat m F ∧ ∀ p, Decided s0 p → litTrue m p) ∧
      ∀ cid ∈ s2.clauses, Entails F (s2.litsOf cid) := by
  have hno : ¬ ∃ m, Sat m F ∧ ∀ p, Decided s0 p → litTrue m p := by
    rintro ⟨m, hm, hd⟩
    have hlim : s0.trailLim = s.trailLim := hk.lim.eq_of_length (by have := hk.dl; unfold decisionLevel at *; omega)
    have himp := h.base.implied hm (s.trail.length) (by
      intro p r hp hr _ _
      rw [← hlim] at hr
      exact hd p ⟨r, suffix_pos hk.trail hp (hl0 _ hr), hr⟩)
    obtain ⟨l, hl, ht⟩ := h.base.cent conflict h.mem m hm
    obtain ⟨r, hr⟩ := mem_suffix (h.fls l hl)
    have := himp _ r hr (by have := hr.length_le; simp only [List.length_cons] at this; omega)
    exact (litTrue_neg m (h.base.cnz conflict h.mem l hl)).1 this ht
  by_cases hR : R = 0
  · obtain ⟨s2, learned, bt, k1, k2, k3, -, k5, k6, -⟩ := conflict_zero h (hdl.trans hR)
    refine ⟨s2, learned, bt, k1, k2.trans hR.symm, Or.inl ⟨_, k3⟩, hno, ?_⟩
    intro c hc
    rw [k5] at hc
    rw [k6 c hc]; exact h.base.cent c hc
  · obtain ⟨s1, a, p, ct, hA, hO⟩ := analyze_spec h
    refine ⟨learn s1 (a.learned ++ [-p]) ct, s1.nextId, a.btlevel, by unfold analyze; rw [hA]; rfl, ?_, ?_, hno, ?_⟩
    · show s1.trailLim.length = R
      rw [hO.lim]; exact hdl
    · unfold mkUnsat
      have hpt : p ∈ s.trail := suffix_mem hO.psuf
      obtain ⟨r, hr⟩ := mem_suffix hpt
      obtain ⟨cid, hc, -⟩ := h.base.reas p r hr
      have e1 : (learn s1 (a.learned ++ [-p]) ct).litsOf s1.nextId = fromkeys (a.learned ++ [-p]) := by
        show (fset s1.heap s1.nextId (Clause.new (a.learned ++ [-p]) true none) s1.nextId).lits = _
        rw [fset_same]; rfl
      rw [e1]
      rcases hf : fromkeys (a.learned ++ [-p]) with _ | ⟨x, _ | ⟨y, t⟩⟩
      · have : -p ∈ fromkeys (a.learned ++ [-p]) := by rw [mem_fromkeys]; simp
        rw [hf] at this; simp at this
      · left
        have : -p ∈ fromkeys (a.learned ++ [-p]) := by rw [mem_fromkeys]; simp
        rw [hf] at this
        simp only [List.mem_singleton] at this
        subst this
        have e2 : (learn s1 (a.learned ++ [-p]) ct).assigning (iabs (- -p)) = some cid := by
          show s1.assigning (iabs (- -p)) = some cid
          rw [Int.neg_neg, hO.und.assigning]; exact hc
        simp only [e2]
        exact ⟨_, rfl⟩
      · right; exact ⟨by omega, rfl⟩
    · intro c hc
      have hc : c ∈ s1.clauses := hc
      have e : (learn s1 (a.learned ++ [-p]) ct).litsOf c = s1.litsOf c := by
        show (fset s1.heap s1.nextId (Clause.new (a.learned ++ [-p]) true none) c).lits = _
        rw [fset_ne]; rfl
        rintro rfl
        have := hO.base.idr _ hc
        omega
      rw [e]; exact hO.base.cent c hc

/-- One turn of the loop of a search that began in the state `s0`. -/
theorem turn_root {R : Nat} {s0 : Solver} (hl0 : ∀ n ∈ s0.trailLim, n < s0.trail.length) {σ : Type} {pol : Policy σ} {F : List (List Int)} {U V : List Int} {D PI}
    (hpol : pol.OK U V D PI) (hV : ∀ v ∈ V, ∃ c ∈ F, ∃ l ∈ c, iabs l = v) {ps : σ} {s : Solver}
    (h : At R s0 F U D s) (hps : PI ps) :
    (∃ s', turn pol R ps s = .done s' s'.assignments.copy ∧ At R s0 F U D s' ∧ s'.propQueue = [] ∧
      ∀ v ∈ s'.assignments.seen, s'.val v ≠ none) ∨
    (∃ e s', turn pol R ps s = .fail e s' ∧ ((∃ u, e = .satisfiability u) ∨ (0 < R ∧ e = .assertion)) ∧
      (¬ ∃ m, Sat m F ∧ ∀ p, Decided s0 p → litTrue m p) ∧ ∀ cid ∈ s'.clauses, Entails F (s'.litsOf cid)) ∨
    (∃ ps' s', turn pol R ps s = .next ps' s' ∧ At R s0 F U D s' ∧ PI ps' ∧
      weight U.length s + 1 ≤ weight U.length s') := by
  obtain ⟨h, hcov, hkept⟩ := h
  obtain ⟨s1, r, g1, g2, g3, g4⟩ := propagate_spec s.propFuel h (by unfold propFuel ASet.len; omega)
  have hcov1 : Covers F s1 := hcov.ext g2
  simp only [turn, g1]
  cases r with
  | none =>
    obtain ⟨hI, hq⟩ := g3 rfl
    have hk1 := hkept.ext h.base hI.base g2
    have hw1 := weight_ext (n := U.length) h.base hI.base g2
    simp only
    by_cases hall : s1.allAssigned = true
    · rw [if_pos hall]
      left
      refine ⟨s1, rfl, ⟨hI, hcov1, hk1⟩, hq, ?_⟩
      unfold allAssigned ASet.numAssigned ASet.len at hall
      simp only [decide_eq_true_eq] at hall
      exact hI.base.aset.length_eq_iff.1 hall
    · rw [if_neg hall]
      have hex : ∃ v ∈ s1.assignments.seen, s1.assignments.value v = none := by
        apply Classical.byContradiction
        intro hno
        apply hall
        unfold allAssigned ASet.numAssigned ASet.len
        simp only [decide_eq_true_eq]
        rw [hI.base.aset.length_eq_iff]
        intro k hk hn
        exact hno ⟨k, hk, hn⟩
      obtain ⟨ps', a', p, k1, k2, k3, k4, k5, k6, k7⟩ := hpol.step ps s1.assignments (s1.clauses.map s1.heap) s1.trail hps
        hI.base.aset hI.base.vT hI.base.seenU (by
          intro c hc l hl
          obtain ⟨cid, hcid, rfl⟩ := List.mem_map.1 hc
          exact ⟨hI.base.cnz cid hcid l hl, hI.base.cU cid hcid l hl⟩) (by
          intro v hv
          obtain ⟨c, hc, l, hl, e⟩ := hV v hv
          obtain ⟨cid, hcid, hh⟩ := hcov1 c hc (by rintro rfl; simp at hl)
          exact ⟨s1.heap cid, List.mem_map_of_mem hcid, l, (hh l).2 hl, e⟩) hex
      rw [k1]
      simp only
      have hIa := hI.asg k3
      obtain ⟨j1, j2, j3, j4, j5, j6⟩ := assume_spec hIa hq (p := p) (by
        show a'.data p = none
        rw [k3.data]; exact k5) k4 k6 k7
      have hlits : ∀ c, (assume { s1 with assignments := a' } p).litsOf c = s1.litsOf c := by
        intro c; unfold litsOf; rw [j5]
      have hwt : weight U.length s1 + 1 ≤ weight U.length (assume { s1 with assignments := a' } p) := by
        unfold weight
        rw [j2, List.map_cons, List.sum_cons]
        have e : s1.trail.map (wt U.length (assume { s1 with assignments := a' } p)) = s1.trail.map (wt U.length s1) := by
          apply List.map_congr_left
          intro x hx
          unfold wt; rw [j6 x hx]
        rw [e]
        have : 0 < wt U.length (assume { s1 with assignments := a' } p) p := Nat.pow_pos (by omega)
        omega
      right; right
      refine ⟨ps', _, rfl, ⟨j1, ?_, ?_⟩, k2, by omega⟩
      intro c hc hne
      obtain ⟨cid, i1, i2⟩ := hcov1 c hc hne
      exact ⟨cid, by rw [j4]; exact i1, fun l => by rw [hlits]; exact i2 l⟩
      refine ⟨?_, ?_, ?_, hk1.dl⟩
      · rw [j2]; exact hk1.trail.trans (List.suffix_cons _ _)
      · rw [j3]; exact hk1.lim.trans (List.suffix_cons _ _)
      · intro x hx
        rw [j6 x (hk1.trail.subset hx)]; exact hk1.lev x hx
  | some cid =>
    have hC := g4 cid rfl
    have hw1 := weight_ext (n := U.length) h.base hC.base g2
    simp only
    have hk1 := hkept.ext h.base hC.base g2
    by_cases hd : s1.decisionLevel = R
    · obtain ⟨s2, learned, bt, k1, k2, k3, k4, k5⟩ := conflict_root hC hd hk1 hl0
      rw [k1]
      simp only [k2, if_true]
      right; left
      exact ⟨_, s2, rfl, k3, k4, k5⟩
    · obtain ⟨s2, learned, bt, s4, k1, k2, k3, k4, k5, k7, -, k8⟩ := conflict_step hC (by have := hk1.le; omega) hcov1
      rw [k1]
      simp only
      rw [if_neg (by omega)]
      simp only [k3]
      right; right
      exact ⟨ps, s4, rfl, ⟨k4, k5, k8 s0 hk1⟩, hps, by omega⟩

theorem turn_spec {σ : Type} {pol : Policy σ} {F : List (List Int)} {U V : List Int} {D PI}
    (hpol : pol.OK U V D PI) (hV : ∀ v ∈ V, ∃ c ∈ F, ∃ l ∈ c, iabs l = v) {ps : σ} {s : Solver}
    (h : Head F U D s) (hps : PI ps) :
    (∃ s', turn pol 0 ps s = .done s' s'.assignments.copy ∧ Done F U D s') ∨
    (∃ u s', turn pol 0 ps s = .fail (.satisfiability u) s' ∧ ¬ Satisfiable F ∧
      ∀ cid ∈ s'.clauses, Entails F (s'.litsOf cid)) ∨
    (∃ ps' s', turn pol 0 ps s = .next ps' s' ∧ Head F U D s' ∧ PI ps' ∧
      weight U.length s + 1 ≤ weight U.length s') := by
  have hat : At 0 init F U D s := ⟨h.inv, h.cov, List.nil_suffix, List.nil_suffix, fun p hp => absurd hp (by simp [init]), rfl⟩
  rcases turn_root (s0 := init) (fun n hn => absurd hn (by simp [init])) hpol hV hat hps with
    ⟨s', k1, k2, k3, k4⟩ | ⟨e, s', k1, k2, k3, k4⟩ | ⟨ps', s', k1, k2, k3, k4⟩
  · exact Or.inl ⟨s', k1, k2.inv, k2.cov, k3, k4⟩
  · rcases k2 with ⟨u, rfl⟩ | ⟨h0, -⟩
    · refine Or.inr (Or.inl ⟨u, s', k1, ?_, k4⟩)
      rintro ⟨m, hm⟩
      exact k3 ⟨m, hm, by rintro p ⟨r, hr, -⟩; have := hr.length_le; simp [init] at this⟩
    · omega
  · exact Or.inr (Or.inr ⟨ps', s', k1, ⟨k2.inv, k2.cov⟩, k3, k4⟩)

theorem searchLoop_spec {σ : Type} {pol : Policy σ} {F : List (List Int)} {U V : List Int} {D PI}
    (hpol : pol.OK U V D PI) (hV : ∀ v ∈ V, ∃ c ∈ F, ∃ l ∈ c, iabs l = v) (fuel : Nat) {ps : σ} {s : Solver}
    (h : Head F U D s) (hps : PI ps) :
    (∃ s', searchLoop pol 0 fuel ps s = .ok (s', s'.assignments.copy) ∧ Done F U D s') ∨
    (∃ u s', searchLoop pol 0 fuel ps s = .error (.satisfiability u, s') ∧ ¬ Satisfiable F ∧
      ∀ cid ∈ s'.clauses, Entails F (s'.litsOf cid)) ∨
    (∃ s', searchLoop pol 0 fuel ps s = .error (.outOfFuel, s') ∧
      fuel + weight U.length s ≤ U.length * (U.length + 1) ^ U.length) := by
  induction fuel generalizing ps s with
  | zero => right; right; exact ⟨s, rfl, by have := weight_le h.inv.base; omega⟩
  | succ fuel ih =>
    simp only [searchLoop]
    rcases turn_spec hpol hV h hps with ⟨s', h1, h2⟩ | ⟨u, s', h1, h2⟩ | ⟨ps', s', h1, h2, h3, h4⟩
    · rw [h1]; exact Or.inl ⟨s', rfl, h2⟩
    · rw [h1]; exact Or.inr (Or.inl ⟨u, s', rfl, h2⟩)
    · rw [h1]
      rcases ih (ps := ps') h2 h3 with hh | hh | ⟨s', i1, i2⟩
      · exact Or.inl hh
      · exact Or.inr (Or.inl hh)
      · exact Or.inr (Or.inr ⟨s', i1, by omega⟩)

end Solver
end Verif.Sat
