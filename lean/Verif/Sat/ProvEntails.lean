import Verif.Sat.Prov
/-
The trail that `analyze` records for a learned clause justifies it.
-/
namespace Verif.Sat
open Verif
namespace Solver

/-- `m` satisfies these clauses. The empty clause 0 stands for "decided" (the default argument of `assume`,
minisat.py:561), it does not count. -/
def Holds (s : Solver) (m : Nat → Bool) (ct : List Nat) : Prop := ∀ d ∈ ct, d ≠ 0 → SatC m (s.litsOf d)

theorem popSeen_trail (seen : List Int) : ∀ (t : List Int) (s : Solver) (ct : List Nat) p c s' ct',
    popSeen seen t s ct = .ok (p, c, s', ct') → (∀ d ∈ ct, d ∈ ct') ∧ c ∈ ct'
  | [], s, ct, p, c, s', ct', e => by cases e
  | q :: rest, s, ct, p, c, s', ct', e => by
    unfold Solver.popSeen at e
    split at e
    · cases e
    · next conflict hc =>
      simp only at e
      split at e
      · cases e
        exact ⟨fun d hd => by simp [hd], by simp⟩
      · obtain ⟨k1, k2⟩ := popSeen_trail seen rest _ _ _ _ _ _ e
        exact ⟨fun d hd => k1 d (by simp [hd]), k2⟩

theorem analyzeLoop_grows : ∀ (fuel : Nat) (s : Solver) (a : Ana) (conflict : Nat) (p : Option Int)
    (ct : List Nat) s' a' p' ct', analyzeLoop fuel s a conflict p ct = .ok (s', a', p', ct') → ∀ d ∈ ct, d ∈ ct'
  | 0, s, a, conflict, p, ct, s', a', p', ct', e => by cases e
  | fuel + 1, s, a, conflict, p, ct, s', a', p', ct', e => by
    unfold Solver.analyzeLoop at e
    simp only at e
    split at e
    · cases e
    · next q c s1 ct1 hp =>
      obtain ⟨k1, -⟩ := popSeen_trail _ _ _ _ _ _ _ _ hp
      split at e
      · cases e; exact k1
      · intro d hd
        exact analyzeLoop_grows fuel _ _ _ _ _ _ _ _ _ e d (k1 d hd)

/-- the literals to be learned are a consequence of the trail recorded for them -/
theorem analyzeLoop_trail {F U D} (fuel : Nat) {s : Solver} {a : Ana} {conflict : Nat} {p : Option Int} {ct : List Nat}
    (h : Base F U D s) (ht : TI s a)
    (hr : ∀ x ∈ calculateReason (s.litsOf conflict) p, x ∈ s.trail) {m : Nat → Bool}
    (hpos : 0 < a.counter ∨ ∃ x ∈ calculateReason (s.litsOf conflict) p, s.levels (iabs x) = (s.decisionLevel : Int))
    {s2 : Solver} {a2 : Ana} {p2 : Int} {ct2 : List Nat} (e : analyzeLoop fuel s a conflict p ct = .ok (s2, a2, p2, ct2))
    (hm : s.Holds m ct2)
    (hJ : (∀ l ∈ a.learned, ¬ litTrue m l) →
      (∀ x ∈ s.trail, iabs x ∈ a.seen → s.levels (iabs x) = (s.decisionLevel : Int) → litTrue m x) →
      (∀ x ∈ calculateReason (s.litsOf conflict) p, litTrue m x) → False) :
    SatC m (a2.learned ++ [-p2]) := by
  induction fuel generalizing s a conflict p ct with
  | zero => cases e
  | succ fuel ih =>
    obtain ⟨hT, hseen, hlrn⟩ := traceReason_spec h (calculateReason (s.litsOf conflict) p) ht hr
    simp only [analyzeLoop] at e
    generalize hreason : calculateReason (s.litsOf conflict) p = reason at *
    generalize ha' : s.traceReason reason a = a' at *
    have hex : ∃ x ∈ s.trail, iabs x ∈ a'.seen ∧ s.levels (iabs x) = (s.decisionLevel : Int) := by
      rcases hpos with hpos | ⟨x, hx, hxl⟩
      · rw [ht.cnt] at hpos
        have : 0 < s.trail.countP (fun x => decide (iabs x ∈ a.seen) &&
          decide (s.levels (iabs x) = (s.decisionLevel : Int))) := by omega
        rw [List.countP_pos_iff] at this
        obtain ⟨x, hx, hh⟩ := this
        simp only [Bool.and_eq_true, decide_eq_true_eq] at hh
        exact ⟨x, hx, (hseen _).2 (Or.inl hh.1), hh.2⟩
      · exact ⟨x, hr x hx, (hseen _).2 (Or.inr (List.mem_map_of_mem hx)), hxl⟩
    have hJ' : (∀ l ∈ a'.learned, ¬ litTrue m l) →
      (∀ x ∈ s.trail, iabs x ∈ a'.seen → s.levels (iabs x) = (s.decisionLevel : Int) → litTrue m x) → False := by
      intro h1 h2
      refine hJ (fun l hl => h1 l (hlrn l hl)) (fun x hx hxs => h2 x hx ((hseen _).2 (Or.inl hxs))) ?_
      intro x hx
      have hxt := hr x hx
      have hxs : iabs x ∈ a'.seen := (hseen _).2 (Or.inr (List.mem_map_of_mem hx))
      by_cases hxl : s.levels (iabs x) = (s.decisionLevel : Int)
      · exact h2 x hxt hxs hxl
      · have h3 := h1 _ (hT.low x hxt hxs hxl)
        have h4 := litTrue_neg m (h.tnz x hxt)
        rw [h4] at h3
        exact Classical.not_not.1 h3
    obtain ⟨q, cid, s', ct', pre, g1, g2, g3, g4, g5, g6, g7, g8, g9, g10⟩ := popSeen_spec a'.seen s.trail h rfl ct hex
    obtain ⟨-, hcid⟩ := popSeen_trail _ _ _ _ _ _ _ _ g1
    have hd := Undone.dl g9
    have hqs : (q :: s'.trail) <:+ s.trail := by rw [g2]; exact List.suffix_append _ _
    have hqt : q ∈ s.trail := suffix_mem hqs
    have hlow : ∀ l ∈ a'.learned, -l ∈ s'.trail := by
      intro l hl
      obtain ⟨k1, k2, k3, -⟩ := hT.lrn l hl
      rw [g2] at k1
      simp only [List.mem_append, List.mem_cons] at k1
      rcases k1 with k1 | k1 | k1
      · exact absurd (by rw [iabs_neg]; exact k3) (g3 _ k1)
      · exfalso; apply k2; rw [← iabs_neg l, k1]; exact g5
      · exact k1
    have hlevs : ∀ x ∈ s'.trail, s'.levels (iabs x) = s.levels (iabs x) := g8.lev
    have hlevl : ∀ l ∈ a'.learned, s'.levels (iabs l) = s.levels (iabs l) := by
      intro l hl; have := hlevs (-l) (hlow l hl); simpa using this
    have hTI' : TI s' { a' with counter := a'.counter - 1 } := by
      refine ⟨?_, ?_, hT.bt0, ?_, hT.nd, ?_⟩
      · simp only
        rw [hT.cnt, g2, List.countP_append, List.countP_cons]
        have e0 : pre.countP (fun x => decide (iabs x ∈ a'.seen) && decide (s.levels (iabs x) = (s.decisionLevel : Int))) = 0 := by
          rw [List.countP_eq_zero]
          intro y hy; simp [g3 y hy]
        have e1 : s'.trail.countP (fun x => decide (iabs x ∈ a'.seen) && decide (s'.levels (iabs x) = (s'.decisionLevel : Int)))
            = s'.trail.countP (fun x => decide (iabs x ∈ a'.seen) && decide (s.levels (iabs x) = (s.decisionLevel : Int))) := by
          apply List.countP_congr
          intro y hy
          rw [hlevs y hy, hd]
        rw [e0, e1]
        simp only [g4, g5, decide_true, Bool.and_self, if_true]
        omega
      · intro l hl
        obtain ⟨k1, k2, k3, k4⟩ := hT.lrn l hl
        exact ⟨hlow l hl, by rw [hlevl l hl, hd]; exact k2, k3, by rw [hlevl l hl]; exact k4⟩
      · rcases hT.bt with e | ⟨l, hl, e⟩
        · exact Or.inl e
        · exact Or.inr ⟨l, hl, by rw [hlevl l hl]; exact e⟩
      · intro x hx hxs hxl
        exact hT.low x (g8.trail.subset hx) hxs (by rw [hlevs x hx, hd] at hxl; exact hxl)
    have hJ2 : (∀ l ∈ a'.learned, ¬ litTrue m l) →
      (∀ x ∈ s'.trail, iabs x ∈ a'.seen → s'.levels (iabs x) = (s'.decisionLevel : Int) → litTrue m x) →
      litTrue m q → False := by
      intro h1 h2 h3
      apply hJ' h1
      intro x hx hxs hxl
      rw [g2] at hx
      simp only [List.mem_append, List.mem_cons] at hx
      rcases hx with hx | hx | hx
      · exact absurd hxs (g3 x hx)
      · rw [hx]; exact h3
      · exact h2 x hx hxs (by rw [hlevs x hx, hd]; exact hxl)
    simp only [g1] at e
    split at e
    · rename_i hc0
      simp only [Except.ok.injEq, Prod.mk.injEq] at e
      obtain ⟨-, e2, e3, -⟩ := e
      rw [← e2, ← e3]
      apply Classical.byContradiction
      intro hno
      have hz := hTI'.cnt
      simp only at hz
      rw [hc0] at hz
      have hz : s'.trail.countP (fun x => decide (iabs x ∈ a'.seen) && decide (s'.levels (iabs x) = (s'.decisionLevel : Int))) = 0 := by omega
      rw [List.countP_eq_zero] at hz
      apply hJ2
      · intro l hl hlt; exact hno ⟨l, by simp [hl], hlt⟩
      · intro x hx hxs hxl; exact absurd (by simp [hxs, hxl]) (hz x hx)
      · apply Classical.byContradiction
        intro hq
        exact hno ⟨-q, by simp, (litTrue_neg m (h.tnz q hqt)).2 hq⟩
    · rename_i hc0
      have hpos' : 0 < a'.counter - 1 := by
        have hz := hTI'.cnt
        simp only at hz
        omega
      have hex' : ∃ x ∈ s'.trail, iabs x ∈ a'.seen ∧ s'.levels (iabs x) = (s'.decisionLevel : Int) := by
        have hz := hTI'.cnt
        simp only at hz
        have : 0 < s'.trail.countP (fun x => decide (iabs x ∈ a'.seen) &&
          decide (s'.levels (iabs x) = (s'.decisionLevel : Int))) := by omega
        rw [List.countP_pos_iff] at this
        obtain ⟨x, hx, hh⟩ := this
        simp only [Bool.and_eq_true, decide_eq_true_eq] at hh
        exact ⟨x, hx, hh.1, hh.2⟩
      obtain ⟨cid', hcid', hre⟩ := h.reas q s'.trail hqs
      rw [g6] at hcid'
      simp only [Option.some.injEq] at hcid'
      subst hcid'
      have hre : cid ∈ s.clauses ∧ q ∈ s.litsOf cid ∧ ∀ l ∈ s.litsOf cid, l ≠ q → -l ∈ s'.trail := by
        rcases hre with ⟨k1, -, -⟩ | hre
        · exfalso
          obtain ⟨x, hx, -, hxl⟩ := hex'
          obtain ⟨r', hr'⟩ := mem_suffix hx
          have := g7.pos_of_lev hr' hxl _ (by rw [g9]; exact k1)
          have := hr'.length_le
          simp only [List.length_cons] at this
          omega
        · exact hre
      have hlits : ∀ c, s'.litsOf c = s.litsOf c := by intro c; unfold litsOf; rw [g8.heap]
      refine ih (s := s') (a := { a' with counter := a'.counter - 1 }) (conflict := cid)
        (p := some q) (ct := ct') g7 hTI'
        (by
          intro x hx
          rw [mem_calculateReason, hlits] at hx
          have := hre.2.2 (-x) hx.1 (by intro e; exact hx.2 (by rw [e]))
          simpa using this)
        (Or.inl hpos') e (fun d hd hd0 => by rw [hlits]; exact hm d hd hd0) ?_
      intro h1 h2 h3
      apply hJ2 h1 h2
      have hc2 : cid ∈ ct2 := analyzeLoop_grows _ _ _ _ _ _ _ _ _ _ e _ hcid
      obtain ⟨l, hl, hlt⟩ := hm cid hc2 (by have := (h.idr cid hre.1).1; omega)
      by_cases hlq : l = q
      · exact hlq ▸ hlt
      · exfalso
        have : litTrue m (-l) := h3 (-l) (by
          rw [mem_calculateReason, hlits]
          refine ⟨by simpa using hl, ?_⟩
          simpa using hlq)
        exact (litTrue_neg m (h.cnz cid hre.1 l hl)).1 this hlt

/-- the trails of the learned clauses justify them -/
def Justified (s : Solver) : Prop :=
  ∀ kv ∈ s.clauseTrails, ∀ m, s.Holds m kv.2 → SatC m (s.litsOf kv.1)

theorem satC_perm {m : Nat → Bool} {c c' : List Int} (h : c.Perm c') : SatC m c ↔ SatC m c' := by
  unfold SatC
  constructor <;> rintro ⟨l, h1, h2⟩
  · exact ⟨l, h.mem_iff.1 h1, h2⟩
  · exact ⟨l, h.mem_iff.2 h1, h2⟩

/-- the literals of the clauses have at most changed places -/
theorem Justified.ext {s s' : Solver} (h : Justified s) (ht : s'.clauseTrails = s.clauseTrails)
    (hp : ∀ c, (s'.litsOf c).Perm (s.litsOf c)) : Justified s' := by
  intro kv hkv m hm
  rw [ht] at hkv
  rw [satC_perm (hp _)]
  exact h kv hkv m (fun d hd hd0 => (satC_perm (hp _)).1 (hm d hd hd0))

theorem Justified.same {s s' : Solver} (h : Justified s) (ht : s'.clauseTrails = s.clauseTrails) (hh : s'.heap = s.heap) :
    Justified s' :=
  h.ext ht (fun c => by unfold litsOf; rw [hh])

theorem Justified.init : Justified Solver.init := by intro kv h; cases h

/-- a new clause object, on which no trail depends -/
theorem Justified.alloc {G : List (List Int)} {s : Solver} (h : Justified s) (hP : Prov G s) (c : Clause) :
    Justified (s.alloc c).1 := by
  intro kv hkv m hm
  have hkv' : kv ∈ s.clauseTrails := hkv
  obtain ⟨k1, k2⟩ := hP.trails kv hkv'
  have hl : ∀ d, d < s.nextId → (s.alloc c).1.litsOf d = s.litsOf d := by
    intro d hd
    unfold litsOf
    show (fset s.heap s.nextId c d).lits = _
    rw [fset_ne _ _ (by omega)]
  rw [hl _ k1]
  exact h kv hkv' m (fun d hd hd0 => by
    rw [← hl d (by have := k2 d hd; omega)]
    exact hm d hd hd0)

theorem Justified.addClauseObj {s s' : Solver} (h : Justified s) {c : Nat} (e : s.addClauseObj c = .ok s') : Justified s' := by
  unfold Solver.addClauseObj at e
  split at e
  · cases e; exact h.same rfl rfl
  · next l hl =>
    simp only at e
    split at e
    · cases e
      exact h.same (enqueue_trails s l c) (enqueue_heap s l c)
    · cases e
  · cases e
    exact h.same rfl rfl

theorem Justified.addRulesX {G : List (List Int)} : ∀ (rs : List (List Int)) (i : Nat) (s : Solver), Prov G s → Justified s →
    (∀ k r, rs[k]? = some r → G[i + k]? = some r) →
    match s.addRulesX i rs with
    | .ok s' => Justified s'
    | .error (_, s') => Justified s'
  | [], i, s, _, h, _ => h
  | r :: rs, i, s, hP, h, hG => by
    have hal := hP.alloc (hG 0 r rfl)
    have hj := h.alloc hP (Clause.new r false (some i))
    rw [Solver.addRulesX]
    cases e : (s.alloc (Clause.new r false (some i))).1.addClauseObj (s.alloc (Clause.new r false (some i))).2 with
    | ok s' =>
      simp only
      refine Justified.addRulesX rs (i + 1) s' (hal.addClauseObj ⟨hP.pos, Nat.lt_succ_self _⟩ e).1 (hj.addClauseObj e) ?_
      intro k q hk
      have := hG (k + 1) q (by simpa using hk)
      rwa [show i + (k + 1) = i + 1 + k by omega] at this
    | error er =>
      simp only
      exact hj

/-! ### propagation -/

/-- the trails are the same, the literals have at most changed places -/
structure Moved (s s' : Solver) : Prop where
  trails : s'.clauseTrails = s.clauseTrails
  lits : ∀ c, (s'.litsOf c).Perm (s.litsOf c)

theorem Moved.refl (s : Solver) : Moved s s := ⟨rfl, fun _ => List.Perm.refl _⟩

theorem Moved.trans {s t u : Solver} (h : Moved s t) (k : Moved t u) : Moved s u :=
  ⟨k.trails.trans h.trails, fun c => (k.lits c).trans (h.lits c)⟩

theorem Moved.same {s s' : Solver} (ht : s'.clauseTrails = s.clauseTrails) (hh : s'.heap = s.heap) : Moved s s' :=
  ⟨ht, fun c => by unfold litsOf; rw [hh]⟩

theorem Justified.moved {s s' : Solver} (h : Justified s) (k : Moved s s') : Justified s' := h.ext k.trails k.lits

theorem Moved.set {s : Solver} {cid : Nat} {lits' : List Int} (h : lits'.Perm (s.litsOf cid)) :
    Moved s { s with heap := fset s.heap cid { s.heap cid with lits := lits' } } := by
  refine ⟨rfl, ?_⟩
  intro c
  unfold litsOf
  by_cases ec : c = cid
  · subst ec
    simp only [fset_same]
    exact h
  · simp only [fset_ne _ _ ec]
    exact List.Perm.refl _

theorem Moved.propClauses (lit : Int) : ∀ (pend : List Nat) (s : Solver) s' r, propClauses lit pend s = .ok (s', r) → Moved s s'
  | [], s, s', r, e => by
    unfold Solver.propClauses at e
    cases e
    exact Moved.refl _
  | cid :: rest, s, s', r, e => by
    unfold Solver.propClauses at e
    split at e
    · cases e
    · next lits' unit hr =>
      have h1 := Moved.set (rewatch_perm hr)
      simp only at e
      split at e
      · next x w t =>
        split at e
        · refine (h1.trans ?_).trans (Moved.propClauses lit rest _ s' r e)
          exact Moved.same rfl rfl
        · split at e
          · cases e
            exact h1.trans (Moved.same rfl rfl)
          · next u hu =>
            refine (h1.trans ?_).trans (Moved.propClauses lit rest _ s' r e)
            exact Moved.same (enqueue_trails _ _ _) (enqueue_heap _ _ _)
      · cases e

theorem Moved.propagate : ∀ (fuel : Nat) (s : Solver) s' r, propagate fuel s = .ok (s', r) → Moved s s'
  | fuel, s, s', r, e => by
    unfold Solver.propagate at e
    split at e
    · cases e; exact Moved.refl _
    · next lit queue hq =>
      cases fuel with
      | zero => cases e
      | succ fuel =>
        simp only at e
        split at e
        · cases e
        · next s2 cid hs2 =>
          cases e
          refine Moved.trans ?_ (Moved.propClauses lit _ _ _ _ hs2)
          exact Moved.same rfl rfl
        · next s2 hs2 =>
          refine Moved.trans (Moved.trans ?_ (Moved.propClauses lit _ _ _ _ hs2)) (Moved.propagate fuel s2 s' r e)
          exact Moved.same rfl rfl

theorem undoOne_trails (s : Solver) : s.undoOne.clauseTrails = s.clauseTrails := by unfold undoOne; split <;> rfl

theorem Moved.undoOne (s : Solver) : Moved s s.undoOne := Moved.same (undoOne_trails s) (undoOne_heap s)

theorem Moved.undoN : ∀ (n : Nat) (s : Solver), Moved s (undoN n s)
  | 0, s => Moved.refl s
  | n + 1, s => (Moved.undoOne s).trans (Moved.undoN n s.undoOne)

theorem Moved.cancel (s : Solver) : Moved s s.cancel := by
  unfold Solver.cancel
  split
  · exact Moved.refl s
  · refine Moved.trans ?_ (Moved.undoN _ _)
    exact Moved.same rfl rfl

theorem Moved.cancelN : ∀ (n : Nat) (s : Solver), Moved s (cancelN n s)
  | 0, s => Moved.refl s
  | n + 1, s => (Moved.cancel s).trans (Moved.cancelN n s.cancel)

theorem Moved.popSeen (seen : List Int) : ∀ (t : List Int) (s : Solver) (ct : List Nat) p c s' ct',
    popSeen seen t s ct = .ok (p, c, s', ct') → Moved s s'
  | [], s, ct, p, c, s', ct', e => by cases e
  | q :: rest, s, ct, p, c, s', ct', e => by
    unfold Solver.popSeen at e
    split at e
    · cases e
    · simp only at e
      split at e
      · cases e
        exact Moved.undoOne s
      · exact (Moved.undoOne s).trans (Moved.popSeen seen rest _ _ _ _ _ _ e)

theorem Moved.analyzeLoop : ∀ (fuel : Nat) (s : Solver) (a : Ana) (conflict : Nat) (p : Option Int)
    (ct : List Nat) s' a' p' ct', analyzeLoop fuel s a conflict p ct = .ok (s', a', p', ct') → Moved s s'
  | 0, s, a, conflict, p, ct, s', a', p', ct', e => by cases e
  | fuel + 1, s, a, conflict, p, ct, s', a', p', ct', e => by
    unfold Solver.analyzeLoop at e
    simp only at e
    split at e
    · cases e
    · next q c s1 ct1 hp =>
      have k := Moved.popSeen _ _ _ _ _ _ _ _ hp
      split at e
      · cases e; exact k
      · exact k.trans (Moved.analyzeLoop fuel _ _ _ _ _ _ _ _ _ e)

/-- the trail that `analyze` records justifies the learned clause -/
theorem Justified.analyze {G F : List (List Int)} {U D} {s s' : Solver} {conflict learned : Nat} {bt : Int} (h : Justified s)
    (hP : Prov G s) (hC : Conf 0 F U D conflict s) (hc : conflict < s.nextId)
    (e : s.analyze conflict = .ok (s', learned, bt)) : Justified s' := by
  unfold Solver.analyze at e
  split at e
  · cases e
  · next s1 a p ct ha =>
    have hmv := Moved.analyzeLoop _ _ _ _ _ _ _ _ _ _ ha
    obtain ⟨k1, k2, k3⟩ := Prov.analyzeLoop _ _ _ _ _ _ hP (by
      intro c hc'; rw [List.mem_singleton] at hc'; rw [hc']; exact hc) _ _ _ _ ha
    have hj := (h.moved hmv).alloc k1 (Clause.new (a.learned ++ [-p]) true none)
    have hs' : s' = learn s1 (a.learned ++ [-p]) ct := by cases e; rfl
    clear e
    subst hs'
    intro kv hkv m hm
    rcases List.mem_append.1 hkv with hkv | hkv
    · exact hj kv hkv m hm
    · rw [List.mem_singleton] at hkv
      subst hkv
      have hm' : s.Holds m ct := by
        intro d hd hd0
        have hm := hm d hd hd0
        rw [← satC_perm (hmv.lits d)]
        have hlt : d < s1.nextId := by rw [k2]; exact k3 d hd
        have e1 : (learn s1 (a.learned ++ [-p]) ct).litsOf d = s1.litsOf d := by
          unfold litsOf
          show (fset s1.heap s1.nextId _ d).lits = _
          rw [fset_ne _ _ (by omega)]
        rw [e1] at hm
        exact hm
      have hcc : conflict ∈ ct := analyzeLoop_grows _ _ _ _ _ _ _ _ _ _ ha _ (by simp)
      have hres : SatC m (a.learned ++ [-p]) := by
        refine analyzeLoop_trail _ hC.base ?_ ?_ ?_ ha hm' ?_
        · refine ⟨?_, by simp, by simp, Or.inl rfl, by simp, by simp⟩
          simp
        · intro x hx
          rw [mem_calculateReason] at hx
          have := hC.fls _ hx.1
          simpa using this
        · right
          obtain ⟨l, hl, hlv⟩ := hC.cur
          exact ⟨-l, by rw [mem_calculateReason]; simpa using hl, by simpa using hlv⟩
        · intro _ _ h3
          obtain ⟨l, hl, hlt⟩ := hm' conflict hcc (by have := (hC.base.idr _ hC.mem).1; omega)
          have : litTrue m (-l) := h3 (-l) (by rw [mem_calculateReason]; simpa using hl)
          exact (litTrue_neg m (hC.base.cnz conflict hC.mem l hl)).1 this hlt
      have e2 : (learn s1 (a.learned ++ [-p]) ct).litsOf s1.nextId = fromkeys (a.learned ++ [-p]) := by
        unfold litsOf
        show (fset s1.heap s1.nextId _ s1.nextId).lits = _
        rw [fset_same]
        rfl
      show SatC m (litsOf _ s1.nextId)
      rw [e2]
      obtain ⟨l, h1, h2⟩ := hres
      exact ⟨l, (mem_fromkeys _ _).2 h1, h2⟩

theorem swapIdx_perm (l : List Int) (i j : Nat) : (swapIdx l i j).Perm l := by
  unfold swapIdx
  split
  · next a b ha hb =>
    obtain ⟨hi, rfl⟩ := List.getElem?_eq_some_iff.1 ha
    obtain ⟨hj, rfl⟩ := List.getElem?_eq_some_iff.1 hb
    exact List.set_set_perm hi hj
  · exact List.Perm.refl _

theorem recordLits_perm (levels : Int → Int) (l : List Int) : (recordLits levels l).Perm l := by
  unfold recordLits
  simp only
  split
  · exact (swapIdx_perm _ _ _).trans (swapIdx_perm _ _ _)
  · exact swapIdx_perm _ _ _

theorem Justified.record {s s' : Solver} {c : Nat} (h : Justified s) (e : s.record c = .ok s') : Justified s' := by
  unfold Solver.record at e
  simp only at e
  split at e
  · cases e
  · next s1 hs1 =>
    have h1 := (h.moved (Moved.set (cid := c) (recordLits_perm s.levels (s.litsOf c)))).addClauseObj hs1
    split at e
    · cases e
    · cases e
      exact h1.same (enqueue_trails _ _ _) (enqueue_heap _ _ _)

/-! ### search -/

theorem Justified.turn_next {G : List (List Int)} {σ : Type} {pol : Policy σ} {F : List (List Int)} {U : List Int} {D}
    {ps ps' : σ} {s s' : Solver} (hH : Head F U D s) (hP : Prov G s) (h : Justified s)
    (e : turn pol 0 ps s = .next ps' s') : Justified s' := by
  obtain ⟨s1, r, g1, g2, g3, g4⟩ := propagate_spec s.propFuel hH.inv (by unfold propFuel ASet.len; omega)
  obtain ⟨p1, p2⟩ := hP.propagate _ _ _ _ g1
  have h1 := h.moved (Moved.propagate _ _ _ _ g1)
  cases r with
  | none =>
    simp only [turn, g1] at e
    split at e
    · cases e
    · split at e
      · cases e
      · next ps2 a p hpol =>
        cases e
        unfold Solver.assume
        exact (h1.same (s' := { s1 with assignments := a, trailLim := s1.trail.length :: s1.trailLim }) rfl rfl).same
          (enqueue_trails _ _ _) (enqueue_heap _ _ _)
  | some cid =>
    simp only [turn, g1] at e
    split at e
    · cases e
    · next s2 learned bt ha =>
      have h2 := h1.analyze p1 (g4 cid rfl) (p2 _ rfl).2 ha
      split at e
      · cases e
      · split at e
        · cases e
        · next s3 hr =>
          cases e
          exact (h2.moved (Moved.cancelN _ _)).record hr

theorem Justified.turn_fail {G : List (List Int)} {σ : Type} {pol : Policy σ} {F : List (List Int)} {U : List Int} {D}
    {ps : σ} {s s' : Solver} {u : UnsatInfo} (hH : Head F U D s) (hP : Prov G s) (h : Justified s)
    (e : turn pol 0 ps s = .fail (.satisfiability u) s') : Justified s' := by
  obtain ⟨s1, r, g1, g2, g3, g4⟩ := propagate_spec s.propFuel hH.inv (by unfold propFuel ASet.len; omega)
  obtain ⟨p1, p2⟩ := hP.propagate _ _ _ _ g1
  have h1 := h.moved (Moved.propagate _ _ _ _ g1)
  have hcov1 : Covers F s1 := hH.cov.ext g2
  cases r with
  | none =>
    simp only [turn, g1] at e
    split at e
    · cases e
    · split at e
      · cases e
        exact h1.same rfl rfl
      · cases e
  | some cid =>
    have hC := g4 cid rfl
    simp only [turn, g1] at e
    by_cases hd : s1.decisionLevel = 0
    · obtain ⟨s2, learned, bt, k1, k2, k3, -⟩ := conflict_zero hC hd
      rw [k1] at e
      simp only [k2, if_true, k3] at e
      cases e
      exact h1.analyze p1 hC (p2 _ rfl).2 k1
    · obtain ⟨s2, learned, bt, s4, k1, k2, k3, -⟩ := conflict_step hC (by omega) hcov1
      rw [k1] at e
      simp only at e
      rw [if_neg (by omega)] at e
      simp only [k3] at e
      cases e

theorem Justified.searchLoop {G : List (List Int)} {σ : Type} {pol : Policy σ} {F : List (List Int)} {U V : List Int} {D PI}
    (hpol : pol.OK U V D PI) (hV : ∀ v ∈ V, ∃ c ∈ F, ∃ l ∈ c, iabs l = v) (fuel : Nat) {ps : σ} {s : Solver}
    (h : Head F U D s) (hps : PI ps) (hP : Prov G s) (hj : Justified s) {u : UnsatInfo} {s' : Solver}
    (e : searchLoop pol 0 fuel ps s = .error (.satisfiability u, s')) : Justified s' := by
  induction fuel generalizing ps s with
  | zero => cases e
  | succ fuel ih =>
    simp only [Solver.searchLoop] at e
    rcases turn_spec hpol hV h hps with ⟨s2, h1, h2⟩ | ⟨u2, s2, h1, h2⟩ | ⟨ps', s2, h1, h2, h3, h4⟩
    · rw [h1] at e; cases e
    · rw [h1] at e
      cases e
      exact hj.turn_fail h hP h1
    · rw [h1] at e
      exact ih h2 h3 (hP.turn_next h1) (hj.turn_next h hP h1) e

end Solver

/-- In the state in which `from_rules(G).search()` raises SatisfiabilityError the trails justify the learned clauses. -/
theorem solveRulesX_justified {σ : Type} {pol : Policy σ} {U : List Int} {D PI} (G : List (List Int))
    (hpol : pol.OK U (varsOf G) D PI) (hU : ∀ v ∈ varsOf G, v ∈ U)
    (hnz : ∀ c ∈ G, ∀ l ∈ c, l ≠ 0) {ps : σ} (hps : PI ps) (fuel : Nat) {u : UnsatInfo} {s : Solver}
    (e : solveRulesX pol fuel ps G = .error (.satisfiability u, s)) : s.Justified := by
  have hp := Solver.Prov.addRulesX (G := G) G 0 Solver.init (Solver.Prov.init G) (by simp)
  have hj := Solver.Justified.addRulesX (G := G) G 0 Solver.init (Solver.Prov.init G) Solver.Justified.init (by simp)
  unfold solveRulesX at e
  split at e
  · next er her =>
    cases e
    rw [her] at hj
    exact hj
  · next s1 hs1 =>
    rw [hs1] at hp hj
    have hfr : Solver.fromRules G = .ok s1.setupAssignments := by
      unfold Solver.fromRules
      rw [Solver.addRulesX_eq, hs1]
    rcases fromRules_head (D := D) G hnz hU with ⟨s2, h1, h2, h3, hroot⟩ | ⟨u2, h1, -⟩
    · rw [hfr] at h1
      cases h1
      split at e
      · next er her =>
        cases e
        unfold Solver.search at her
        rw [hroot] at her
        exact Solver.Justified.searchLoop hpol (varsOf_nonempty G) fuel h2 hps hp.setup (hj.same rfl rfl) her
      · cases e
    · rw [hfr] at h1; cases h1

end Verif.Sat
