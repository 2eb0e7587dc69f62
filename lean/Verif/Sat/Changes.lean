import Verif.Sat.Final
/-
What the solver does to the assignment set: it only sets variables (positive keys) to a value or to None, as long as all
literals are nonzero. Nothing else about the state is needed for this.
-/
namespace Verif.Sat
open Verif

/-- `b` is `a` after some assignments `a[v] = x` to positive `v` -/
def Sets (a b : ASet) : Prop :=
  ∃ ops : List (Int × Option Bool), (∀ o ∈ ops, 0 < o.1) ∧ b = ops.foldl (fun a o => a.setItem o.1 o.2) a

theorem Sets.refl (a : ASet) : Sets a a := ⟨[], by simp, rfl⟩

theorem Sets.trans {a b c : ASet} (h : Sets a b) (h' : Sets b c) : Sets a c := by
  obtain ⟨o1, k1, rfl⟩ := h
  obtain ⟨o2, k2, rfl⟩ := h'
  refine ⟨o1 ++ o2, ?_, by rw [List.foldl_append]⟩
  intro o ho
  rcases List.mem_append.1 ho with h | h
  · exact k1 o h
  · exact k2 o h

theorem Sets.one (a : ASet) {v : Int} (hv : 0 < v) (x : Option Bool) : Sets a (a.setItem v x) :=
  ⟨[(v, x)], by simpa using hv, rfl⟩

theorem iabs_pos' {l : Int} (h : l ≠ 0) : 0 < iabs l := by unfold iabs; omega

namespace Solver

/-- no literal of a clause and no literal of the trail is 0 -/
structure NZ (s : Solver) : Prop where
  cls : ∀ c, ∀ l ∈ s.litsOf c, l ≠ 0
  trail : ∀ l ∈ s.trail, l ≠ 0

/-- a step of the solver that keeps literals nonzero and only sets variables -/
structure Chg (s s' : Solver) : Prop where
  nz : NZ s'
  sets : Sets s.assignments s'.assignments

theorem Chg.refl {s : Solver} (h : NZ s) : Chg s s := ⟨h, Sets.refl _⟩

theorem Chg.trans {s s' s'' : Solver} (h : Chg s s') (h' : Chg s' s'') : Chg s s'' := ⟨h'.nz, h.sets.trans h'.sets⟩

theorem enqueue_chg {s : Solver} (h : NZ s) {l : Int} (hl : l ≠ 0) (c : Nat) : Chg s (s.enqueue l c).1 := by
  unfold enqueue
  split
  · exact Chg.refl h
  · refine ⟨⟨h.cls, ?_⟩, Sets.one s.assignments (iabs_pos' hl) (some (decide (0 < l)))⟩
    intro x hx
    rcases List.mem_cons.1 (show x ∈ l :: s.trail from hx) with rfl | hx
    · exact hl
    · exact h.trail x hx

theorem setHeap_chg {s : Solver} (h : NZ s) (cid : Nat) {c : Clause} (hc : ∀ l ∈ c.lits, l ≠ 0) :
    Chg s { s with heap := fset s.heap cid c } := by
  refine ⟨⟨?_, h.trail⟩, Sets.refl _⟩
  intro d l hl
  have hl : l ∈ (fset s.heap cid c d).lits := hl
  unfold fset at hl
  split at hl
  · exact hc l hl
  · exact h.cls d l hl

theorem alloc_chg {s : Solver} (h : NZ s) {c : Clause} (hc : ∀ l ∈ c.lits, l ≠ 0) : Chg s (s.alloc c).1 := by
  obtain ⟨h1, h2⟩ := setHeap_chg h s.nextId hc
  exact ⟨⟨h1.cls, h1.trail⟩, h2⟩

theorem addClauseObj_chg {s s' : Solver} (h : NZ s) {cid : Nat} (e : s.addClauseObj cid = .ok s') : Chg s s' := by
  unfold addClauseObj at e
  split at e
  · cases e; exact ⟨⟨h.cls, h.trail⟩, Sets.refl _⟩
  · rename_i l hl
    have k := enqueue_chg h (h.cls cid l (by rw [hl]; simp)) cid
    simp only at e
    split at e
    · cases e; exact ⟨⟨k.nz.cls, k.nz.trail⟩, k.sets⟩
    · cases e
  · cases e; exact ⟨⟨h.cls, h.trail⟩, Sets.refl _⟩

theorem addRules_chg (G : List (List Int)) (hG : ∀ c ∈ G, ∀ l ∈ c, l ≠ 0) (i : Nat) {s s' : Solver} (h : NZ s)
    (e : s.addRules i G = .ok s') : Chg s s' := by
  induction G generalizing i s with
  | nil => cases e; exact Chg.refl h
  | cons c G ih =>
    simp only [addRules] at e
    cases hx : s.addClause c (some i) with
    | error e' => rw [hx] at e; cases e
    | ok s1 =>
      rw [hx] at e
      have k0 : Chg s (s.alloc (Clause.new c false (some i))).1 := alloc_chg h (by
        intro l hl
        have : l ∈ fromkeys c := hl
        exact hG c (by simp) l (by simpa using this))
      have k1 := k0.trans (addClauseObj_chg k0.nz hx)
      exact k1.trans (ih (fun d hd => hG d (by simp [hd])) (i + 1) k1.nz e)

theorem setup_chg {s : Solver} (h : NZ s) : Chg s s.setupAssignments := by
  refine ⟨⟨h.cls, h.trail⟩, ?_⟩
  show Sets s.assignments ((fromkeys ((s.clauses.flatMap s.litsOf).map iabs)).foldl
    (fun a v => if a.contains v then a else a.setItem v none) s.assignments)
  have hpos : ∀ v ∈ fromkeys ((s.clauses.flatMap s.litsOf).map iabs), 0 < v := by
    intro v hv
    simp only [mem_fromkeys, List.mem_map, List.mem_flatMap] at hv
    obtain ⟨l, ⟨c, -, hl⟩, rfl⟩ := hv
    exact iabs_pos' (h.cls c l hl)
  generalize fromkeys ((s.clauses.flatMap s.litsOf).map iabs) = vars at hpos
  generalize s.assignments = a
  induction vars generalizing a with
  | nil => exact Sets.refl a
  | cons v vs ih =>
    rw [List.foldl_cons]
    refine Sets.trans ?_ (ih (fun v hv => hpos v (by simp [hv])) _)
    split
    · exact Sets.refl a
    · exact Sets.one a (hpos v (by simp)) none

theorem fromRules_chg (G : List (List Int)) (hG : ∀ c ∈ G, ∀ l ∈ c, l ≠ 0) {s : Solver} (e : fromRules G = .ok s) :
    NZ s ∧ Sets ASet.empty s.assignments := by
  have h0 : NZ init := ⟨by intro c l hl; simp [init, litsOf] at hl, by intro l hl; simp [init] at hl⟩
  unfold fromRules at e
  cases hx : init.addRules 0 G with
  | error e' => rw [hx] at e; cases e
  | ok s1 =>
    rw [hx] at e
    cases e
    have k1 := addRules_chg G hG 0 h0 hx
    have k2 := k1.trans (setup_chg k1.nz)
    exact ⟨k2.nz, k2.sets⟩

theorem findWatch_sub {val : Int → Option Bool} {x w : Int} {rest rest' : List Int}
    (e : findWatch val x rest = some (w, rest')) : w ∈ rest ∧ ∀ l ∈ rest', l = x ∨ l ∈ rest := by
  induction rest generalizing rest' with
  | nil => simp [findWatch] at e
  | cons o rest ih =>
    simp only [findWatch] at e
    split at e
    · simp only [Option.some.injEq, Prod.mk.injEq] at e
      obtain ⟨rfl, rfl⟩ := e
      refine ⟨by simp, ?_⟩
      intro l hl
      rcases List.mem_cons.1 hl with h | h
      · exact Or.inl h
      · exact Or.inr (by simp [h])
    · cases hf : findWatch val x rest with
      | none => rw [hf] at e; simp at e
      | some r =>
        rw [hf] at e
        simp only [Option.some.injEq, Prod.mk.injEq] at e
        obtain ⟨rfl, rfl⟩ := e
        obtain ⟨k1, k2⟩ := ih hf
        refine ⟨by simp [k1], ?_⟩
        intro l hl
        rcases List.mem_cons.1 hl with h | h
        · exact Or.inr (by simp [h])
        · rcases k2 l h with h | h
          · exact Or.inl h
          · exact Or.inr (by simp [h])

theorem rewatch_sub {val : Int → Option Bool} {lits lits' : List Int} {lit : Int} {u : Option Int}
    (e : rewatch val lits lit = .ok (lits', u)) : (∀ l ∈ lits', l ∈ lits) ∧ ∀ x, u = some x → x ∈ lits := by
  unfold rewatch at e
  split at e
  · rename_i a b rest
    split at e
    · rename_i hab
      have hl : -lit ∈ a :: b :: rest := by rcases hab with h | h <;> simp [← h]
      have ho : (if a = -lit then b else a) ∈ a :: b :: rest := by split <;> simp
      simp only at e
      generalize (if a = -lit then b else a) = other at e ho
      split at e
      · cases e
        exact ⟨by intro l h; simp only [List.mem_cons] at h ⊢ hl ho; grind, by simp⟩
      · split at e
        · rename_i w rest' hf
          cases e
          obtain ⟨k1, k2⟩ := findWatch_sub hf
          refine ⟨?_, by simp⟩
          intro l h
          simp only [List.mem_cons] at h ⊢ hl ho
          rcases h with rfl | rfl | h
          · exact ho
          · exact Or.inr (Or.inr k1)
          · rcases k2 l h with rfl | h
            · exact hl
            · exact Or.inr (Or.inr h)
        · cases e
          refine ⟨?_, by intro x hx; cases hx; exact ho⟩
          intro l h; simp only [List.mem_cons] at h ⊢ hl ho; grind
    · cases e
  · split at e <;> cases e
  · cases e

theorem propClauses_chg (lit : Int) (pend : List Nat) {s s' : Solver} {o : Option Nat} (h : NZ s)
    (e : propClauses lit pend s = .ok (s', o)) : Chg s s' := by
  induction pend generalizing s with
  | nil => cases e; exact Chg.refl h
  | cons cid rest ih =>
    simp only [propClauses] at e
    cases hr : rewatch s.val (s.litsOf cid) lit with
    | error e' => rw [hr] at e; cases e
    | ok r =>
      obtain ⟨lits', u⟩ := r
      rw [hr] at e
      obtain ⟨k1, k2⟩ := rewatch_sub hr
      have k3 := setHeap_chg h cid (c := { s.heap cid with lits := lits' }) (fun l hl => h.cls cid l (k1 l hl))
      simp only at e
      split at e
      · rename_i w t
        have k4 : Chg s (watch { s with heap := fset s.heap cid { s.heap cid with lits := _ } } (-w) cid) :=
          ⟨⟨k3.nz.cls, k3.nz.trail⟩, k3.sets⟩
        cases u with
        | none => exact k4.trans (ih k4.nz e)
        | some u =>
          simp only at e
          split at e
          · cases e; exact ⟨⟨k4.nz.cls, k4.nz.trail⟩, k4.sets⟩
          · have k5 := k4.trans (enqueue_chg k4.nz (h.cls cid u (k2 u rfl)) cid)
            exact k5.trans (ih k5.nz e)
      · cases e

theorem propagate_chg (fuel : Nat) {s s' : Solver} {o : Option Nat} (h : NZ s)
    (e : propagate fuel s = .ok (s', o)) : Chg s s' := by
  induction fuel generalizing s with
  | zero =>
    unfold propagate at e
    split at e
    · cases e; exact Chg.refl h
    · cases e
  | succ n ih =>
    unfold propagate at e
    split at e
    · cases e; exact Chg.refl h
    · rename_i lit queue _
      simp only at e
      have h1 : NZ { s with propQueue := queue, watches := fset s.watches lit [] } := ⟨h.cls, h.trail⟩
      split at e
      · cases e
      · rename_i hp; cases e; exact ⟨(propClauses_chg lit _ h1 hp).nz, (propClauses_chg lit _ h1 hp).sets⟩
      · rename_i hp
        have k := propClauses_chg lit _ h1 hp
        exact Chg.trans ⟨k.nz, k.sets⟩ (ih k.nz e)

theorem undoOne_chg {s : Solver} (h : NZ s) : Chg s s.undoOne := by
  unfold undoOne
  split
  · exact Chg.refl h
  · rename_i p rest hp
    refine ⟨⟨h.cls, fun l hl => h.trail l (by rw [hp]; simp [show l ∈ rest from hl])⟩,
      Sets.one s.assignments (iabs_pos' (h.trail p (by rw [hp]; simp))) none⟩

theorem undoN_chg (n : Nat) {s : Solver} (h : NZ s) : Chg s (undoN n s) := by
  induction n generalizing s with
  | zero => exact Chg.refl h
  | succ n ih => exact (undoOne_chg h).trans (ih (undoOne_chg h).nz)

theorem cancel_chg {s : Solver} (h : NZ s) : Chg s s.cancel := by
  unfold cancel
  split
  · exact Chg.refl h
  · rename_i n lim _
    have h1 : NZ { s with trailLim := lim } := ⟨h.cls, h.trail⟩
    exact ⟨(undoN_chg _ h1).nz, (undoN_chg _ h1).sets⟩

theorem cancelN_chg (n : Nat) {s : Solver} (h : NZ s) : Chg s (cancelN n s) := by
  induction n generalizing s with
  | zero => exact Chg.refl h
  | succ n ih => exact (cancel_chg h).trans (ih (cancel_chg h).nz)

theorem popSeen_chg (seen t : List Int) {s s' : Solver} {ct ct' : List Nat} {p : Int} {c : Nat} (h : NZ s)
    (hts : s.trail = t) (e : popSeen seen t s ct = .ok (p, c, s', ct')) : Chg s s' ∧ p ≠ 0 := by
  induction t generalizing s ct with
  | nil => cases e
  | cons q rest ih =>
    simp only [popSeen] at e
    split at e
    · cases e
    · split at e
      · cases e; exact ⟨undoOne_chg h, h.trail p (by rw [hts]; simp)⟩
      · have k := undoOne_chg h
        have ht : s.undoOne.trail = rest := by unfold undoOne; rw [hts]
        obtain ⟨k1, k2⟩ := ih k.nz ht e
        exact ⟨k.trans k1, k2⟩

theorem traceReason_nz (s : Solver) (reason : List Int) (hr : ∀ l ∈ reason, l ≠ 0) {a : Ana} (ha : ∀ l ∈ a.learned, l ≠ 0) :
    ∀ l ∈ (s.traceReason reason a).learned, l ≠ 0 := by
  induction reason generalizing a with
  | nil => exact ha
  | cons x t ih =>
    have hx := hr x (by simp)
    have ht : ∀ l ∈ t, l ≠ 0 := fun l hl => hr l (by simp [hl])
    simp only [traceReason]
    split
    · exact ih ht ha
    · split
      · exact ih ht ha
      · apply ih ht
        intro l hl
        rcases List.mem_append.1 (show l ∈ a.learned ++ [-x] from hl) with h | h
        · exact ha l h
        · simp only [List.mem_singleton] at h; omega

theorem analyzeLoop_chg (fuel : Nat) {s s' : Solver} {a a' : Ana} {c : Nat} {p : Option Int} {p' : Int} {ct ct' : List Nat}
    (h : NZ s) (ha : ∀ l ∈ a.learned, l ≠ 0) (e : analyzeLoop fuel s a c p ct = .ok (s', a', p', ct')) :
    Chg s s' ∧ p' ≠ 0 ∧ ∀ l ∈ a'.learned, l ≠ 0 := by
  induction fuel generalizing s a c p ct with
  | zero => cases e
  | succ n ih =>
    simp only [analyzeLoop] at e
    have hr : ∀ l ∈ calculateReason (s.litsOf c) p, l ≠ 0 := by
      intro l hl
      simp only [calculateReason, List.mem_map, List.mem_filter] at hl
      obtain ⟨x, ⟨hx, -⟩, rfl⟩ := hl
      have := h.cls c x hx
      omega
    have hl := traceReason_nz s _ hr ha
    split at e
    · cases e
    · rename_i p1 c1 s1 ct1 hp
      obtain ⟨k1, k2⟩ := popSeen_chg _ _ h rfl hp
      split at e
      · cases e; exact ⟨k1, k2, hl⟩
      · obtain ⟨k3, k4, k5⟩ := ih k1.nz (a := { (s.traceReason (calculateReason (s.litsOf c) p) a) with
          counter := (s.traceReason (calculateReason (s.litsOf c) p) a).counter - 1 }) hl e
        exact ⟨k1.trans k3, k4, k5⟩

theorem analyze_chg {s s' : Solver} {c l : Nat} {bt : Int} (h : NZ s) (e : s.analyze c = .ok (s', l, bt)) : Chg s s' := by
  unfold analyze at e
  split at e
  · cases e
  · rename_i s1 a p ct ha
    obtain ⟨k1, k2, k3⟩ := analyzeLoop_chg _ h (by simp) ha
    have k4 : Chg s1 (s1.alloc (Clause.new (a.learned ++ [-p]) true none)).1 := alloc_chg k1.nz (by
      intro x hx
      have hx : x ∈ fromkeys (a.learned ++ [-p]) := hx
      rw [mem_fromkeys] at hx
      rcases List.mem_append.1 hx with h | h
      · exact k3 x h
      · simp only [List.mem_singleton] at h; omega)
    cases e
    exact ⟨⟨k4.nz.cls, k4.nz.trail⟩, k1.sets.trans k4.sets⟩

theorem swapIdx_sub (l : List Int) (i j : Nat) : ∀ x ∈ swapIdx l i j, x ∈ l := by
  intro x hx
  unfold swapIdx at hx
  split at hx
  · rename_i a b ha hb
    rcases List.mem_or_eq_of_mem_set hx with h | h
    · rcases List.mem_or_eq_of_mem_set h with h | h
      · exact h
      · subst h; exact List.mem_of_getElem? hb
    · subst h; exact List.mem_of_getElem? ha
  · exact hx

theorem recordLits_sub (levels : Int → Int) (lits : List Int) : ∀ x ∈ recordLits levels lits, x ∈ lits := by
  intro x hx
  unfold recordLits at hx
  simp only at hx
  split at hx
  · exact swapIdx_sub _ _ _ x (swapIdx_sub _ _ _ x hx)
  · exact swapIdx_sub _ _ _ x hx

theorem record_chg {s s' : Solver} {cid : Nat} (h : NZ s) (e : s.record cid = .ok s') : Chg s s' := by
  unfold record at e
  simp only at e
  have hl : ∀ l ∈ recordLits s.levels (s.litsOf cid), l ≠ 0 := fun l hl => h.cls cid l (recordLits_sub _ _ l hl)
  have k1 := setHeap_chg h cid (c := { s.heap cid with lits := recordLits s.levels (s.litsOf cid) }) hl
  split at e
  · cases e
  · rename_i s1 hs1
    have k2 := k1.trans (addClauseObj_chg k1.nz hs1)
    split at e
    · cases e
    · rename_i x t hx
      cases e
      exact k2.trans (enqueue_chg k2.nz (hl x (by rw [hx]; simp)) cid)

end Solver
end Verif.Sat
