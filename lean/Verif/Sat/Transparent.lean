import Verif.AssignmentSetLemmas
import Verif.Sat.Logger
/-
The solver never looks at the changelog of its assignment set: two solvers whose states differ only in the changelog do the
same thing.
-/
namespace Verif.Sat
open Verif

/-- equal but for the changelog -/
structure AE (a b : ASet) : Prop where
  data : b.data = a.data
  seen : b.seen = a.seen
  assigned : b.assigned = a.assigned
  newKeys : b.newKeys = a.newKeys

theorem AE.refl (a : ASet) : AE a a := ⟨rfl, rfl, rfl, rfl⟩
theorem AE.symm {a b : ASet} (h : AE a b) : AE b a := ⟨h.data.symm, h.seen.symm, h.assigned.symm, h.newKeys.symm⟩
theorem AE.trans {a b c : ASet} (h : AE a b) (h' : AE b c) : AE a c :=
  ⟨h'.data.trans h.data, h'.seen.trans h.seen, h'.assigned.trans h.assigned, h'.newKeys.trans h.newKeys⟩

theorem AE.same {a b : ASet} (h : AE a b) : ASet.Same a b := ⟨h.data, h.seen, h.assigned⟩

theorem AE.delItem {a b : ASet} (h : AE a b) (k : Int) : AE (a.delItem k) (b.delItem k) := by
  obtain ⟨h1, h2, h3, h4⟩ := h
  unfold ASet.delItem
  simp only [h1]
  split
  · exact ⟨rfl, by simp only [h2], h3, h4⟩
  · exact ⟨by simp only [ASet.updateDiff], by simp only [ASet.updateDiff, h2], by simp only [ASet.updateDiff, h3],
      by simp only [ASet.updateDiff, h4]⟩

theorem AE.setItem {a b : ASet} (h : AE a b) (k : Int) (v : Option Bool) : AE (a.setItem k v) (b.setItem k v) := by
  have h0 : AE (if iabs k ∈ a.seen then a else { a with newKeys := sadd (iabs k) a.newKeys })
      (if iabs k ∈ b.seen then b else { b with newKeys := sadd (iabs k) b.newKeys }) := by
    have hs := h.seen
    by_cases hk : iabs k ∈ a.seen
    · rw [if_pos hk, if_pos (by rw [hs]; exact hk)]; exact h
    · rw [if_neg hk, if_neg (by rw [hs]; exact hk)]
      exact ⟨h.data, h.seen, h.assigned, by simp only [h.newKeys]⟩
  unfold ASet.setItem
  simp only
  generalize (if iabs k ∈ a.seen then a else { a with newKeys := sadd (iabs k) a.newKeys }) = a' at h0
  generalize (if iabs k ∈ b.seen then b else { b with newKeys := sadd (iabs k) b.newKeys }) = b' at h0
  cases v with
  | none =>
    have h1 := h0.delItem k
    exact ⟨h1.data, by simp only [h1.seen], h1.assigned, h1.newKeys⟩
  | some x =>
    exact ⟨by simp only [ASet.updateDiff, h0.data], by simp only [ASet.updateDiff, h0.seen],
      by simp only [ASet.updateDiff, h0.assigned], h0.newKeys⟩

/-- related results -/
inductive RelE {ε α : Type} (R : α → α → Prop) : Except ε α → Except ε α → Prop
  | error (e : ε) : RelE R (.error e) (.error e)
  | ok {a b : α} : R a b → RelE R (.ok a) (.ok b)

namespace Solver

/-- equal but for the changelog -/
def SE (s s' : Solver) : Prop := ∃ b, AE s.assignments b ∧ s' = { s with assignments := b }

theorem SE.refl (s : Solver) : SE s s := ⟨s.assignments, AE.refl _, rfl⟩

theorem SE.val {s s' : Solver} (h : SE s s') : s'.val = s.val := by
  obtain ⟨b, hb, rfl⟩ := h
  funext l
  show b.data l = s.assignments.data l
  rw [hb.data]

theorem SE.enqueue {s s' : Solver} (h : SE s s') (l : Int) (c : Nat) :
    SE (s.enqueue l c).1 (s'.enqueue l c).1 ∧ (s'.enqueue l c).2 = (s.enqueue l c).2 := by
  have hv := h.val
  unfold Solver.enqueue
  rw [hv]
  obtain ⟨b, hb, rfl⟩ := h
  cases s.val l with
  | some x => exact ⟨⟨b, hb, rfl⟩, rfl⟩
  | none => exact ⟨⟨b.setItem (iabs l) (some (decide (0 < l))), hb.setItem (iabs l) (some (decide (0 < l))), rfl⟩, rfl⟩

theorem SE.mkUnsat {s s' : Solver} (h : SE s s') (c l : Nat) : s'.mkUnsat c l = s.mkUnsat c l := by
  obtain ⟨b, hb, rfl⟩ := h; rfl

theorem SE.addClauseObj {s s' : Solver} (h : SE s s') (cid : Nat) : RelE SE (s.addClauseObj cid) (s'.addClauseObj cid) := by
  have hl : s'.litsOf cid = s.litsOf cid := by obtain ⟨b, hb, rfl⟩ := h; rfl
  unfold Solver.addClauseObj
  rw [hl]
  cases s.litsOf cid with
  | nil => obtain ⟨b, hb, rfl⟩ := h; exact .ok ⟨b, hb, rfl⟩
  | cons p t =>
    cases t with
    | nil =>
      obtain ⟨k1, k2⟩ := h.enqueue p cid
      simp only [k2]
      split
      · obtain ⟨b, hb, e⟩ := k1
        rw [e]
        exact .ok ⟨b, hb, rfl⟩
      · rw [k1.mkUnsat]; exact .error _
    | cons q t => obtain ⟨b, hb, rfl⟩ := h; exact .ok ⟨b, hb, rfl⟩

/-- the relation on results of `propagate` -/
def SP {α : Type} (x y : Solver × α) : Prop := SE x.1 y.1 ∧ y.2 = x.2

theorem SE.propClauses (lit : Int) (pend : List Nat) {s s' : Solver} (h : SE s s') :
    RelE SP (propClauses lit pend s) (propClauses lit pend s') := by
  induction pend generalizing s s' with
  | nil => exact .ok ⟨h, rfl⟩
  | cons cid rest ih =>
    have hl : s'.litsOf cid = s.litsOf cid := by obtain ⟨b, hb, rfl⟩ := h; rfl
    simp only [Solver.propClauses, hl, h.val]
    cases hr : rewatch s.val (s.litsOf cid) lit with
    | error e => exact .error e
    | ok r =>
      obtain ⟨lits', u⟩ := r
      simp only
      cases lits' with
      | nil => exact .error _
      | cons x t =>
        cases t with
        | nil => exact .error _
        | cons w t =>
          simp only
          have h1 : SE (watch { s with heap := fset s.heap cid { s.heap cid with lits := x :: w :: t } } (-w) cid)
              (watch { s' with heap := fset s'.heap cid { s'.heap cid with lits := x :: w :: t } } (-w) cid) := by
            obtain ⟨b, hb, rfl⟩ := h; exact ⟨b, hb, rfl⟩
          generalize watch { s with heap := fset s.heap cid { s.heap cid with lits := x :: w :: t } } (-w) cid = s1 at h1
          generalize watch { s' with heap := fset s'.heap cid { s'.heap cid with lits := x :: w :: t } } (-w) cid = s1' at h1
          cases u with
          | none => exact ih h1
          | some u =>
            simp only [h1.val]
            split
            · refine .ok ⟨?_, rfl⟩
              obtain ⟨b, hb, rfl⟩ := h1; exact ⟨b, hb, rfl⟩
            · exact ih (h1.enqueue u cid).1

theorem SE.propagate (fuel : Nat) {s s' : Solver} (h : SE s s') : RelE SP (propagate fuel s) (propagate fuel s') := by
  induction fuel generalizing s s' with
  | zero =>
    have hq : s'.propQueue = s.propQueue := by obtain ⟨b, hb, rfl⟩ := h; rfl
    unfold Solver.propagate
    rw [hq]
    cases s.propQueue with
    | nil => exact .ok ⟨h, rfl⟩
    | cons l q => exact .error _
  | succ n ih =>
    have hq : s'.propQueue = s.propQueue := by obtain ⟨b, hb, rfl⟩ := h; rfl
    have hw : s'.watches = s.watches := by obtain ⟨b, hb, rfl⟩ := h; rfl
    unfold Solver.propagate
    rw [hq]
    cases s.propQueue with
    | nil => exact .ok ⟨h, rfl⟩
    | cons lit queue =>
      simp only [hw]
      have h1 : SE { s with propQueue := queue, watches := fset s.watches lit [] }
          { s' with propQueue := queue, watches := fset s.watches lit [] } := by
        obtain ⟨b, hb, rfl⟩ := h; exact ⟨b, hb, rfl⟩
      have h2 := SE.propClauses lit (s.watches lit).reverse h1
      generalize Solver.propClauses lit (s.watches lit).reverse _ = r at h2 ⊢
      generalize Solver.propClauses lit (s.watches lit).reverse _ = r' at h2 ⊢
      cases h2 with
      | error e => exact .error e
      | @ok x y hxy =>
        obtain ⟨x1, x2⟩ := x
        obtain ⟨y1, y2⟩ := y
        obtain ⟨k1, rfl⟩ := hxy
        cases y2 with
        | none => exact ih k1
        | some c => exact .ok ⟨k1, rfl⟩

theorem SE.undoOne {s s' : Solver} (h : SE s s') : SE s.undoOne s'.undoOne := by
  have ht : s'.trail = s.trail := by obtain ⟨b, hb, rfl⟩ := h; rfl
  unfold Solver.undoOne
  rw [ht]
  split
  · exact h
  · rename_i p rest _
    obtain ⟨b, hb, rfl⟩ := h
    exact ⟨b.setItem (iabs p) none, hb.setItem (iabs p) none, rfl⟩

theorem SE.undoN (n : Nat) {s s' : Solver} (h : SE s s') : SE (undoN n s) (undoN n s') := by
  induction n generalizing s s' with
  | zero => exact h
  | succ n ih => exact ih h.undoOne

theorem SE.cancel {s s' : Solver} (h : SE s s') : SE s.cancel s'.cancel := by
  have hl : s'.trailLim = s.trailLim := by obtain ⟨b, hb, rfl⟩ := h; rfl
  have ht : s'.trail = s.trail := by obtain ⟨b, hb, rfl⟩ := h; rfl
  unfold Solver.cancel
  rw [hl, ht]
  cases s.trailLim with
  | nil => exact h
  | cons n lim =>
    apply SE.undoN
    obtain ⟨b, hb, rfl⟩ := h; exact ⟨b, hb, rfl⟩

theorem SE.cancelN (n : Nat) {s s' : Solver} (h : SE s s') : SE (cancelN n s) (cancelN n s') := by
  induction n generalizing s s' with
  | zero => exact h
  | succ n ih => exact ih h.cancel

theorem SE.decisionLevel {s s' : Solver} (h : SE s s') : s'.decisionLevel = s.decisionLevel := by
  obtain ⟨b, hb, rfl⟩ := h; rfl

theorem SE.cancelUntil {s s' : Solver} (h : SE s s') (k : Int) : SE (s.cancelUntil k) (s'.cancelUntil k) := by
  unfold Solver.cancelUntil; rw [h.decisionLevel]; exact SE.cancelN _ h

/-- the relation on results of `popSeen` and `analyze` -/
theorem SE.popSeen (seen t : List Int) {s s' : Solver} (h : SE s s') (ct : List Nat) :
    RelE (fun x y => y.1 = x.1 ∧ y.2.1 = x.2.1 ∧ SE x.2.2.1 y.2.2.1 ∧ y.2.2.2 = x.2.2.2)
      (popSeen seen t s ct) (popSeen seen t s' ct) := by
  induction t generalizing s s' ct with
  | nil => exact .error _
  | cons p rest ih =>
    have ha : s'.assigning = s.assigning := by obtain ⟨b, hb, rfl⟩ := h; rfl
    simp only [Solver.popSeen, ha]
    cases s.assigning (iabs p) with
    | none => exact .error _
    | some c =>
      simp only
      split
      · exact .ok ⟨rfl, rfl, h.undoOne, rfl⟩
      · exact ih h.undoOne _

theorem SE.traceReason {s s' : Solver} (h : SE s s') (reason : List Int) (a : Ana) :
    s'.traceReason reason a = s.traceReason reason a := by
  have h1 := h.decisionLevel
  have h2 : s'.levels = s.levels := by obtain ⟨b, hb, rfl⟩ := h; rfl
  induction reason generalizing a with
  | nil => rfl
  | cons l t ih => simp only [Solver.traceReason, h1, h2, ih]

theorem SE.analyzeLoop (fuel : Nat) {s s' : Solver} (h : SE s s') (a : Ana) (c : Nat) (p : Option Int) (ct : List Nat) :
    RelE (fun x y => SE x.1 y.1 ∧ y.2 = x.2) (analyzeLoop fuel s a c p ct) (analyzeLoop fuel s' a c p ct) := by
  induction fuel generalizing s s' a c p ct with
  | zero => exact .error _
  | succ n ih =>
    have hl : s'.litsOf c = s.litsOf c := by obtain ⟨b, hb, rfl⟩ := h; rfl
    have ht : s'.trail = s.trail := by obtain ⟨b, hb, rfl⟩ := h; rfl
    simp only [Solver.analyzeLoop, hl, ht, h.traceReason]
    generalize s.traceReason (calculateReason (s.litsOf c) p) a = a'
    have h2 := SE.popSeen a'.seen s.trail h ct
    generalize Solver.popSeen a'.seen s.trail s ct = r at h2 ⊢
    generalize Solver.popSeen a'.seen s.trail s' ct = r' at h2 ⊢
    cases h2 with
    | error e => exact .error e
    | @ok x y hxy =>
      obtain ⟨x1, x2, x3, x4⟩ := x
      obtain ⟨y1, y2, y3, y4⟩ := y
      obtain ⟨rfl, rfl, k, rfl⟩ := hxy
      simp only at k ⊢
      split
      · exact .ok ⟨k, rfl⟩
      · exact ih k _ _ _ _

theorem SE.analyze {s s' : Solver} (h : SE s s') (c : Nat) :
    RelE (fun x y => SE x.1 y.1 ∧ y.2 = x.2) (s.analyze c) (s'.analyze c) := by
  have ht : s'.trail = s.trail := by obtain ⟨b, hb, rfl⟩ := h; rfl
  unfold Solver.analyze
  rw [ht]
  have h2 := SE.analyzeLoop (s.trail.length + 1) h ⟨[], 0, [], 0⟩ c none [c]
  generalize Solver.analyzeLoop (s.trail.length + 1) s ⟨[], 0, [], 0⟩ c none [c] = r at h2 ⊢
  generalize Solver.analyzeLoop (s.trail.length + 1) s' ⟨[], 0, [], 0⟩ c none [c] = r' at h2 ⊢
  cases h2 with
  | error e => exact .error e
  | @ok x y hxy =>
    obtain ⟨x1, x2, x3, x4⟩ := x
    obtain ⟨y1, y2⟩ := y
    obtain ⟨⟨b, hb, e⟩, k2⟩ := hxy
    simp only at e k2
    subst e k2
    exact .ok ⟨⟨b, hb, rfl⟩, rfl⟩

/-- the end of `record`, after the clause was added -/
def recordRest (cid : Nat) (lits : List Int) : Except Err Solver → Except Err Solver
  | .error e => .error e
  | .ok s => match lits with
    | [] => .error .indexError
    | l :: _ => .ok (s.enqueue l cid).1

theorem record_rest (s : Solver) (cid : Nat) : s.record cid = recordRest cid (recordLits s.levels (s.litsOf cid))
    ({ s with heap := fset s.heap cid { s.heap cid with lits := recordLits s.levels (s.litsOf cid) } }.addClauseObj cid) := by
  unfold Solver.record recordRest
  rfl

theorem recordRest_rel {r r' : Except Err Solver} (h : RelE SE r r') (cid : Nat) (lits : List Int) :
    RelE SE (recordRest cid lits r) (recordRest cid lits r') := by
  cases h with
  | error e => exact .error e
  | ok k =>
    cases lits with
    | nil => exact .error _
    | cons l t => exact .ok (k.enqueue l cid).1

theorem SE.record {s s' : Solver} (h : SE s s') (cid : Nat) : RelE SE (s.record cid) (s'.record cid) := by
  obtain ⟨b, hb, rfl⟩ := h
  rw [record_rest, record_rest]
  refine recordRest_rel (SE.addClauseObj ?_ cid) cid _
  exact ⟨b, hb, rfl⟩

theorem SE.assume {s s' : Solver} (h : SE s s') (p : Int) : SE (s.assume p) (s'.assume p) := by
  unfold Solver.assume
  refine (SE.enqueue ?_ p 0).1
  obtain ⟨b, hb, rfl⟩ := h; exact ⟨b, hb, rfl⟩

theorem SE.propFuel {s s' : Solver} (h : SE s s') : s'.propFuel = s.propFuel := by
  obtain ⟨b, hb, rfl⟩ := h
  show s.propQueue.length + b.seen.length + 1 = _
  rw [hb.seen]; rfl

theorem SE.allAssigned {s s' : Solver} (h : SE s s') : s'.allAssigned = s.allAssigned := by
  obtain ⟨b, hb, rfl⟩ := h
  show decide (b.assigned.length = b.seen.length) = _
  rw [hb.seen, hb.assigned]; rfl

/-- related turns: the same thing happens, in states that are equal but for the changelog -/
inductive RelT {σ τ : Type} (R : σ → τ → Prop) : Turn σ → Turn τ → Prop
  | done {s s' a b} : SE s s' → AE a b → RelT R (.done s a) (.done s' b)
  | fail (e) {s s'} : SE s s' → RelT R (.fail e s) (.fail e s')
  | next {ps qs s s'} : R ps qs → SE s s' → RelT R (.next ps s) (.next qs s')

end Solver

/-- Two policies that answer alike, as long as the assignments differ in the changelog only. -/
def Alike {σ τ : Type} (pol : Policy σ) (pol' : Policy τ) (R : σ → τ → Prop) : Prop :=
  ∀ ps qs a b cs, R ps qs → AE a b →
    (∃ e, pol.next ps a cs = .error e ∧ pol'.next qs b cs = .error e) ∨
    (∃ ps' qs' a' b' p, pol.next ps a cs = .ok (ps', a', p) ∧ pol'.next qs b cs = .ok (qs', b', p) ∧ R ps' qs' ∧ AE a' b')

namespace Solver

theorem turn_alike {σ τ : Type} {pol : Policy σ} {pol' : Policy τ} {R : σ → τ → Prop} (hp : Alike pol pol' R) (root : Nat)
    {ps : σ} {qs : τ} (hR : R ps qs) {s s' : Solver} (h : SE s s') : RelT R (turn pol root ps s) (turn pol' root qs s') := by
  unfold turn
  rw [h.propFuel]
  have h1 := SE.propagate s.propFuel h
  generalize Solver.propagate s.propFuel s = r at h1 ⊢
  generalize Solver.propagate s.propFuel s' = r' at h1 ⊢
  cases h1 with
  | error e => exact .fail e h
  | @ok x y hxy =>
    obtain ⟨s1, o⟩ := x
    obtain ⟨s1', o'⟩ := y
    obtain ⟨k1, rfl⟩ := hxy
    simp only at k1
    cases o' with
    | none =>
      simp only [k1.allAssigned]
      split
      · refine .done k1 ?_
        obtain ⟨b, hb, rfl⟩ := k1
        exact ⟨hb.data, hb.seen, hb.assigned, hb.newKeys⟩
      · have hA : AE s1.assignments s1'.assignments := by obtain ⟨b, hb, rfl⟩ := k1; exact hb
        have hC : s1'.clauses.map s1'.heap = s1.clauses.map s1.heap := by obtain ⟨b, hb, rfl⟩ := k1; rfl
        rw [hC]
        rcases hp ps qs s1.assignments s1'.assignments (s1.clauses.map s1.heap) hR hA with ⟨e, k2, k3⟩ | ⟨ps', qs', a', b', p, k2, k3, k4, k5⟩
        · rw [k2, k3]; exact .fail e k1
        · rw [k2, k3]
          refine .next k4 (SE.assume ?_ p)
          obtain ⟨b, hb, rfl⟩ := k1; exact ⟨b', k5, rfl⟩
    | some c =>
      simp only
      have h2 := k1.analyze c
      generalize s1.analyze c = r at h2 ⊢
      generalize s1'.analyze c = r' at h2 ⊢
      cases h2 with
      | error e => exact .fail e k1
      | @ok x y hxy =>
        obtain ⟨s2, l, bt⟩ := x
        obtain ⟨s2', lb⟩ := y
        obtain ⟨k2, e⟩ := hxy
        simp only at k2 e
        subst e
        simp only [k2.decisionLevel]
        split
        · rw [k2.mkUnsat]; exact .fail _ k2
        · have h3 := (k2.cancelUntil (max bt (root : Int))).record l
          generalize Solver.record _ l = r at h3 ⊢
          generalize Solver.record _ l = r' at h3 ⊢
          cases h3 with
          | error e => exact .fail e k2
          | ok k3 => exact .next hR k3

/-- related outcomes of a search -/
inductive RelS : Except (Err × Solver) (Solver × ASet) → Except (Err × Solver) (Solver × ASet) → Prop
  | ok {s s' a b} : SE s s' → AE a b → RelS (.ok (s, a)) (.ok (s', b))
  | error (e) {s s'} : SE s s' → RelS (.error (e, s)) (.error (e, s'))

theorem searchLoop_alike {σ τ : Type} {pol : Policy σ} {pol' : Policy τ} {R : σ → τ → Prop} (hp : Alike pol pol' R)
    (root n : Nat) {ps : σ} {qs : τ} (hR : R ps qs) {s s' : Solver} (h : SE s s') :
    RelS (searchLoop pol root n ps s) (searchLoop pol' root n qs s') := by
  induction n generalizing ps qs s s' with
  | zero => exact .error _ h
  | succ n ih =>
    simp only [searchLoop]
    have ht := turn_alike hp root hR h
    generalize turn pol root ps s = t at ht ⊢
    generalize turn pol' root qs s' = t' at ht ⊢
    cases ht with
    | done k1 k2 => exact .ok k1 k2
    | fail e k1 => exact .error e k1
    | next k1 k2 => exact ih k1 k2

end Solver

/-! #### The policies of the library -/

theorem AE.getChangelog {a b : ASet} (h : AE a b) : AE a b.getChangelog.1 := by
  unfold ASet.getChangelog
  split
  · exact h
  · exact ⟨h.data, h.seen, h.assigned, h.newKeys⟩

theorem consume_fields (a : ASet) : a.consumeChangelog.1.data = a.data ∧ a.consumeChangelog.1.seen = a.seen ∧
    a.consumeChangelog.1.assigned = a.assigned ∧ a.consumeChangelog.1.newKeys = [] := by
  have h := (AE.refl a).getChangelog
  unfold ASet.consumeChangelog
  exact ⟨h.data, h.seen, h.assigned, rfl⟩

theorem AE.consume {a b : ASet} (h : AE a b) : AE a.consumeChangelog.1 b.consumeChangelog.1 := by
  have h1 := consume_fields a
  have h2 := consume_fields b
  exact ⟨by rw [h1.1, h2.1, h.data], by rw [h1.2.1, h2.2.1, h.seen], by rw [h1.2.2.1, h2.2.2.1, h.assigned],
    by rw [h1.2.2.2, h2.2.2.2]⟩

/-- consuming a changelog with no new keys changes nothing but the changelog -/
theorem AE.consume_right {a b : ASet} (h : AE a b) (hn : a.newKeys = []) : AE a b.consumeChangelog.1 := by
  have h2 := consume_fields b
  exact ⟨by rw [h2.1, h.data], by rw [h2.2.1, h.seen], by rw [h2.2.2.1, h.assigned], by rw [h2.2.2.2, hn]⟩

/-- related answers of the policy: no new keys are left -/
inductive RelN : Except Err (PolState × ASet × Int) → Except Err (PolState × ASet × Int) → Prop
  | error (e) : RelN (.error e) (.error e)
  | ok (st) {a b} (p) : AE a b → a.newKeys = [] → RelN (.ok (st, a, p)) (.ok (st, b, p))

section
variable {V : Type} [LinearOrder V] (ver : Int → Option V)

theorem AE.bestSorted {a b : ASet} (h : AE a b) (l : List Int) : bestSorted l b = bestSorted l a := by
  unfold Sat.bestSorted; rw [h.assigned]

theorem AE.withoutAssigned {a b : ASet} (h : AE a b) (l : List Int) : withoutAssigned l b = withoutAssigned l a := by
  unfold Sat.withoutAssigned; rw [h.assigned]

theorem AE.bestCandidate {a b : ASet} (h : AE a b) (order : List Int → List Int) (l : List Int) :
    bestCandidate ver order l b = bestCandidate ver order l a := by
  unfold Sat.bestCandidate; rw [h.withoutAssigned]

theorem AE.checkChoice {a b : ASet} (h : AE a b) (hn : a.newKeys = []) (st : PolState) (o : Option Int) :
    RelN (checkChoice st a o) (checkChoice st b o) := by
  cases o with
  | none => exact .error _
  | some p =>
    have e : b.value p = a.value p := by unfold ASet.value; rw [h.data]
    simp only [Sat.checkChoice, e]
    split
    · exact .ok st p h hn
    · exact .error _

theorem AE.refresh {a b : ASet} (h : AE a b) (st : PolState) (cs : List Clause) :
    (refresh st b cs).1 = (refresh st a cs).1 ∧ AE (refresh st a cs).2 (refresh st b cs).2 ∧
    (refresh st a cs).2.newKeys = [] := by
  have h1 := h.consume
  refine ⟨?_, h1, (consume_fields a).2.2.2⟩
  have e : ∀ l, b.consumeChangelog.1.value l = a.consumeChangelog.1.value l := fun l => by unfold ASet.value; rw [h1.data]
  simp only [Sat.refresh, e, h1.assigned]

theorem AE.pickAfterRefresh {a b : ASet} (h : AE a b) (hn : a.newKeys = []) (order : List Int → List Int) (st : PolState) :
    RelN (pickAfterRefresh ver order st a) (pickAfterRefresh ver order st b) := by
  unfold Sat.pickAfterRefresh
  rw [h.bestCandidate, h.bestCandidate]
  split
  · exact .error _
  · exact h.checkChoice hn _ _
  · split
    · exact .error _
    · exact h.checkChoice hn _ _

theorem AE.pick {a b : ASet} (h : AE a b) (hn : a.newKeys = []) (order : List Int → List Int) (st : PolState)
    (cs : List Clause) : RelN (pick ver order st a cs) (pick ver order st b cs) := by
  unfold Sat.pick
  rw [h.bestSorted, h.bestCandidate, h.bestCandidate, h.withoutAssigned]
  split
  · exact h.checkChoice hn _ _
  · split
    · exact .error _
    · exact h.checkChoice hn _ _
    · split
      · exact .error _
      · exact h.checkChoice hn _ _
      · obtain ⟨k1, k2, k3⟩ := h.refresh { st with decisionSet := Sat.withoutAssigned st.decisionSet a } cs
        simp only [k1]
        exact k2.pickAfterRefresh ver k3 _ _

theorem AE.nextPackage {a b : ASet} (h : AE a b) (order : Nat → List Int → List Int) (st : PolState) (cs : List Clause) :
    RelN (nextPackage ver order st a cs) (nextPackage ver order st b cs) := by
  unfold Sat.nextPackage
  rw [h.newKeys]
  split
  · obtain ⟨k1, k2, k3⟩ := h.refresh st cs
    simp only [k1]
    exact k2.pick ver k3 _ _ _
  · rename_i hn
    exact h.pick ver (by simpa using hn) _ _ _

/-- The unwrapped package policy and the one the library uses answer alike. -/
theorem raw_alike_package (order : Nat → List Int → List Int) : Alike (rawPolicy ver order) (packagePolicy ver order) Eq := by
  rintro ps _ a b cs rfl h
  have h1 := h.getChangelog.nextPackage ver order ps cs
  simp only [rawPolicy, packagePolicy]
  generalize nextPackage ver order ps a cs = r at h1 ⊢
  generalize nextPackage ver order ps b.getChangelog.1 cs = r' at h1 ⊢
  cases h1 with
  | error e => exact Or.inl ⟨e, rfl, rfl⟩
  | ok st p k1 k2 => exact Or.inr ⟨st, st, _, _, p, rfl, rfl, rfl, k1.consume_right k2⟩

/-- The policy the library uses is the logger around the raw policy, the log left out. -/
theorem package_alike_logged (order : Nat → List Int → List Int) :
    Alike (packagePolicy ver order) (loggedPolicy (rawPolicy ver order)) (fun ps qs => qs.1 = ps) := by
  rintro _ qs a b cs rfl h
  have h1 := ((AE.refl a).getChangelog.symm.trans h).getChangelog.nextPackage ver order qs.1 cs
  simp only [rawPolicy, packagePolicy, loggedPolicy]
  generalize nextPackage ver order qs.1 a.getChangelog.1 cs = r at h1 ⊢
  generalize nextPackage ver order qs.1 b.getChangelog.1 cs = r' at h1 ⊢
  cases h1 with
  | error e => exact Or.inl ⟨e, rfl, rfl⟩
  | ok st p k1 k2 => exact Or.inr ⟨st, _, _, _, p, rfl, rfl, rfl, k1.consume⟩

end

end Verif.Sat
