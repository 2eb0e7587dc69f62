import Verif.Sat.Final
/-
Where the clauses of a solver state come from, and the states in which `SatisfiabilityError` is raised.
-/
namespace Verif.Sat
open Verif
namespace Solver

/-- The loop of `from_rules` (minisat.py:282-284), as `addRules`, but with the state in which an exception is raised:
when `enqueue` answers False it has not changed the state. -/
def addRulesX (s : Solver) : Nat → List (List Int) → Except (Err × Solver) Solver
  | _, [] => .ok s
  | i, r :: rs =>
    match (s.alloc (Clause.new r false (some i))).1.addClauseObj (s.alloc (Clause.new r false (some i))).2 with
    | .error e => .error (e, (s.alloc (Clause.new r false (some i))).1)
    | .ok s => s.addRulesX (i + 1) rs

end Solver

/-- `MiniSATSolver.from_rules(rules, policy).search()`, as `solveRules`, but with the state in which an exception is
raised; minisat.py:266-286, 422-451. -/
def solveRulesX {σ : Type} (pol : Policy σ) (fuel : Nat) (ps : σ) (rules : List (List Int)) :
    Except (Err × Solver) ASet :=
  match Solver.init.addRulesX 0 rules with
  | .error e => .error e
  | .ok s => match s.setupAssignments.search pol fuel ps with
    | .error e => .error e
    | .ok (_, a) => .ok a

namespace Solver

theorem addRulesX_eq (rs : List (List Int)) : ∀ (i : Nat) (s : Solver),
    s.addRules i rs = match s.addRulesX i rs with
      | .error e => .error e.1
      | .ok s => .ok s := by
  induction rs with
  | nil => intro i s; rfl
  | cons r rs ih =>
    intro i s
    simp only [addRules, addRulesX, addClause]
    cases h : (s.alloc (Clause.new r false (some i))).1.addClauseObj (s.alloc (Clause.new r false (some i))).2 with
    | error e => rfl
    | ok s' => exact ih _ _

end Solver

theorem solveRulesX_eq {σ : Type} (pol : Policy σ) (fuel : Nat) (ps : σ) (rules : List (List Int)) :
    solveRules pol fuel ps rules = match solveRulesX pol fuel ps rules with
      | .error e => .error e.1
      | .ok a => .ok a := by
  unfold solveRules solveRulesX Solver.fromRules
  rw [Solver.addRulesX_eq]
  cases Solver.init.addRulesX 0 rules with
  | error e => rfl
  | ok s =>
    simp only
    cases s.setupAssignments.search pol fuel ps with
    | error e => rfl
    | ok r => rfl

namespace Solver

/-- A clause object is the clause of a rule, with the literals in some order, or a learned clause with a trail. -/
def Origin (G : List (List Int)) (s : Solver) (c : Nat) : Prop :=
  ((s.heap c).learned = true ∧ (s.heap c).rule = none ∧ ∃ ct, (c, ct) ∈ s.clauseTrails) ∨
  ((s.heap c).learned = false ∧ ∃ i r, (s.heap c).rule = some i ∧ G[i]? = some r ∧ ((s.heap c).lits).Perm (fromkeys r))

/-- What is known about the objects of a state. -/
structure Prov (G : List (List Int)) (s : Solver) : Prop where
  pos : 0 < s.nextId
  zero : s.heap 0 = ⟨[], false, none⟩
  cell : ∀ c, 0 < c → c < s.nextId → Origin G s c
  trails : ∀ kv ∈ s.clauseTrails, kv.1 < s.nextId ∧ ∀ d ∈ kv.2, d < kv.1
  assigned : ∀ v c, s.assigning v = some c → c < s.nextId
  watched : ∀ k, ∀ c ∈ s.watches k, 0 < c ∧ c < s.nextId

theorem Prov.init (G : List (List Int)) : Prov G Solver.init where
  pos := by decide
  zero := rfl
  cell := by intro c h1 h2; simp only [Solver.init] at h2; omega
  trails := by intro kv h; cases h
  assigned := by intro v c h; cases h
  watched := by intro k c h; cases h

theorem Prov.ext {G : List (List Int)} {s s' : Solver} (h : Prov G s) (hn : s'.nextId = s.nextId)
    (ht : s'.clauseTrails = s.clauseTrails) (h0 : s'.heap 0 = s.heap 0)
    (hh : ∀ c, (s'.heap c).learned = (s.heap c).learned ∧ (s'.heap c).rule = (s.heap c).rule ∧
      ((s.heap c).learned = false → ((s'.heap c).lits).Perm (s.heap c).lits))
    (ha : ∀ v c, s'.assigning v = some c → c < s.nextId) (hw : ∀ k, ∀ c ∈ s'.watches k, 0 < c ∧ c < s.nextId) : Prov G s' where
  pos := by rw [hn]; exact h.pos
  zero := by rw [h0]; exact h.zero
  cell := by
    intro c h1 h2
    rw [hn] at h2
    obtain ⟨e1, e2, e3⟩ := hh c
    unfold Origin
    rw [e1, e2, ht]
    rcases h.cell c h1 h2 with k | ⟨k1, i, r, k2, k3, k4⟩
    · exact Or.inl k
    · exact Or.inr ⟨k1, i, r, k2, k3, (e3 k1).trans k4⟩
  trails := by rw [hn, ht]; exact h.trails
  assigned := by rw [hn]; exact ha
  watched := by rw [hn]; exact hw

/-- nothing but the assignments, the trail and the like has changed -/
theorem Prov.same {G : List (List Int)} {s s' : Solver} (h : Prov G s) (hn : s'.nextId = s.nextId)
    (ht : s'.clauseTrails = s.clauseTrails) (hh : s'.heap = s.heap) (ha : s'.assigning = s.assigning)
    (hw : s'.watches = s.watches) : Prov G s' :=
  h.ext hn ht (by rw [hh]) (fun c => by rw [hh]; exact ⟨rfl, rfl, fun _ => List.Perm.refl _⟩)
    (by rw [ha]; exact h.assigned) (by rw [hw]; exact h.watched)

theorem Prov.push {G : List (List Int)} {s : Solver} (h : Prov G s) (l : Int) {c : Nat} (hc : c < s.nextId) :
    Prov G (s.push l c) := by
  refine h.ext rfl rfl rfl (fun c => ⟨rfl, rfl, fun _ => List.Perm.refl _⟩) ?_ h.watched
  intro v d hd
  unfold Solver.push at hd
  simp only [fset] at hd
  split at hd
  · cases hd; exact hc
  · exact h.assigned v d hd

theorem Prov.enqueue {G : List (List Int)} {s : Solver} (h : Prov G s) (l : Int) {c : Nat} (hc : c < s.nextId) :
    Prov G (s.enqueue l c).1 := by
  unfold Solver.enqueue
  split
  · exact h
  · exact h.push l hc

theorem enqueue_nextId (s : Solver) (l : Int) (c : Nat) : (s.enqueue l c).1.nextId = s.nextId := by
  unfold enqueue; split <;> rfl
theorem enqueue_heap (s : Solver) (l : Int) (c : Nat) : (s.enqueue l c).1.heap = s.heap := by
  unfold enqueue; split <;> rfl
theorem enqueue_trails (s : Solver) (l : Int) (c : Nat) : (s.enqueue l c).1.clauseTrails = s.clauseTrails := by
  unfold enqueue; split <;> rfl

theorem Prov.watch {G : List (List Int)} {s : Solver} (h : Prov G s) (k : Int) {c : Nat} (hc : 0 < c ∧ c < s.nextId) :
    Prov G (s.watch k c) := by
  refine h.ext rfl rfl rfl (fun c => ⟨rfl, rfl, fun _ => List.Perm.refl _⟩) h.assigned ?_
  intro k' d hd
  unfold Solver.watch at hd
  simp only [fset] at hd
  split at hd
  · next e =>
    subst e
    rcases List.mem_append.1 hd with hd | hd
    · exact h.watched _ d hd
    · rw [List.mem_singleton] at hd; rw [hd]; exact hc
  · exact h.watched k' d hd

theorem Prov.addClauseObj {G : List (List Int)} {s s' : Solver} (h : Prov G s) {c : Nat} (hc : 0 < c ∧ c < s.nextId)
    (e : s.addClauseObj c = .ok s') :
    Prov G s' ∧ s'.nextId = s.nextId ∧ s'.heap = s.heap ∧ s'.clauseTrails = s.clauseTrails := by
  unfold Solver.addClauseObj at e
  split at e
  · cases e; exact ⟨h.same rfl rfl rfl rfl rfl, rfl, rfl, rfl⟩
  · next l hl =>
    simp only at e
    split at e
    · cases e
      exact ⟨(h.enqueue l hc.2).same rfl rfl rfl rfl rfl, enqueue_nextId s l c, enqueue_heap s l c, enqueue_trails s l c⟩
    · cases e
  · cases e
    exact ⟨((h.watch _ hc).watch _ (by exact hc)).same rfl rfl rfl rfl rfl, rfl, rfl, rfl⟩

/-- a new clause object -/
theorem Prov.alloc {G : List (List Int)} {s : Solver} (h : Prov G s) {r : List Int} {i : Nat} (hr : G[i]? = some r) :
    Prov G (s.alloc (Clause.new r false (some i))).1 where
  pos := Nat.succ_pos _
  zero := by
    show fset s.heap s.nextId _ 0 = _
    rw [fset_ne _ _ (by have := h.pos; omega)]
    exact h.zero
  cell := by
    intro c h1 h2
    have h2' : c < s.nextId + 1 := h2
    show Origin G _ c
    unfold Origin
    show (((fset s.heap s.nextId (Clause.new r false (some i))) c).learned = true ∧ _ ∧ _) ∨ _
    by_cases e : c = s.nextId
    · subst e
      right
      simp only [Solver.alloc, fset_same]
      exact ⟨rfl, i, r, rfl, hr, List.Perm.refl _⟩
    · simp only [Solver.alloc, fset_ne _ _ e]
      exact h.cell c h1 (by omega)
  trails := by
    intro kv hk
    exact ⟨Nat.lt_succ_of_lt (h.trails kv hk).1, (h.trails kv hk).2⟩
  assigned := fun v c hc => Nat.lt_succ_of_lt (h.assigned v c hc)
  watched := fun k c hc => ⟨(h.watched k c hc).1, Nat.lt_succ_of_lt (h.watched k c hc).2⟩

/-- the rules from position `i` on are added; either all of them, or the state in which the exception is raised is good -/
theorem Prov.addRulesX {G : List (List Int)} : ∀ (rs : List (List Int)) (i : Nat) (s : Solver), Prov G s →
    (∀ k r, rs[k]? = some r → G[i + k]? = some r) →
    match s.addRulesX i rs with
    | .ok s' => Prov G s'
    | .error (e, s') => Prov G s' ∧ ∃ c, c < s'.nextId ∧ 0 < c ∧ (s'.heap c).learned = false ∧ e = s'.mkUnsat c c ∧
        ∃ l, s'.litsOf c = [l] ∧ s'.val l = some false
  | [], i, s, h, _ => h
  | r :: rs, i, s, h, hG => by
    have hal := h.alloc (hG 0 r rfl)
    rw [Solver.addRulesX]
    cases e : (s.alloc (Clause.new r false (some i))).1.addClauseObj (s.alloc (Clause.new r false (some i))).2 with
    | ok s' =>
      simp only
      refine Prov.addRulesX rs (i + 1) s' (hal.addClauseObj ⟨h.pos, Nat.lt_succ_self _⟩ e).1 ?_
      intro k q hk
      have := hG (k + 1) q (by simpa using hk)
      rwa [show i + (k + 1) = i + 1 + k by omega] at this
    | error er =>
      simp only
      refine ⟨hal, s.nextId, Nat.lt_succ_self _, h.pos, ?_, ?_⟩
      · show (fset s.heap s.nextId (Clause.new r false (some i)) s.nextId).learned = false
        rw [fset_same]; rfl
      · unfold Solver.addClauseObj at e
        split at e
        · cases e
        · next l hl =>
          simp only [Solver.enqueue] at e
          cases hv : (s.alloc (Clause.new r false (some i))).1.val l with
          | none => simp only [hv, if_true] at e; cases e
          | some b =>
            simp only [hv] at e
            split at e
            · cases e
            · next hb =>
              cases e
              refine ⟨rfl, l, hl, ?_⟩
              have : b = false := by simpa using hb
              rw [hv, this]
        · cases e

theorem Prov.setup {G : List (List Int)} {s : Solver} (h : Prov G s) : Prov G s.setupAssignments :=
  h.same rfl rfl rfl rfl rfl

/-! ### propagation -/

theorem rewatch_perm {val : Int → Option Bool} {lits lits' : List Int} {lit : Int} {u : Option Int}
    (h : rewatch val lits lit = .ok (lits', u)) : lits'.Perm lits := by
  unfold rewatch at h
  split at h
  · next a b rest =>
    split at h
    · next hab =>
      have hp : ((if a = -lit then b else a) :: -lit :: rest).Perm (a :: b :: rest) := by
        split
        · next e => subst e; exact List.Perm.swap _ _ _
        · next e => rw [hab.resolve_left e]
      generalize (if a = -lit then b else a) = other at h hp
      dsimp only at h
      by_cases hv : val other = some true
      · rw [if_pos hv] at h
        cases h; exact hp
      · rw [if_neg hv] at h
        cases hf : findWatch val (-lit) rest with
        | some wr =>
          rw [hf] at h
          cases h
          refine List.Perm.trans ?_ hp
          exact (findWatch_some hf).2.2.cons _
        | none =>
          rw [hf] at h
          cases h; exact hp
    · cases h
  · split at h <;> cases h
  · cases h

theorem Prov.propClauses {G : List (List Int)} (lit : Int) : ∀ (pend : List Nat) (s : Solver), Prov G s →
    (∀ c ∈ pend, 0 < c ∧ c < s.nextId) → ∀ s' r, propClauses lit pend s = .ok (s', r) →
    Prov G s' ∧ s'.nextId = s.nextId ∧ ∀ c, r = some c → 0 < c ∧ c < s.nextId
  | [], s, h, _, s', r, e => by
    unfold Solver.propClauses at e
    cases e
    exact ⟨h, rfl, fun c hc => by cases hc⟩
  | cid :: rest, s, h, hp, s', r, e => by
    unfold Solver.propClauses at e
    split at e
    · cases e
    · next lits' unit hr =>
      have hcid := hp cid (by simp)
      have h1 : Prov G { s with heap := fset s.heap cid { s.heap cid with lits := lits' } } := by
        refine h.ext rfl rfl ?_ ?_ h.assigned h.watched
        · exact fset_ne _ _ (by omega)
        · intro c
          by_cases ec : c = cid
          · subst ec
            simp only [fset_same, true_and]
            intro _
            exact rewatch_perm hr
          · simp only [fset_ne _ _ ec, true_and]
            exact fun _ => List.Perm.refl _
      simp only at e
      split at e
      · next x w t =>
        have h2 := h1.watch (-w) (c := cid) hcid
        split at e
        · exact Prov.propClauses lit rest _ h2 (fun c hc => hp c (by simp [hc])) s' r e
        · split at e
          · cases e
            refine ⟨h2.ext rfl rfl rfl (fun c => ⟨rfl, rfl, fun _ => List.Perm.refl _⟩) h2.assigned ?_, rfl, ?_⟩
            · intro k c hc
              simp only [fset] at hc
              split at hc
              · rcases List.mem_append.1 hc with hc | hc
                · exact h2.watched _ c hc
                · exact hp c (by simp [List.mem_reverse.1 hc])
              · exact h2.watched k c hc
            · intro c hc; cases hc; exact hcid
          · next u hu =>
            have h3 := h2.enqueue u (c := cid) hcid.2
            obtain ⟨k1, k2, k3⟩ := Prov.propClauses lit rest _ h3
              (fun c hc => by rw [enqueue_nextId]; exact hp c (by simp [hc])) s' r e
            rw [enqueue_nextId] at k2 k3
            exact ⟨k1, k2, k3⟩
      · cases e

theorem Prov.propagate {G : List (List Int)} : ∀ (fuel : Nat) (s : Solver), Prov G s → ∀ s' r,
    propagate fuel s = .ok (s', r) → Prov G s' ∧ ∀ c, r = some c → 0 < c ∧ c < s'.nextId
  | fuel, s, h, s', r, e => by
    unfold Solver.propagate at e
    split at e
    · cases e; exact ⟨h, fun c hc => by cases hc⟩
    · next lit queue hq =>
      cases fuel with
      | zero => cases e
      | succ fuel =>
        simp only at e
        have h1 : Prov G { s with propQueue := queue, watches := fset s.watches lit [] } := by
          refine h.ext rfl rfl rfl (fun c => ⟨rfl, rfl, fun _ => List.Perm.refl _⟩) h.assigned ?_
          intro k c hc
          simp only [fset] at hc
          split at hc
          · cases hc
          · exact h.watched k c hc
        split at e
        · cases e
        · next s2 cid hs2 =>
          cases e
          obtain ⟨k1, k2, k3⟩ := Prov.propClauses lit _ _ h1 (fun c hc => h.watched lit c (List.mem_reverse.1 hc)) _ _ hs2
          refine ⟨k1, fun c hc => ?_⟩
          rw [k2]
          exact k3 c hc
        · next s2 hs2 =>
          obtain ⟨k1, -, -⟩ := Prov.propClauses lit _ _ h1 (fun c hc => h.watched lit c (List.mem_reverse.1 hc)) _ _ hs2
          exact Prov.propagate fuel s2 k1 s' r e

/-! ### analysis -/

theorem Prov.undoOne {G : List (List Int)} {s : Solver} (h : Prov G s) : Prov G s.undoOne := by
  unfold Solver.undoOne
  split
  · exact h
  · exact h.same rfl rfl rfl rfl rfl

theorem undoOne_nextId (s : Solver) : s.undoOne.nextId = s.nextId := by unfold undoOne; split <;> rfl
theorem undoOne_heap (s : Solver) : s.undoOne.heap = s.heap := by unfold undoOne; split <;> rfl

theorem Prov.undoN {G : List (List Int)} : ∀ (n : Nat) {s : Solver}, Prov G s → Prov G (undoN n s) ∧
    (Solver.undoN n s).heap = s.heap ∧ (Solver.undoN n s).nextId = s.nextId
  | 0, s, h => ⟨h, rfl, rfl⟩
  | n + 1, s, h => by
    obtain ⟨h1, h2, h3⟩ := Prov.undoN n h.undoOne
    exact ⟨h1, h2.trans (undoOne_heap s), h3.trans (undoOne_nextId s)⟩

theorem Prov.cancel {G : List (List Int)} {s : Solver} (h : Prov G s) : Prov G s.cancel ∧ s.cancel.heap = s.heap ∧
    s.cancel.nextId = s.nextId := by
  unfold Solver.cancel
  split
  · exact ⟨h, rfl, rfl⟩
  · exact Prov.undoN _ (h.same (s' := { s with trailLim := _ }) rfl rfl rfl rfl rfl)

theorem Prov.cancelN {G : List (List Int)} : ∀ (n : Nat) {s : Solver}, Prov G s → Prov G (cancelN n s) ∧
    (Solver.cancelN n s).heap = s.heap ∧ (Solver.cancelN n s).nextId = s.nextId
  | 0, s, h => ⟨h, rfl, rfl⟩
  | n + 1, s, h => by
    obtain ⟨h1, h2, h3⟩ := Prov.cancelN n h.cancel.1
    exact ⟨h1, h2.trans h.cancel.2.1, h3.trans h.cancel.2.2⟩

theorem Prov.popSeen {G : List (List Int)} (seen : List Int) : ∀ (t : List Int) (s : Solver) (ct : List Nat), Prov G s →
    (∀ c ∈ ct, c < s.nextId) → ∀ p c s' ct', popSeen seen t s ct = .ok (p, c, s', ct') →
    Prov G s' ∧ s'.nextId = s.nextId ∧ ∀ d ∈ ct', d < s.nextId
  | [], s, ct, h, hct, p, c, s', ct', e => by cases e
  | q :: rest, s, ct, h, hct, p, c, s', ct', e => by
    unfold Solver.popSeen at e
    split at e
    · cases e
    · next conflict hc =>
      have hct1 : ∀ d ∈ ct ++ [conflict], d < s.nextId := by
        intro d hd
        rcases List.mem_append.1 hd with hd | hd
        · exact hct d hd
        · rw [List.mem_singleton] at hd; rw [hd]; exact h.assigned _ _ hc
      simp only at e
      split at e
      · cases e
        exact ⟨h.undoOne, undoOne_nextId s, hct1⟩
      · obtain ⟨k1, k2, k3⟩ := Prov.popSeen seen rest s.undoOne _ h.undoOne (by rw [undoOne_nextId]; exact hct1) _ _ _ _ e
        rw [undoOne_nextId] at k2 k3
        exact ⟨k1, k2, k3⟩

theorem Prov.analyzeLoop {G : List (List Int)} : ∀ (fuel : Nat) (s : Solver) (a : Ana) (conflict : Nat) (p : Option Int)
    (ct : List Nat), Prov G s → (∀ c ∈ ct, c < s.nextId) → ∀ s' a' p' ct',
    analyzeLoop fuel s a conflict p ct = .ok (s', a', p', ct') →
    Prov G s' ∧ s'.nextId = s.nextId ∧ ∀ d ∈ ct', d < s.nextId
  | 0, s, a, conflict, p, ct, h, hct, s', a', p', ct', e => by cases e
  | fuel + 1, s, a, conflict, p, ct, h, hct, s', a', p', ct', e => by
    unfold Solver.analyzeLoop at e
    simp only at e
    split at e
    · cases e
    · next q c s1 ct1 hp =>
      obtain ⟨k1, k2, k3⟩ := Prov.popSeen _ _ _ _ h hct _ _ _ _ hp
      split at e
      · cases e; exact ⟨k1, k2, k3⟩
      · obtain ⟨j1, j2, j3⟩ := Prov.analyzeLoop fuel s1 _ _ _ _ k1 (by rw [k2]; exact k3) _ _ _ _ e
        rw [k2] at j2 j3
        exact ⟨j1, j2, j3⟩

/-- the learned clause is new, and its trail consists of older clauses -/
theorem Prov.analyze {G : List (List Int)} {s s' : Solver} {conflict learned : Nat} {bt : Int} (h : Prov G s)
    (hc : conflict < s.nextId) (e : s.analyze conflict = .ok (s', learned, bt)) :
    Prov G s' ∧ conflict < s'.nextId ∧ 0 < learned ∧ learned < s'.nextId ∧ (s'.heap learned).learned = true := by
  unfold Solver.analyze at e
  split at e
  · cases e
  · next s1 a p ct ha =>
    obtain ⟨k1, k2, k3⟩ := Prov.analyzeLoop _ _ _ _ _ _ h (by
      intro c hc'; rw [List.mem_singleton] at hc'; rw [hc']; exact hc) _ _ _ _ ha
    cases e
    have hpos : 0 < s1.nextId := k1.pos
    refine ⟨?_, ?_, hpos, Nat.lt_succ_self _, ?_⟩
    · constructor
      · exact Nat.succ_pos _
      · show fset s1.heap s1.nextId _ 0 = _
        rw [fset_ne _ _ (by omega)]
        exact k1.zero
      · intro c h1 h2
        have h2' : c < s1.nextId + 1 := h2
        unfold Origin
        by_cases ec : c = s1.nextId
        · subst ec
          left
          simp only [Solver.alloc, fset_same]
          exact ⟨rfl, rfl, ct, by simp⟩
        · simp only [Solver.alloc, fset_ne _ _ ec]
          rcases k1.cell c h1 (by omega) with ⟨j1, j2, ct', j3⟩ | j
          · exact Or.inl ⟨j1, j2, ct', by simp [j3]⟩
          · exact Or.inr j
      · intro kv hk
        rcases List.mem_append.1 hk with hk | hk
        · exact ⟨Nat.lt_succ_of_lt (k1.trails kv hk).1, (k1.trails kv hk).2⟩
        · rw [List.mem_singleton] at hk
          subst hk
          exact ⟨Nat.lt_succ_self _, fun d hd => by have := k3 d hd; rw [← k2] at this; exact this⟩
      · exact fun v c hc => Nat.lt_succ_of_lt (k1.assigned v c hc)
      · exact fun k c hc => ⟨(k1.watched k c hc).1, Nat.lt_succ_of_lt (k1.watched k c hc).2⟩
    · show conflict < s1.nextId + 1
      omega
    · show (fset s1.heap s1.nextId (Clause.new (a.learned ++ [-p]) true none) s1.nextId).learned = true
      rw [fset_same]; rfl

theorem Prov.record {G : List (List Int)} {s s' : Solver} {c : Nat} (h : Prov G s) (hc : 0 < c ∧ c < s.nextId)
    (hl : (s.heap c).learned = true) (e : s.record c = .ok s') : Prov G s' := by
  unfold Solver.record at e
  simp only at e
  split at e
  · cases e
  · next s1 hs1 =>
    have h1 : Prov G { s with heap := fset s.heap c { s.heap c with lits := recordLits s.levels (s.litsOf c) } } := by
      refine h.ext rfl rfl ?_ ?_ h.assigned h.watched
      · exact fset_ne _ _ (by omega)
      · intro d
        by_cases ed : d = c
        · subst ed
          simp only [fset_same, true_and]
          intro hf
          rw [hl] at hf
          cases hf
        · simp only [fset_ne _ _ ed, true_and]
          exact fun _ => List.Perm.refl _
    obtain ⟨k1, k2, -, -⟩ := h1.addClauseObj hc hs1
    split at e
    · cases e
    · cases e
      exact k1.enqueue _ (by rw [k2]; exact hc.2)

theorem Prov.assume {G : List (List Int)} {s : Solver} (h : Prov G s) (l : Int) : Prov G (s.assume l) := by
  unfold Solver.assume
  exact (h.same (s' := { s with trailLim := s.trail.length :: s.trailLim }) rfl rfl rfl rfl rfl).enqueue l h.pos

/-! ### search -/

theorem Prov.turn_next {G : List (List Int)} {σ : Type} {pol : Policy σ} {root : Nat} {ps ps' : σ} {s s' : Solver}
    (h : Prov G s) (e : turn pol root ps s = .next ps' s') : Prov G s' := by
  unfold Solver.turn at e
  split at e
  · cases e
  · next s1 hp =>
    obtain ⟨k1, -⟩ := h.propagate _ _ _ _ hp
    split at e
    · cases e
    · split at e
      · cases e
      · next ps2 a p hpol =>
        cases e
        exact (k1.same (s' := { s1 with assignments := a }) rfl rfl rfl rfl rfl).assume p
  · next s1 conflict hp =>
    obtain ⟨k1, k2⟩ := h.propagate _ _ _ _ hp
    split at e
    · cases e
    · next s2 learned bt ha =>
      obtain ⟨j1, -, j3, j4, j5⟩ := k1.analyze (k2 _ rfl).2 ha
      split at e
      · cases e
      · split at e
        · cases e
        · next s3 hr =>
          cases e
          obtain ⟨i1, i2, i3⟩ := Prov.cancelN (((s2.decisionLevel : Int) - (max bt (root : Int))).toNat) j1
          refine Prov.record i1 ⟨j3, ?_⟩ ?_ hr
          · rw [i3]; exact j4
          · rw [i2]; exact j5

/-- The state in which `search` raises SatisfiabilityError is the one `analyze` has left. -/
theorem turn_fail {G : List (List Int)} {σ : Type} {pol : Policy σ} {F : List (List Int)} {U V : List Int} {D PI}
    (hpol : pol.OK U V D PI) (hV : ∀ v ∈ V, ∃ c ∈ F, ∃ l ∈ c, iabs l = v) {ps : σ} {s s' : Solver}
    (h : Head F U D s) (hps : PI ps) (hP : Prov G s) {u : UnsatInfo} (e : turn pol 0 ps s = .fail (.satisfiability u) s') :
    Prov G s' ∧ u.conflict < s'.nextId ∧ 0 < u.learned ∧ u.learned < s'.nextId ∧
      s'.mkUnsat u.conflict u.learned = .satisfiability u := by
  have hspec := turn_spec hpol hV h hps
  obtain ⟨h, hcov⟩ := h
  obtain ⟨s1, r, g1, g2, g3, g4⟩ := propagate_spec s.propFuel h (by unfold propFuel ASet.len; omega)
  have hcov1 : Covers F s1 := hcov.ext g2
  obtain ⟨p1, p2⟩ := hP.propagate _ _ _ _ g1
  cases r with
  | none =>
    exfalso
    simp only [turn, g1] at e hspec
    split at e
    · cases e
    · next hall =>
      rw [if_neg hall] at hspec
      split at e
      · next er hpo =>
        clear e
        obtain ⟨hI, hq⟩ := g3 rfl
        have hex : ∃ v ∈ s1.assignments.seen, s1.assignments.value v = none := by
          apply Classical.byContradiction
          intro hno
          apply hall
          unfold allAssigned ASet.numAssigned ASet.len
          simp only [decide_eq_true_eq]
          rw [hI.base.aset.length_eq_iff]
          intro k hk hn
          exact hno ⟨k, hk, hn⟩
        obtain ⟨ps', a', p, k1, -⟩ := hpol.step ps s1.assignments (s1.clauses.map s1.heap) s1.trail hps
          hI.base.aset hI.base.vT hI.base.seenU (by
            intro c hc l hl
            obtain ⟨cid, hcid, rfl⟩ := List.mem_map.1 hc
            exact ⟨hI.base.cnz cid hcid l hl, hI.base.cU cid hcid l hl⟩) (by
            intro v hv
            obtain ⟨c, hc, l, hl, e⟩ := hV v hv
            obtain ⟨cid, hcid, hh⟩ := hcov1 c hc (by rintro rfl; simp at hl)
            exact ⟨s1.heap cid, List.mem_map_of_mem hcid, l, (hh l).2 hl, e⟩) hex
        rw [hpo] at k1
        cases k1
      · cases e
  | some cid =>
    have hC := g4 cid rfl
    simp only [turn, g1] at e
    by_cases hd : s1.decisionLevel = 0
    · obtain ⟨s2, learned, bt, k1, k2, k3, -⟩ := conflict_zero hC hd
      rw [k1] at e
      simp only [k2, if_true, k3] at e
      cases e
      obtain ⟨j1, j2, j3, j4, -⟩ := p1.analyze (p2 _ rfl).2 k1
      exact ⟨j1, j2, j3, j4, k3⟩
    · obtain ⟨s2, learned, bt, s4, k1, k2, k3, -⟩ := conflict_step hC (by omega) hcov1
      rw [k1] at e
      simp only at e
      rw [if_neg (by omega)] at e
      simp only [k3] at e
      cases e

theorem searchLoop_fail {G : List (List Int)} {σ : Type} {pol : Policy σ} {F : List (List Int)} {U V : List Int} {D PI}
    (hpol : pol.OK U V D PI) (hV : ∀ v ∈ V, ∃ c ∈ F, ∃ l ∈ c, iabs l = v) (fuel : Nat) {ps : σ} {s : Solver}
    (h : Head F U D s) (hps : PI ps) (hP : Prov G s) {u : UnsatInfo} {s' : Solver}
    (e : searchLoop pol 0 fuel ps s = .error (.satisfiability u, s')) :
    Prov G s' ∧ u.conflict < s'.nextId ∧ 0 < u.learned ∧ u.learned < s'.nextId ∧
      s'.mkUnsat u.conflict u.learned = .satisfiability u := by
  induction fuel generalizing ps s with
  | zero => cases e
  | succ fuel ih =>
    simp only [searchLoop] at e
    rcases turn_spec hpol hV h hps with ⟨s2, h1, h2⟩ | ⟨u2, s2, h1, h2⟩ | ⟨ps', s2, h1, h2, h3, h4⟩
    · rw [h1] at e; cases e
    · rw [h1] at e
      cases e
      exact turn_fail hpol hV h hps hP h1
    · rw [h1] at e
      exact ih h2 h3 (hP.turn_next h1) e

end Solver

/-- The state in which `from_rules(G).search()` raises SatisfiabilityError. -/
theorem solveRulesX_fail {σ : Type} {pol : Policy σ} {U : List Int} {D PI} (G : List (List Int))
    (hpol : pol.OK U (varsOf G) D PI) (hU : ∀ v ∈ varsOf G, v ∈ U)
    (hnz : ∀ c ∈ G, ∀ l ∈ c, l ≠ 0) {ps : σ} (hps : PI ps) (fuel : Nat) {u : UnsatInfo} {s : Solver}
    (e : solveRulesX pol fuel ps G = .error (.satisfiability u, s)) :
    Solver.Prov G s ∧ u.conflict < s.nextId ∧ 0 < u.learned ∧ u.learned < s.nextId ∧
      s.mkUnsat u.conflict u.learned = .satisfiability u := by
  have hp := Solver.Prov.addRulesX (G := G) G 0 Solver.init (Solver.Prov.init G) (by simp)
  unfold solveRulesX at e
  split at e
  · next er her =>
    cases e
    rw [her] at hp
    obtain ⟨k1, c, k2, k3, k4, k5, -⟩ := hp
    unfold Solver.mkUnsat at k5
    split at k5
    · split at k5
      · cases k5
        refine ⟨k1, k2, k3, k2, ?_⟩
        unfold Solver.mkUnsat
        simp only [*]
      · cases k5
    · cases k5
  · next s1 hs1 =>
    rw [hs1] at hp
    have hfr : Solver.fromRules G = .ok s1.setupAssignments := by
      unfold Solver.fromRules
      rw [Solver.addRulesX_eq, hs1]
    rcases fromRules_head (D := D) G hnz hU with ⟨s2, h1, h2, h3, hroot⟩ | ⟨u2, h1, -⟩
    · rw [hfr] at h1
      cases h1
      split at e
      · next er her =>
        cases e
        unfold Solver.search at her
        rw [hroot] at her
        exact Solver.searchLoop_fail hpol (varsOf_nonempty G) fuel h2 hps hp.setup her
      · cases e
    · rw [hfr] at h1; cases h1

end Verif.Sat
