import Verif.Sat.Final
import Verif.Sat.Prov
/-
The list of clauses of the solver during a search: the clauses of the rules, and then the learned ones, none of which
contains a clause that comes before it.
-/
namespace Verif.Sat
open Verif
namespace Solver

/-- same clauses; only the order of the literals inside them may differ -/
structure Kept (s s' : Solver) : Prop where
  clauses : s'.clauses = s.clauses
  lits : ∀ c ∈ s.clauses, (s'.litsOf c).Perm (s.litsOf c) ∧ (s'.heap c).learned = (s.heap c).learned

theorem Ext.kept {s s' : Solver} (h : Ext s s') : Kept s s' := ⟨h.clauses, fun c _ => ⟨h.lits c, h.learned c⟩⟩

/-- what one turn of the search, with result `t`, does to the clauses -/
def TurnClauses {σ : Type} (s : Solver) : Turn σ → Prop
  | .done s' _ => Kept s s'
  | .fail _ s' => Kept s s'
  | .next _ s' => Kept s s' ∨ ∃ s1 conflict, propagate s.propFuel s = .ok (s1, some conflict) ∧
      Kept s s1 ∧ 0 < s1.decisionLevel ∧ (∀ l ∈ s1.trail, -l ∉ s1.trail) ∧ Learnt s1 s'

theorem turn_clauses {σ : Type} {pol : Policy σ} {F : List (List Int)} {U V : List Int} {D PI}
    (_hpol : pol.OK U V D PI) (_hV : ∀ v ∈ V, ∃ c ∈ F, ∃ l ∈ c, iabs l = v) {ps : σ} {s : Solver}
    (h : Head F U D s) (_hps : PI ps) : TurnClauses s (turn pol 0 ps s) := by
  obtain ⟨h, hcov⟩ := h
  obtain ⟨s1, r, g1, g2, g3, g4⟩ := propagate_spec s.propFuel h (by unfold propFuel ASet.len; omega)
  have hcov1 : Covers F s1 := hcov.ext g2
  have hk := g2.kept
  unfold turn
  simp only [g1]
  cases r with
  | none =>
    simp only
    by_cases hall : s1.allAssigned = true
    · rw [if_pos hall]; exact hk
    · rw [if_neg hall]
      cases hn : pol.next ps s1.assignments (s1.clauses.map s1.heap) with
      | error er => exact hk
      | ok x =>
        obtain ⟨ps2, a2, p⟩ := x
        left
        have e1 : (assume { s1 with assignments := a2 } p).clauses = s1.clauses := by
          unfold assume enqueue; split <;> rfl
        have e2 : (assume { s1 with assignments := a2 } p).heap = s1.heap := by
          unfold assume enqueue; split <;> rfl
        refine ⟨e1.trans hk.clauses, ?_⟩
        intro c hc
        unfold litsOf
        rw [e2]
        exact hk.lits c hc
  | some cid =>
    have hC := g4 cid rfl
    simp only
    by_cases hd : s1.decisionLevel = 0
    · obtain ⟨s2, learned, bt, k1, k2, k3, k4, k5, k6, k7⟩ := conflict_zero hC hd
      rw [k1]
      simp only [k2, if_true]
      refine ⟨k5.trans hk.clauses, ?_⟩
      intro c hc
      have hc' : c ∈ s1.clauses := by rw [hk.clauses]; exact hc
      rw [k6 c hc', k7 c hc']
      exact hk.lits c hc
    · obtain ⟨s2, learned, bt, s4, k1, k2, k3, k4, k5, k7, k8, -⟩ := conflict_step hC (by omega) hcov1
      rw [k1]
      simp only
      rw [if_neg (by omega)]
      simp only [k3]
      exact Or.inr ⟨s1, cid, g1, hk, by omega, fun l hl => hC.base.cons hl, k8⟩

/-- the clauses of the rules `G` in their order, and then learned clauses, none containing an earlier clause -/
structure Grown (G : List (List Int)) (s : Solver) : Prop where
  split : ∃ old new : List Nat, s.clauses = old ++ new ∧
    List.Forall₂ (fun c r => (s.heap c).learned = false ∧ (s.litsOf c).Perm (fromkeys r)) old G ∧
    ∀ c ∈ new, (s.heap c).learned = true
  fresh : s.clauses.Pairwise (fun c d => (s.heap d).learned = true → ∃ l ∈ s.litsOf c, l ∉ s.litsOf d)
  cons : ∀ c ∈ s.clauses, (s.heap c).learned = true → ∀ l ∈ s.litsOf c, -l ∉ s.litsOf c

theorem forall₂_imp_left {α β : Type} {R S : α → β → Prop} {l : List α} {k : List β} (h : List.Forall₂ R l k)
    (hi : ∀ a ∈ l, ∀ b, R a b → S a b) : List.Forall₂ S l k := by
  induction h with
  | nil => exact .nil
  | cons h1 _ ih => exact .cons (hi _ (by simp) _ h1) (ih (fun a ha => hi a (by simp [ha])))

theorem Grown.kept {G : List (List Int)} {s s' : Solver} (h : Grown G s) (hk : Kept s s') : Grown G s' := by
  obtain ⟨old, new, e, h1, h2⟩ := h.split
  refine ⟨⟨old, new, hk.clauses.trans e, ?_, ?_⟩, ?_, ?_⟩
  · refine forall₂_imp_left h1 ?_
    intro c hc r ⟨k1, k2⟩
    obtain ⟨k3, k4⟩ := hk.lits c (by rw [e]; simp [hc])
    exact ⟨k4.trans k1, k3.trans k2⟩
  · intro c hc
    rw [(hk.lits c (by rw [e]; simp [hc])).2]
    exact h2 c hc
  · rw [hk.clauses]
    refine h.fresh.imp_of_mem ?_
    intro c d hc hd hr hl
    obtain ⟨k3, k4⟩ := hk.lits c hc
    obtain ⟨k5, k6⟩ := hk.lits d hd
    obtain ⟨l, j1, j2⟩ := hr (by rw [← k6]; exact hl)
    exact ⟨l, k3.mem_iff.2 j1, fun j => j2 (k5.mem_iff.1 j)⟩
  · intro c hc hl l hl1 hl2
    rw [hk.clauses] at hc
    obtain ⟨k3, k4⟩ := hk.lits c hc
    exact h.cons c hc (by rw [← k4]; exact hl) l (k3.mem_iff.1 hl1) (k3.mem_iff.1 hl2)

theorem Grown.learnt {G : List (List Int)} {s s' : Solver} (h : Grown G s) (hk : Learnt s s')
    (hcons : ∀ l ∈ s.trail, -l ∉ s.trail) : Grown G s' := by
  obtain ⟨old, new, e, h1, h2⟩ := h.split
  obtain ⟨cid, x, ls, n1, n2, n3, n4, -, -, n6, n5⟩ := hk.new
  refine ⟨⟨old, new ++ [cid], by rw [n1, e]; simp, ?_, ?_⟩, ?_, ?_⟩
  · refine forall₂_imp_left h1 ?_
    intro c hc r ⟨k1, k2⟩
    obtain ⟨k3, k4⟩ := hk.lits c (by rw [e]; simp [hc])
    exact ⟨k4.trans k1, k3.trans k2⟩
  · intro c hc
    rcases List.mem_append.1 hc with hc | hc
    · rw [(hk.lits c (by rw [e]; simp [hc])).2]
      exact h2 c hc
    · simp only [List.mem_singleton] at hc; subst hc; exact n3
  · rw [n1, List.pairwise_append]
    refine ⟨?_, by simp, ?_⟩
    · refine h.fresh.imp_of_mem ?_
      intro c d hc hd hr hl
      obtain ⟨k3, k4⟩ := hk.lits c hc
      obtain ⟨k5, k6⟩ := hk.lits d hd
      obtain ⟨l, j1, j2⟩ := hr (by rw [← k6]; exact hl)
      exact ⟨l, k3.mem_iff.2 j1, fun j => j2 (k5.mem_iff.1 j)⟩
    · intro c hc d hd _
      simp only [List.mem_singleton] at hd; subst hd
      obtain ⟨l, j1, j2⟩ := n5 c hc
      exact ⟨l, (hk.lits c hc).1.mem_iff.2 j1, fun j => j2 (n4.mem_iff.1 j)⟩
  · intro c hc hl l hl1 hl2
    rw [n1] at hc
    rcases List.mem_append.1 hc with hc | hc
    · obtain ⟨k3, k4⟩ := hk.lits c hc
      exact h.cons c hc (by rw [← k4]; exact hl) l (k3.mem_iff.1 hl1) (k3.mem_iff.1 hl2)
    · simp only [List.mem_singleton] at hc; subst hc
      exact hcons _ (n6 l (n4.mem_iff.1 hl1)) (n6 _ (n4.mem_iff.1 hl2))

/-- what `add_clause` does to the list of clauses and the heap -/
theorem addClauseObj_clauses {s s' : Solver} {cid : Nat} (e : s.addClauseObj cid = .ok s') :
    s'.heap = s.heap ∧ s'.nextId = s.nextId ∧
      s'.clauses = if s.litsOf cid = [] then s.clauses else s.clauses ++ [cid] := by
  unfold addClauseObj at e
  split at e
  · next h => cases e; simp [h]
  · next l h =>
    have e1 : (s.enqueue l cid).1.clauses = s.clauses := by unfold enqueue; split <;> rfl
    have e2 : (s.enqueue l cid).1.heap = s.heap := by unfold enqueue; split <;> rfl
    have e3 : (s.enqueue l cid).1.nextId = s.nextId := by unfold enqueue; split <;> rfl
    rw [h]
    simp only at e
    split at e
    · cases e; exact ⟨e2, e3, by rw [e1]; simp⟩
    · cases e
  · next h => cases e; rw [h]; simp [watch]

theorem addRules_clauses (rs : List (List Int)) : ∀ (i : Nat) {s s' : Solver}, (∀ c ∈ s.clauses, c < s.nextId) →
    s.addRules i rs = .ok s' → ∃ new, s'.clauses = s.clauses ++ new ∧ (∀ c, c < s.nextId → s'.heap c = s.heap c) ∧
      List.Forall₂ (fun c r => (s'.heap c).learned = false ∧ (s'.litsOf c).Perm (fromkeys r)) new (nonempty rs) := by
  induction rs with
  | nil => intro i s s' _ e; cases e; exact ⟨[], by simp, fun _ _ => rfl, .nil⟩
  | cons r rs ih =>
    intro i s s' hlt e
    unfold addRules addClause at e
    simp only at e
    split at e
    · cases e
    · next s1 h1 =>
      obtain ⟨a1, a2, a3⟩ := addClauseObj_clauses h1
      have hl : (s.alloc (Clause.new r false (some i))).1.litsOf (s.alloc (Clause.new r false (some i))).2 = fromkeys r := by
        show (fset s.heap s.nextId (Clause.new r false (some i)) s.nextId).lits = _
        rw [fset_same]; rfl
      rw [hl] at a3
      have a2' : s1.nextId = s.nextId + 1 := a2
      have a3' : s1.clauses = if r = [] then s.clauses else s.clauses ++ [s.nextId] := by
        rw [a3]; simp only [fromkeys_eq_nil]; rfl
      obtain ⟨new, b1, b2, b3⟩ := ih (i + 1) (s := s1) (by
        intro c hc
        rw [a3'] at hc
        rw [a2']
        split at hc
        · exact Nat.lt_succ_of_lt (hlt c hc)
        · rcases List.mem_append.1 hc with hc | hc
          · exact Nat.lt_succ_of_lt (hlt c hc)
          · simp only [List.mem_singleton] at hc; omega) e
      have hold : ∀ c, c < s.nextId → s'.heap c = s.heap c := by
        intro c hc
        rw [b2 c (by omega), a1]
        show fset s.heap s.nextId (Clause.new r false (some i)) c = _
        rw [fset_ne]; omega
      by_cases hr : r = []
      · rw [if_pos hr] at a3'
        refine ⟨new, by rw [b1, a3'], hold, ?_⟩
        have : nonempty (r :: rs) = nonempty rs := by simp [nonempty, hr]
        rw [this]; exact b3
      · rw [if_neg hr] at a3'
        refine ⟨s.nextId :: new, by rw [b1, a3']; simp, hold, ?_⟩
        have : nonempty (r :: rs) = r :: nonempty rs := by simp [nonempty, hr]
        rw [this]
        refine .cons ?_ b3
        have hh : s'.heap s.nextId = Clause.new r false (some i) := by
          rw [b2 _ (by omega), a1]
          show fset s.heap s.nextId (Clause.new r false (some i)) s.nextId = _
          rw [fset_same]
        unfold litsOf
        rw [hh]
        exact ⟨rfl, List.Perm.refl _⟩

theorem fromRules_grown {G : List (List Int)} {s : Solver} (e : fromRules G = .ok s) : Grown (nonempty G) s := by
  unfold fromRules at e
  split at e
  · cases e
  · next s1 h1 =>
    cases e
    obtain ⟨new, b1, b2, b3⟩ := addRules_clauses G 0 (s := init) (by intro c hc; cases hc) h1
    have b1' : s1.clauses = new := b1
    have hc : s1.setupAssignments.clauses = new := b1'
    suffices hno : ∀ c ∈ new, (s1.heap c).learned = false by
      refine ⟨⟨new, [], by rw [hc]; simp, b3, by simp⟩, ?_, ?_⟩
      · rw [hc]
        refine List.Pairwise.imp_of_mem (R := fun _ _ => True) ?_ (List.pairwise_of_forall (fun _ _ => trivial))
        intro c d _ hd _ hl
        have hl' : (s1.heap d).learned = true := hl
        rw [hno d hd] at hl'; cases hl'
      · intro c hcc hl
        have hl' : (s1.heap c).learned = true := hl
        rw [hc] at hcc
        rw [hno c hcc] at hl'; cases hl'
    clear h1 b1 b1' hc b2
    generalize nonempty G = G' at b3
    intro c hc
    induction b3 with
    | nil => cases hc
    | cons k _ ih =>
      rcases List.mem_cons.1 hc with rfl | hc
      · exact k.1
      · exact ih hc

end Solver

theorem Reach.grown {σ : Type} {pol : Policy σ} {U : List Int} {D PI} {G : List (List Int)}
    (hpol : pol.OK U (varsOf G) D PI) (hU : ∀ v ∈ varsOf G, v ∈ U)
    (hnz : ∀ c ∈ G, ∀ l ∈ c, l ≠ 0) {ps0 : σ} (hps : PI ps0) {ps : σ} {s : Solver} (h : Reach pol G ps0 ps s) :
    Solver.Grown (nonempty G) s := by
  induction h with
  | start h => exact Solver.fromRules_grown h
  | turn hr ht ih =>
    obtain ⟨hh, hp⟩ := hr.head hpol hU hnz hps
    have := Solver.turn_clauses hpol (varsOf_nonempty G) hh hp
    rw [ht] at this
    rcases this with hk | ⟨s1, c, -, hk, -, hc, hl⟩
    · exact ih.kept hk
    · exact (ih.kept hk).learnt hl hc

/-! ### how many clauses can be learned -/

/-- all words of length `n` over three letters -/
def words : Nat → List (List Nat)
  | 0 => [[]]
  | n + 1 => (words n).flatMap (fun w => [0 :: w, 1 :: w, 2 :: w])

theorem words_length (n : Nat) : (words n).length = 3 ^ n := by
  induction n with
  | zero => rfl
  | succ n ih =>
    unfold words
    rw [List.length_flatMap, Nat.pow_succ, ← ih]
    simp only [List.length_cons, List.length_nil, List.map_const', List.sum_replicate_nat]

theorem mem_words {w : List Nat} (h : ∀ x ∈ w, x < 3) : w ∈ words w.length := by
  induction w with
  | nil => simp [words]
  | cons x w ih =>
    simp only [List.length_cons, words, List.mem_flatMap]
    refine ⟨w, ih (fun y hy => h y (by simp [hy])), ?_⟩
    have := h x (by simp)
    have : x = 0 ∨ x = 1 ∨ x = 2 := by omega
    rcases this with rfl | rfl | rfl <;> simp

/-- which of the variables `U` the clause has, and with which sign -/
def code (U : List Int) (c : List Int) : List Nat := U.map (fun v => if v ∈ c then 1 else if -v ∈ c then 2 else 0)

theorem code_sub {U c d : List Int} (hc : ∀ l ∈ c, iabs l ∈ U) (hcc : ∀ l ∈ c, -l ∉ c) (e : code U c = code U d) :
    ∀ l ∈ c, l ∈ d := by
  intro l hl
  have hv := hc l hl
  have hh : ∀ v ∈ U, (if v ∈ c then 1 else if -v ∈ c then 2 else 0) = (if v ∈ d then 1 else if -v ∈ d then 2 else 0) :=
    List.map_inj_left.1 e
  have h1 := hh _ hv
  have : iabs l = l ∨ iabs l = -l := by unfold iabs; omega
  rcases this with e | e
  · rw [e, if_pos hl] at h1
    split at h1
    · assumption
    · split at h1 <;> cases h1
  · rw [e, if_neg (hcc l hl), Int.neg_neg, if_pos hl] at h1
    split at h1
    · cases h1
    · split at h1
      · assumption
      · cases h1

/-- a list of clauses over the variables `U`, none with opposite literals, none containing an earlier one -/
theorem fresh_length {U : List Int} {cs : List (List Int)} (hU : ∀ c ∈ cs, ∀ l ∈ c, iabs l ∈ U)
    (hc : ∀ c ∈ cs, ∀ l ∈ c, -l ∉ c) (hp : cs.Pairwise (fun c d => ∃ l ∈ c, l ∉ d)) : cs.length ≤ 3 ^ U.length := by
  have hnd : (cs.map (code U)).Nodup := by
    rw [List.Nodup, List.pairwise_map]
    refine hp.imp_of_mem ?_
    intro c d hcc _ ⟨l, h1, h2⟩ e
    exact h2 (code_sub (hU c hcc) (hc c hcc) e l h1)
  have hs : cs.map (code U) ⊆ words U.length := by
    intro w hw
    obtain ⟨c, _, rfl⟩ := List.mem_map.1 hw
    have := mem_words (w := code U c) (by
      intro x hx
      unfold code at hx
      obtain ⟨v, _, rfl⟩ := List.mem_map.1 hx
      split
      · omega
      · split <;> omega)
    rwa [show (code U c).length = U.length by simp [code]] at this
  have := (List.subperm_of_subset hnd hs).length_le
  rw [words_length] at this
  simpa using this

end Verif.Sat
