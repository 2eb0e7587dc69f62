import Verif.Sat.Analyze
/-
Adding clauses: `add_clause`, `record`, `assume`.
-/
namespace Verif.Sat
open Verif
namespace Solver

theorem argmaxFrom_spec (xs : List Int) (i : Nat) (best : Nat × Int) :
    ∃ v, ((argmaxFrom xs i best = best.1 ∧ v = best.2) ∨
      ∃ k, argmaxFrom xs i best = i + k ∧ xs[k]? = some v) ∧ best.2 ≤ v ∧ ∀ x ∈ xs, x ≤ v := by
  induction xs generalizing i best with
  | nil => exact ⟨best.2, Or.inl ⟨rfl, rfl⟩, Int.le_refl _, by simp⟩
  | cons x xs ih =>
    simp only [argmaxFrom]
    split
    · rename_i hlt
      obtain ⟨v, h1, h2, h3⟩ := ih (i + 1) (i, x)
      refine ⟨v, ?_, by simp only at h2; omega, ?_⟩
      · right
        rcases h1 with ⟨h1, h4⟩ | ⟨k, h1, h4⟩
        · exact ⟨0, by simpa using h1, by simp [h4]⟩
        · exact ⟨k + 1, by omega, by simpa using h4⟩
      · intro y hy
        rcases List.mem_cons.1 hy with rfl | hy
        · exact h2
        · exact h3 y hy
    · rename_i hlt
      obtain ⟨v, h1, h2, h3⟩ := ih (i + 1) best
      refine ⟨v, ?_, h2, ?_⟩
      · rcases h1 with h1 | ⟨k, h1, h4⟩
        · exact Or.inl h1
        · exact Or.inr ⟨k + 1, by omega, by simpa using h4⟩
      · intro y hy
        rcases List.mem_cons.1 hy with rfl | hy
        · omega
        · exact h3 y hy

theorem swap_last (b a : Int) (m : List Int) :
    swapIdx ((b :: m) ++ [a]) 0 (((b :: m) ++ [a]).length - 1) = a :: (m ++ [b]) := by
  unfold swapIdx
  have h1 : ((b :: m) ++ [a])[0]? = some b := rfl
  have h2 : ((b :: m) ++ [a])[((b :: m) ++ [a]).length - 1]? = some a := by simp
  rw [h1, h2]
  simp

theorem set_perm (r : List Int) (k : Nat) (y z : Int) (h : r[k]? = some z) : (z :: r.set k y).Perm (y :: r) := by
  induction r generalizing k with
  | nil => simp at h
  | cons x r ih =>
    cases k with
    | zero => simp at h; subst h; exact List.Perm.swap _ _ _
    | succ k =>
      have := ih k (by simpa using h)
      simp only [List.set_cons_succ]
      exact ((List.Perm.swap _ _ _).trans (this.cons x)).trans (List.Perm.swap _ _ _)

/-- the literal order chosen by `record` -/
theorem recordLits_spec (levels : Int → Int) (ls : List Int) (a : Int) (hne : ls ≠ [])
    (hlt : ∀ l ∈ ls, levels (iabs a) < levels (iabs l)) :
    ∃ q r, recordLits levels (ls ++ [a]) = a :: q :: r ∧ (a :: q :: r).Perm (ls ++ [a]) ∧
      ∀ l ∈ ls, levels (iabs l) ≤ levels (iabs q) := by
  cases ls with
  | nil => exact absurd rfl hne
  | cons b m =>
    have hp0 : (a :: (m ++ [b])).Perm ((b :: m) ++ [a]) := by
      have h1 : (m ++ [b]).Perm (b :: m) := List.perm_append_singleton b m
      have h2 : ((b :: m) ++ [a]).Perm (a :: (b :: m)) := List.perm_append_singleton a (b :: m)
      exact (h1.cons a).trans h2.symm
    have hmem : ∀ l, l ∈ m ++ [b] ↔ l ∈ b :: m := fun l => (List.perm_append_singleton b m).mem_iff
    unfold recordLits
    rw [swap_last]
    simp only [List.map_cons, argmax]
    obtain ⟨v, h1, h2, h3⟩ := argmaxFrom_spec ((m ++ [b]).map (fun l => levels (iabs l))) 1 (0, levels (iabs a))
    have hb : levels (iabs b) ≤ v := h3 _ (List.mem_map.2 ⟨b, by simp, rfl⟩)
    have hvb : levels (iabs a) < v := by have := hlt b (by simp); omega
    have h1 : ∃ k, argmaxFrom ((m ++ [b]).map (fun l => levels (iabs l))) 1 (0, levels (iabs a)) = 1 + k ∧
        ((m ++ [b]).map (fun l => levels (iabs l)))[k]? = some v := by
      rcases h1 with ⟨-, h1⟩ | h1
      · simp only at h1; omega
      · exact h1
    obtain ⟨k, hk, hkv⟩ := h1
    rw [hk]
    have hlen : 2 ≤ (a :: (m ++ [b])).length := by simp
    rw [if_pos hlen]
    rw [List.getElem?_map, Option.map_eq_some_iff] at hkv
    obtain ⟨z, hz, hzv⟩ := hkv
    have hbest : ∀ l ∈ b :: m, levels (iabs l) ≤ levels (iabs z) := by
      intro l hl
      rw [hzv]
      exact h3 _ (List.mem_map.2 ⟨l, (hmem l).2 hl, rfl⟩)
    -- the list after the first swap is `a :: y :: r`
    cases hmb : m ++ [b] with
    | nil => simp at hmb
    | cons y r =>
      rw [hmb] at hz hp0
      cases k with
      | zero =>
        simp only [List.getElem?_cons_zero, Option.some.injEq] at hz
        subst hz
        refine ⟨y, r, ?_, hp0, hbest⟩
        simp [swapIdx]
      | succ k =>
        have hz : r[k]? = some z := by simpa using hz
        refine ⟨z, r.set k y, ?_, ?_, hbest⟩
        · unfold swapIdx
          have e1 : (a :: y :: r)[1]? = some y := rfl
          have e2 : (a :: y :: r)[1 + (k + 1)]? = some z := by
            have : 1 + (k + 1) = k + 1 + 1 := by omega
            rw [this]; simpa using hz
          rw [e1, e2]
          have : 1 + (k + 1) = k + 1 + 1 := by omega
          simp [this]
        · exact ((set_perm r k y z hz).cons a).trans hp0

theorem recordLits_single (levels : Int → Int) (a : Int) : recordLits levels [a] = [a] := by
  simp [recordLits, swapIdx]

/-- writing a heap cell that is not one of the clauses -/
theorem heapOther_base {F U D} {s : Solver} (h : Base F U D s) {cid : Nat} (c : Clause) (h1 : cid ∉ s.clauses)
    (h2 : cid ≠ 0) {n : Nat} (hn : s.nextId ≤ n) : Base F U D { s with heap := fset s.heap cid c, nextId := n } := by
  have hl : ∀ x, x ∈ s.clauses → ({ s with heap := fset s.heap cid c, nextId := n } : Solver).litsOf x = s.litsOf x := by
    intro x hx
    show (fset s.heap cid c x).lits = _
    rw [fset_ne _ _ (by rintro rfl; exact h1 hx)]; rfl
  refine ⟨h.aset, h.vT, h.tnz, h.tnd, h.seenU, h.limP, h.limLe, h.lev, ?_, ?_, ?_, ?_, ?_, ?_, ?_, ?_, ?_⟩
  · intro p r hp
    obtain ⟨x, hx, hh⟩ := h.reas p r hp
    refine ⟨x, hx, ?_⟩
    rcases hh with hh | ⟨g1, g2, g3⟩
    · exact Or.inl hh
    · right; rw [hl x g1]; exact ⟨g1, g2, g3⟩
  · show (fset s.heap cid c 0).lits = _
    rw [fset_ne _ _ (Ne.symm h2)]; exact h.h0
  · have := h.npos; simp only; omega
  · intro x hx; have := h.idr x hx; simp only; omega
  · intro x hx; rw [hl x hx]; exact h.cnd x hx
  · intro x hx; rw [hl x hx]; exact h.cne x hx
  · intro x hx; rw [hl x hx]; exact h.cnz x hx
  · intro x hx; rw [hl x hx]; exact h.cU x hx
  · intro x hx; rw [hl x hx]; exact h.cent x hx

/-- adding a clause object to the list of clauses -/
theorem addId_base {F U D} {s : Solver} (h : Base F U D s) {cid : Nat} (hid : 0 < cid ∧ cid < s.nextId)
    (hnd : (s.litsOf cid).Nodup) (hne : s.litsOf cid ≠ []) (hnz : ∀ l ∈ s.litsOf cid, l ≠ 0)
    (hU : ∀ l ∈ s.litsOf cid, iabs l ∈ U) (hent : Entails F (s.litsOf cid)) (w : Int → List Nat) :
    Base F U D { s with clauses := s.clauses ++ [cid], watches := w } := by
  have hm : ∀ {P : Nat → Prop}, (∀ x ∈ s.clauses, P x) → P cid → ∀ x ∈ s.clauses ++ [cid], P x := by
    intro P h1 h2 x hx
    rcases List.mem_append.1 hx with hx | hx
    · exact h1 x hx
    · simp only [List.mem_singleton] at hx; subst hx; exact h2
  refine ⟨h.aset, h.vT, h.tnz, h.tnd, h.seenU, h.limP, h.limLe, h.lev, ?_, h.h0, h.npos, hm h.idr hid, hm h.cnd hnd,
    hm h.cne hne, hm h.cnz hnz, hm h.cU hU, hm h.cent hent⟩
  intro p r hp
  obtain ⟨x, hx, hh⟩ := h.reas p r hp
  refine ⟨x, hx, ?_⟩
  rcases hh with hh | ⟨g1, g2, g3⟩
  · exact Or.inl hh
  · exact Or.inr ⟨List.mem_append_left _ g1, g2, g3⟩

/-- the watch lists after adding a clause of at least two literals -/
theorem addId_widx {s : Solver} {cid : Nat} {a b : Int} {r : List Int} (h : WIdx s s.watches)
    (hl : s.litsOf cid = a :: b :: r) (hnd : (s.litsOf cid).Nodup) (hc : cid ∉ s.clauses) :
    WIdx { (s.watch (-a) cid).watch (-b) cid with clauses := s.clauses ++ [cid] }
      ((s.watch (-a) cid).watch (-b) cid).watches := by
  have hab : a ≠ b := by rw [hl] at hnd; simp only [List.nodup_cons, List.mem_cons, not_or] at hnd; exact hnd.1.1
  have hw : ∀ k, ((s.watch (-a) cid).watch (-b) cid).watches k =
      if k = -a ∨ k = -b then s.watches k ++ [cid] else s.watches k := by
    intro k
    show fset (fset s.watches (-a) (s.watches (-a) ++ [cid])) (-b)
      (fset s.watches (-a) (s.watches (-a) ++ [cid]) (-b) ++ [cid]) k = _
    unfold fset
    have : -b ≠ -a := by omega
    by_cases h1 : k = -a
    · subst h1
      have : ¬ (-a = -b) := by omega
      simp [this]
    · by_cases h2 : k = -b
      · subst h2; simp [this]
      · simp [h1, h2]
  have hnot : ∀ k, cid ∉ s.watches k := fun k hk => hc ((h.iff k cid).1 hk).1
  constructor
  · intro k
    rw [hw]
    split
    · rw [List.nodup_append]
      refine ⟨h.nd k, by simp, ?_⟩
      intro x hx y hy e
      simp only [List.mem_singleton] at hy
      subst hy; subst e
      exact hnot k hx
    · exact h.nd k
  · intro k c
    show _ ↔ c ∈ s.clauses ++ [cid] ∧ ∃ a b r, s.litsOf c = a :: b :: r ∧ (k = -a ∨ k = -b)
    rw [hw]
    have hR : (∃ a_1 b_1 r_1, s.litsOf cid = a_1 :: b_1 :: r_1 ∧ (k = -a_1 ∨ k = -b_1)) ↔ (k = -a ∨ k = -b) := by
      constructor
      · rintro ⟨a', b', r'', e, h⟩
        rw [hl] at e
        simp only [List.cons.injEq] at e
        obtain ⟨e1, e2, -⟩ := e
        rw [e1, e2]; exact h
      · intro h; exact ⟨_, _, _, hl, h⟩
    by_cases hcc : c = cid
    · subst hcc
      rw [hR]
      split
      · rename_i hk; simp [hk]
      · rename_i hk; simp [hk, hnot k]
    · have e1 : (c ∈ if k = -a ∨ k = -b then s.watches k ++ [cid] else s.watches k) ↔ c ∈ s.watches k := by
        split <;> simp [hcc]
      rw [e1, h.iff]
      simp [hcc]

/-- what is known of the state just before `record`, for the clause object `cid` = `ls ++ [x]` -/
structure PreRecord (R : Nat) (F : List (List Int)) (U : List Int) (D : Int → List Int → Prop) (cid : Nat) (ls : List Int)
    (x : Int) (s : Solver) : Prop where
  base : Base F U D s
  limS : ∀ n ∈ s.trailLim, n < s.trail.length
  units : Units R s
  cs : CSeen s
  wid : WIdx s s.watches
  wv : WVal R s (fun _ _ => False)
  q : s.propQueue = []
  id0 : 0 < cid
  idn : cid < s.nextId
  idf : cid ∉ s.clauses
  lits : s.litsOf cid = ls ++ [x]
  nd : (ls ++ [x]).Nodup
  xv : s.val x = none
  xnz : x ≠ 0
  xs : iabs x ∈ s.assignments.seen
  xl : s.levels (iabs x) = -1
  fls : ∀ l ∈ ls, -l ∈ s.trail
  dl : s.decisionLevel ≤ R ∨ ∃ l ∈ ls, s.levels (iabs l) = (s.decisionLevel : Int)
  ent : Entails F (ls ++ [x])

/-- the state after `record` -/
structure PostRecord (cid : Nat) (x : Int) (s s' : Solver) : Prop where
  trail : s'.trail = x :: s.trail
  lim : s'.trailLim = s.trailLim
  clauses : s'.clauses = s.clauses ++ [cid]
  seen : s'.assignments.seen = s.assignments.seen
  lev : ∀ p ∈ s.trail, s'.levels (iabs p) = s.levels (iabs p)
  xlev : s'.levels (iabs x) = (s.decisionLevel : Int)
  lits : ∀ c, (s'.litsOf c).Perm (s.litsOf c)
  learned : ∀ c, (s'.heap c).learned = (s.heap c).learned
  rule : ∀ c, (s'.heap c).rule = (s.heap c).rule
  nextId : s'.nextId = s.nextId
  ct : s'.clauseTrails = s.clauseTrails

theorem record_spec {R F U D} {cid : Nat} {ls : List Int} {x : Int} {s : Solver} (h : PreRecord R F U D cid ls x s) :
    ∃ s', s.record cid = .ok s' ∧ Inv R F U D s' ∧ PostRecord cid x s s' := by
  have hxm : ∀ l ∈ ls, l ≠ x := by
    intro l hl e
    have := h.nd
    rw [List.nodup_append] at this
    exact this.2.2 l hl x (by simp) e
  have hlv0 : ∀ l ∈ ls, 0 ≤ s.levels (iabs l) := by
    intro l hl; have := h.base.levNonneg (h.fls l hl); simpa using this
  have hlvd : ∀ l ∈ ls, s.levels (iabs l) ≤ (s.decisionLevel : Int) := by
    intro l hl; have := h.base.levLe (h.fls l hl); simpa using this
  -- the reordered literals
  have hrl : ∃ r, recordLits s.levels (s.litsOf cid) = x :: r ∧ (x :: r).Perm (ls ++ [x]) ∧
      (r = [] → ls = []) ∧ (∀ q r', r = q :: r' → q ∈ ls ∧ (s.decisionLevel : Int) ≤ max (s.levels (iabs q)) (R : Int)) := by
    rw [h.lits]
    by_cases hls : ls = []
    · subst hls
      exact ⟨[], recordLits_single _ _, List.Perm.refl _, fun _ => rfl, by simp⟩
    · obtain ⟨q, r, h1, h2, h3⟩ := recordLits_spec s.levels ls x hls (by
        intro l hl; rw [h.xl]; have := hlv0 l hl; omega)
      refine ⟨q :: r, h1, h2, by simp, ?_⟩
      intro q' r' e
      simp only [List.cons.injEq] at e
      obtain ⟨rfl, rfl⟩ := e
      have hq : q ∈ ls := by
        have hm : q ∈ ls ++ [x] := h2.mem_iff.1 (by simp)
        rcases List.mem_append.1 hm with hm | hm
        · exact hm
        · exfalso
          simp only [List.mem_singleton] at hm
          have := h2.nodup_iff.2 h.nd
          rw [hm] at this
          simp at this
      refine ⟨hq, ?_⟩
      rcases h.dl with e | ⟨l, hl, e⟩
      · omega
      · have := h3 l hl
        have := hlvd q hq
        omega
  obtain ⟨r, hr1, hr2, hr3, hr4⟩ := hrl
  -- state with the reordered clause object
  have hb1 : Base F U D { s with heap := fset s.heap cid { s.heap cid with lits := x :: r } } :=
    heapOther_base h.base _ h.idf (by have := h.id0; omega) (Nat.le_refl _)
  have hlo : ∀ c, ({ s with heap := fset s.heap cid { s.heap cid with lits := x :: r } } : Solver).litsOf c =
      if c = cid then x :: r else s.litsOf c := by
    intro c
    show (fset s.heap cid { s.heap cid with lits := x :: r } c).lits = _
    unfold fset; split <;> rfl
  have hloC : ∀ c ∈ s.clauses, ({ s with heap := fset s.heap cid { s.heap cid with lits := x :: r } } : Solver).litsOf c = s.litsOf c := by
    intro c hc; rw [hlo, if_neg (by rintro rfl; exact h.idf hc)]
  have hlearned : ∀ c, (fset s.heap cid { s.heap cid with lits := x :: r } c).learned = (s.heap c).learned := by
    intro c; unfold fset; split
    · rename_i e; subst e; rfl
    · rfl
  have hrule : ∀ c, (fset s.heap cid { s.heap cid with lits := x :: r } c).rule = (s.heap c).rule := by
    intro c; unfold fset; split
    · rename_i e; subst e; rfl
    · rfl
  generalize hs1 : ({ s with heap := fset s.heap cid { s.heap cid with lits := x :: r } } : Solver) = s1 at *
  have e1 : s1.trail = s.trail := by rw [← hs1]
  have e2 : s1.levels = s.levels := by rw [← hs1]
  have e3 : s1.trailLim = s.trailLim := by rw [← hs1]
  have e4 : s1.clauses = s.clauses := by rw [← hs1]
  have e5 : s1.assignments = s.assignments := by rw [← hs1]
  have e6 : s1.propQueue = s.propQueue := by rw [← hs1]
  have e7 : s1.watches = s.watches := by rw [← hs1]
  have e8 : s1.nextId = s.nextId := by rw [← hs1]
  have e9 : s1.clauseTrails = s.clauseTrails := by rw [← hs1]
  have e10 : s1.heap = fset s.heap cid { s.heap cid with lits := x :: r } := by rw [← hs1]
  have ed : s1.decisionLevel = s.decisionLevel := by unfold decisionLevel; rw [e3]
  have hlc : s1.litsOf cid = x :: r := by rw [hlo, if_pos rfl]
  have hnd1 : (s1.litsOf cid).Nodup := by rw [hlc]; exact hr2.nodup_iff.2 h.nd
  have hmem1 : ∀ l ∈ s1.litsOf cid, l = x ∨ l ∈ ls := by
    intro l hl
    rw [hlc] at hl
    have := hr2.mem_iff.1 hl
    simp only [List.mem_append, List.mem_singleton] at this
    exact this.symm
  have hother : ∀ l ∈ s1.litsOf cid, l ≠ x → -l ∈ s1.trail := by
    intro l hl hlx
    rw [e1]
    exact h.fls l ((hmem1 l hl).resolve_left hlx)
  have hU1 : ∀ l ∈ s1.litsOf cid, iabs l ∈ U := by
    intro l hl
    rcases hmem1 l hl with e | hl
    · rw [e]; exact h.base.seenU _ h.xs
    · have := h.base.trailU (h.fls l hl); simpa using this
  have hs1seen : ∀ l ∈ s1.litsOf cid, iabs l ∈ s.assignments.seen := by
    intro l hl
    rcases hmem1 l hl with e | hl
    · rw [e]; exact h.xs
    · have := h.base.trailSeen (h.fls l hl); simpa using this
  have hnz1 : ∀ l ∈ s1.litsOf cid, l ≠ 0 := by
    intro l hl
    rcases hmem1 l hl with e | hl
    · rw [e]; exact h.xnz
    · have := h.base.tnz _ (h.fls l hl); omega
  have hent1 : Entails F (s1.litsOf cid) := by rw [hlc]; exact entails_perm h.ent hr2
  have hv1 : s1.val x = none := by unfold val; rw [e5]; exact h.xv
  -- the state before pushing, for any watch lists
  have hb2 : ∀ w, Base F U D { s1 with clauses := s1.clauses ++ [cid], watches := w } := fun w =>
    addId_base hb1 ⟨h.id0, by rw [e8]; exact h.idn⟩ hnd1 (by rw [hlc]; simp) hnz1 hU1 hent1 w
  have hb3 : ∀ w, Base F U D (push { s1 with clauses := s1.clauses ++ [cid], watches := w } x cid) := fun w =>
    push_base (hb2 w) hv1 h.xnz (h.base.seenU _ h.xs) (Or.inr ⟨by simp, by show x ∈ s1.litsOf cid; rw [hlc]; simp, hother⟩)
  have hsn : ∀ w, (push { s1 with clauses := s1.clauses ++ [cid], watches := w } x cid).assignments.seen = s.assignments.seen := by
    intro w
    have := (push_ext (s := { s1 with clauses := s1.clauses ++ [cid], watches := w }) (l := x) (c := cid) (by
      show iabs x ∈ s1.assignments.seen; rw [e5]; exact h.xs)).seen
    rw [this]; show s1.assignments.seen = _; rw [e5]
  have hpl : ∀ w p, p ∈ s.trail → (push { s1 with clauses := s1.clauses ++ [cid], watches := w } x cid).levels (iabs p) = s.levels (iabs p) := by
    intro w p hp
    rw [push_levels (hb2 w) hv1 (by show p ∈ s1.trail; rw [e1]; exact hp)]
    show s1.levels _ = _; rw [e2]
  have hxl : ∀ w, (push { s1 with clauses := s1.clauses ++ [cid], watches := w } x cid).levels (iabs x) = (s.decisionLevel : Int) := by
    intro w; rw [push_level_new]; show (s1.decisionLevel : Int) = _; rw [ed]
  have htr : ∀ w, (push { s1 with clauses := s1.clauses ++ [cid], watches := w } x cid).trail = x :: s.trail := by
    intro w; show x :: s1.trail = _; rw [e1]
  have hpost : ∀ w, PostRecord cid x s (push { s1 with clauses := s1.clauses ++ [cid], watches := w } x cid) := by
    intro w
    refine ⟨htr w, e3, ?_, hsn w, hpl w, hxl w, ?_, ?_, ?_, e8, e9⟩
    · show s1.clauses ++ [cid] = _; rw [e4]
    · intro c
      show (s1.litsOf c).Perm _
      rw [hlo]
      split
      · rename_i e; subst e; rw [h.lits]; exact hr2
      · exact List.Perm.refl _
    · intro c; show (s1.heap c).learned = _; rw [e10]; exact hlearned c
    · intro c; show (s1.heap c).rule = _; rw [e10]; exact hrule c
  -- the invariant, given the watch index
  have hinv : ∀ w, WIdx { s1 with clauses := s1.clauses ++ [cid], watches := w } w →
      Inv R F U D (push { s1 with clauses := s1.clauses ++ [cid], watches := w } x cid) := by
    intro w hw
    refine ⟨hb3 w, ?_, ?_, ?_, ⟨hw.nd, hw.iff⟩, ?_, ?_⟩
    · intro n hn
      have hn : n ∈ s1.trailLim := hn
      rw [e3] at hn
      have := h.limS n hn
      rw [htr]; simp only [List.length_cons]; omega
    · intro c hc l hl
      have hl : s1.litsOf c = [l] := hl
      rw [htr]
      have hc : c ∈ s1.clauses ++ [cid] := hc
      rcases List.mem_append.1 hc with hc | hc
      · rw [e4] at hc
        rw [hloC c hc] at hl
        obtain ⟨g1, g2⟩ := h.units c hc l hl
        exact ⟨List.mem_cons_of_mem _ g1, by rw [hpl w l g1]; exact g2⟩
      · simp only [List.mem_singleton] at hc
        rw [hc, hlc] at hl
        simp only [List.cons.injEq] at hl
        obtain ⟨rfl, hr⟩ := hl
        refine ⟨by simp, ?_⟩
        rw [hxl]
        rcases h.dl with e | ⟨l, hl, -⟩
        · omega
        · rw [hr3 hr] at hl; simp at hl
    · intro c hc l hl
      rw [hsn]
      have hl : l ∈ s1.litsOf c := hl
      have hc : c ∈ s1.clauses ++ [cid] := hc
      rcases List.mem_append.1 hc with hc | hc
      · rw [e4] at hc
        rw [hloC c hc] at hl
        exact h.cs c hc l hl
      · simp only [List.mem_singleton] at hc
        rw [hc] at hl
        exact hs1seen l hl
    · intro c hc a b t hl
      have hl : s1.litsOf c = a :: b :: t := hl
      have hc : c ∈ s1.clauses ++ [cid] := hc
      rcases List.mem_append.1 hc with hc | hc
      · rw [e4] at hc
        rw [hloC c hc] at hl
        have hh := h.wv c hc a b t hl
        have aux : ∀ {a b : Int}, WOk R s (fun _ _ => False) c a b →
            WOk R (push { s1 with clauses := s1.clauses ++ [cid], watches := w } x cid)
              (fun _ k => k ∈ (push { s1 with clauses := s1.clauses ++ [cid], watches := w } x cid).propQueue) c a b := by
          intro a b hab ha
          rw [htr] at ha
          rcases List.mem_cons.1 ha with ha | ha
          · left
            show -a ∈ s1.propQueue ++ [x]
            rw [ha]; simp
          · rcases hab ha with g | ⟨g1, g2⟩
            · exact absurd g id
            · right
              refine ⟨by rw [htr]; exact List.mem_cons_of_mem _ g1, ?_⟩
              rw [hpl w b g1, ← iabs_neg a, hpl w (-a) ha, iabs_neg]; exact g2
        exact ⟨aux hh.1, aux hh.2⟩
      · simp only [List.mem_singleton] at hc
        subst hc
        have hl : s1.litsOf c = a :: b :: t := hl
        rw [hlc] at hl
        simp only [List.cons.injEq] at hl
        obtain ⟨rfl, rfl⟩ := hl
        obtain ⟨hq1, hq2⟩ := hr4 b t rfl
        constructor
        · intro hx
          exact absurd hx ((hb3 w).cons (by rw [htr]; simp))
        · intro _
          right
          refine ⟨by rw [htr]; simp, ?_⟩
          rw [hxl]
          have := hpl w (-b) (h.fls b hq1)
          rw [iabs_neg] at this
          rw [this]; exact hq2
    · intro k hk
      have hk : k ∈ s1.propQueue ++ [x] := hk
      rw [e6, h.q] at hk
      simp only [List.nil_append, List.mem_singleton] at hk
      subst hk
      refine ⟨by rw [htr]; simp, ?_⟩
      rw [hxl]; show _ = (s1.decisionLevel : Int); rw [ed]
  have hwid1 : WIdx s1 s1.watches := by
    rw [e7]
    refine ⟨h.wid.nd, ?_⟩
    intro k c
    rw [e4, h.wid.iff]
    constructor
    · rintro ⟨g1, g2⟩; exact ⟨g1, by rw [hloC c g1]; exact g2⟩
    · rintro ⟨g1, g2⟩; exact ⟨g1, by rw [hloC c g1] at g2; exact g2⟩
  -- now compute `record`
  have hrec : s.record cid = match s1.addClauseObj cid with
      | .error e => .error e
      | .ok s' => .ok (s'.enqueue x cid).1 := by
    unfold record
    rw [hr1]
    simp only [hs1]
    rfl
  have hen0 : s1.enqueue x cid = (s1.push x cid, true) := by unfold enqueue; rw [hv1]
  cases r with
  | nil =>
    have hao : s1.addClauseObj cid = .ok { s1.push x cid with clauses := s1.clauses ++ [cid] } := by
      unfold addClauseObj; rw [hlc]; simp only [hen0, if_true]; rfl
    have hst : ({ s1.push x cid with clauses := s1.clauses ++ [cid] } : Solver) =
        push { s1 with clauses := s1.clauses ++ [cid], watches := s1.watches } x cid := rfl
    have hv2 : (push { s1 with clauses := s1.clauses ++ [cid], watches := s1.watches } x cid).val x = some true :=
      ((hb3 s1.watches).vT x).2 (by rw [htr]; simp)
    have hen : (push { s1 with clauses := s1.clauses ++ [cid], watches := s1.watches } x cid).enqueue x cid =
        (push { s1 with clauses := s1.clauses ++ [cid], watches := s1.watches } x cid, true) := by
      unfold enqueue; rw [hv2]
    refine ⟨_, ?_, hinv s1.watches ?_, hpost s1.watches⟩
    · rw [hrec, hao]; simp only; rw [hst, hen]
    · refine ⟨hwid1.nd, ?_⟩
      intro k c
      show c ∈ s1.watches k ↔ c ∈ s1.clauses ++ [cid] ∧ ∃ a b r, s1.litsOf c = a :: b :: r ∧ _
      rw [hwid1.iff]
      constructor
      · rintro ⟨g1, g2⟩; exact ⟨by simp [g1], g2⟩
      · rintro ⟨g1, g2⟩
        rcases List.mem_append.1 g1 with g1 | g1
        · exact ⟨g1, g2⟩
        · simp only [List.mem_singleton] at g1
          subst g1
          obtain ⟨a, b, t, g2, -⟩ := g2
          rw [hlc] at g2; simp at g2
  | cons q t =>
    have hao : s1.addClauseObj cid = .ok { s1 with clauses := s1.clauses ++ [cid], watches := ((s1.watch (-x) cid).watch (-q) cid).watches } := by
      unfold addClauseObj; rw [hlc]; rfl
    have hv2 : ({ s1 with clauses := s1.clauses ++ [cid], watches := ((s1.watch (-x) cid).watch (-q) cid).watches } : Solver).val x = none := hv1
    have hen : enqueue { s1 with clauses := s1.clauses ++ [cid], watches := ((s1.watch (-x) cid).watch (-q) cid).watches } x cid =
        (push { s1 with clauses := s1.clauses ++ [cid], watches := ((s1.watch (-x) cid).watch (-q) cid).watches } x cid, true) := by
      unfold enqueue; rw [hv2]
    refine ⟨_, ?_, hinv ((s1.watch (-x) cid).watch (-q) cid).watches ?_, hpost ((s1.watch (-x) cid).watch (-q) cid).watches⟩
    · rw [hrec, hao]; simp only; rw [hen]
    · exact addId_widx hwid1 hlc hnd1 (by rw [e4]; exact h.idf)

/-- `assume` on an unassigned literal -/
theorem assume_spec {R F U D} {s : Solver} (h : Inv R F U D s) (hq : s.propQueue = []) {p : Int} (hv : s.val p = none)
    (hp : p ≠ 0) (hU : iabs p ∈ U) (hD : D p s.trail) :
    Inv R F U D (s.assume p) ∧ (s.assume p).trail = p :: s.trail ∧ (s.assume p).trailLim = s.trail.length :: s.trailLim ∧
    (s.assume p).clauses = s.clauses ∧ (s.assume p).heap = s.heap ∧
    (∀ x ∈ s.trail, (s.assume p).levels (iabs x) = s.levels (iabs x)) := by
  have e : s.assume p = push { s with trailLim := s.trail.length :: s.trailLim } p 0 := by
    unfold assume enqueue
    have : ({ s with trailLim := s.trail.length :: s.trailLim } : Solver).val p = none := hv
    rw [this]
  have hb1 : Base F U D { s with trailLim := s.trail.length :: s.trailLim } := by
    have hb := h.base
    have hpos : ∀ {p r}, (p :: r) <:+ s.trail → r.length < s.trail.length := by
      intro p r hr; have := hr.length_le; simp only [List.length_cons] at this; omega
    refine ⟨hb.aset, hb.vT, hb.tnz, hb.tnd, hb.seenU, ?_, ?_, ?_, ?_, hb.h0, hb.npos, hb.idr, hb.cnd, hb.cne, hb.cnz, hb.cU, hb.cent⟩
    · rw [List.pairwise_cons]; exact ⟨fun n hn => h.limS n hn, hb.limP⟩
    · intro n hn
      rcases List.mem_cons.1 hn with rfl | hn
      · exact Nat.le_refl _
      · exact hb.limLe n hn
    · intro q r hr
      simp only
      rw [lv_cons_lt _ _ (hpos hr)]; exact hb.lev q r hr
    · intro q r hr
      obtain ⟨c, hc, hh⟩ := hb.reas q r hr
      refine ⟨c, hc, ?_⟩
      rcases hh with ⟨g1, g2⟩ | hh
      · exact Or.inl ⟨List.mem_cons_of_mem _ g1, g2⟩
      · exact Or.inr hh
  have hv1 : ({ s with trailLim := s.trail.length :: s.trailLim } : Solver).val p = none := hv
  have hb2 := push_base (c := 0) hb1 hv1 hp hU (Or.inl ⟨by simp, rfl, hD⟩)
  have hpl : ∀ x ∈ s.trail, (push { s with trailLim := s.trail.length :: s.trailLim } p 0).levels (iabs x) = s.levels (iabs x) :=
    fun x hx => push_levels (c := 0) hb1 hv1 hx
  rw [e]
  refine ⟨⟨hb2, ?_, ?_, ?_, ⟨h.wid.nd, h.wid.iff⟩, ?_, ?_⟩, rfl, rfl, rfl, rfl, hpl⟩
  · intro n hn
    have hn : n ∈ s.trail.length :: s.trailLim := hn
    show n < (p :: s.trail).length
    simp only [List.length_cons]
    rcases List.mem_cons.1 hn with rfl | hn
    · omega
    · have := h.limS n hn; omega
  · intro c hc l hl
    obtain ⟨g1, g2⟩ := h.units c hc l hl
    exact ⟨List.mem_cons_of_mem _ g1, by rw [hpl l g1]; exact g2⟩
  · intro c hc l hl
    show iabs l ∈ (s.assignments.setItem (iabs p) (some (decide (0 < p)))).seen
    rw [ASet.setItem_seen]; exact Or.inr (h.cs c hc l hl)
  · intro c hc a b r hl
    have hh := h.wv c hc a b r hl
    have aux : ∀ {a b : Int}, WOk R s (fun _ k => k ∈ s.propQueue) c a b →
        WOk R (push { s with trailLim := s.trail.length :: s.trailLim } p 0)
          (fun _ k => k ∈ (push { s with trailLim := s.trail.length :: s.trailLim } p 0).propQueue) c a b := by
      intro a b hab ha
      have ha : -a ∈ p :: s.trail := ha
      rcases List.mem_cons.1 ha with ha | ha
      · left
        show -a ∈ s.propQueue ++ [p]
        rw [ha]; simp
      · rcases hab ha with g | ⟨g1, g2⟩
        · left; show -a ∈ s.propQueue ++ [p]; simp [g]
        · right
          refine ⟨List.mem_cons_of_mem _ g1, ?_⟩
          rw [hpl b g1, ← iabs_neg a, hpl (-a) ha, iabs_neg]; exact g2
    exact ⟨aux hh.1, aux hh.2⟩
  · intro k hk
    have hk : k ∈ s.propQueue ++ [p] := hk
    rw [hq] at hk
    simp only [List.nil_append, List.mem_singleton] at hk
    subst hk
    exact ⟨List.mem_cons_self, push_level_new _ _ _⟩

end Solver
end Verif.Sat
