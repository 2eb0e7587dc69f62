import Verif.Sat.Search
/-
Building the solver from the rules, and the theorem about `from_rules(rules).search()`.
-/
namespace Verif.Sat
open Verif
namespace Solver

/-- State while the rules are being added: nothing has been propagated yet. -/
structure Pre (F : List (List Int)) (U : List Int) (D : Int → List Int → Prop) (s : Solver) : Prop where
  base : Base F U D s
  lim : s.trailLim = []
  units : Units 0 s
  wid : WIdx s s.watches
  tq : ∀ k ∈ s.trail, k ∈ s.propQueue
  qt : ∀ k ∈ s.propQueue, k ∈ s.trail

theorem init_pre (F : List (List Int)) (U : List Int) (D) : Pre F U D init := by
  constructor
  · constructor
    case aset => exact ASet.wf_empty
    all_goals simp [init, val, ASet.value, litsOf, ASet.empty]
  · rfl
  · intro c hc; simp [init] at hc
  · constructor <;> simp [init]
  · simp [init]
  · simp [init]

theorem fromkeys_eq_nil (c : List Int) : fromkeys c = [] ↔ c = [] := by
  constructor
  · intro h
    apply List.eq_nil_iff_forall_not_mem.2
    intro x hx
    rw [← mem_fromkeys, h] at hx
    simp at hx
  · rintro rfl; rfl

/-- a clause object freshly allocated and not empty -/
structure Fresh (F : List (List Int)) (U : List Int) (cid : Nat) (s : Solver) : Prop where
  id0 : 0 < cid
  idn : cid < s.nextId
  idf : cid ∉ s.clauses
  nd : (s.litsOf cid).Nodup
  nz : ∀ l ∈ s.litsOf cid, l ≠ 0
  u : ∀ l ∈ s.litsOf cid, iabs l ∈ U
  ent : Entails F (s.litsOf cid)

/-- result of adding a clause: the state keeps its clauses and gets the new one -/
structure Added (cid : Nat) (s s' : Solver) : Prop where
  clauses : s'.clauses = s.clauses ++ [cid]
  heap : s'.heap = s.heap
  nextId : s'.nextId = s.nextId

theorem addClauseObj_spec {F U D} {s : Solver} {cid : Nat} (h : Pre F U D s) (hf : Fresh F U cid s)
    (hne : s.litsOf cid ≠ []) :
    (∃ s', s.addClauseObj cid = .ok s' ∧ Pre F U D s' ∧ Added cid s s') ∨
    (∃ u, s.addClauseObj cid = .error (.satisfiability u) ∧ ¬ Satisfiable F) := by
  have hb := h.base
  have hb2 : ∀ w, Base F U D { s with clauses := s.clauses ++ [cid], watches := w } := fun w =>
    addId_base hb ⟨hf.id0, hf.idn⟩ hf.nd hne hf.nz hf.u hf.ent w
  have hunits2 : ∀ w, (∀ l, s.litsOf cid ≠ [l]) → Units 0 { s with clauses := s.clauses ++ [cid], watches := w } := by
    intro w hn c hc l hl
    have hl : s.litsOf c = [l] := hl
    rcases List.mem_append.1 hc with hc | hc
    · exact h.units c hc l hl
    · simp only [List.mem_singleton] at hc
      subst hc
      exact absurd hl (hn l)
  cases hl : s.litsOf cid with
  | nil => exact absurd hl hne
  | cons a r =>
    cases r with
    | nil =>
      have ham : a ∈ s.litsOf cid := by rw [hl]; simp
      have hnodup : ∀ k c, c ∈ s.watches k ↔ c ∈ s.clauses ++ [cid] ∧ ∃ a b r, s.litsOf c = a :: b :: r ∧ (k = -a ∨ k = -b) := by
        intro k c
        rw [h.wid.iff]
        constructor
        · rintro ⟨g1, g2⟩; exact ⟨by simp [g1], g2⟩
        · rintro ⟨g1, g2⟩
          rcases List.mem_append.1 g1 with g1 | g1
          · exact ⟨g1, g2⟩
          · simp only [List.mem_singleton] at g1
            subst g1
            obtain ⟨a, b, t, g2, -⟩ := g2
            rw [hl] at g2; simp at g2
      unfold addClauseObj
      rw [hl]
      simp only
      unfold enqueue
      cases hv : s.val a with
      | none =>
        left
        simp only [if_true]
        refine ⟨_, rfl, ?_, rfl, rfl, rfl⟩
        have hst : ({ s.push a cid with clauses := (s.push a cid).clauses ++ [cid] } : Solver) =
            push { s with clauses := s.clauses ++ [cid], watches := s.watches } a cid := rfl
        rw [hst]
        have hb3 := push_base (c := cid) (hb2 s.watches) hv (hf.nz a ham) (hf.u a ham)
          (Or.inr ⟨by simp, ham, by intro x hx hxa; have hx : x ∈ s.litsOf cid := hx; rw [hl] at hx; simp at hx; exact absurd hx hxa⟩)
        refine ⟨hb3, h.lim, ?_, ⟨h.wid.nd, hnodup⟩, ?_, ?_⟩
        · intro c hc l hcl
          have hcl : s.litsOf c = [l] := hcl
          have hc : c ∈ s.clauses ++ [cid] := hc
          rcases List.mem_append.1 hc with hc | hc
          · obtain ⟨k1, k2⟩ := h.units c hc l hcl
            exact ⟨List.mem_cons_of_mem _ k1, by rw [push_levels (hb2 s.watches) hv k1]; exact k2⟩
          · simp only [List.mem_singleton] at hc
            rw [hc, hl] at hcl
            simp only [List.cons.injEq, and_true] at hcl
            subst hcl
            refine ⟨List.mem_cons_self, ?_⟩
            rw [push_level_new]
            show ((s.trailLim.length : Nat) : Int) ≤ 0
            rw [h.lim]; exact Int.le_refl _
        · intro k hk
          have hk : k ∈ a :: s.trail := hk
          show k ∈ s.propQueue ++ [a]
          rcases List.mem_cons.1 hk with rfl | hk
          · simp
          · simp [h.tq k hk]
        · intro k hk
          have hk : k ∈ s.propQueue ++ [a] := hk
          show k ∈ a :: s.trail
          simp only [List.mem_append, List.mem_singleton] at hk
          rcases hk with hk | rfl
          · exact List.mem_cons_of_mem _ (h.qt k hk)
          · simp
      | some b =>
        cases b with
        | true =>
          left
          simp only [if_true]
          have hat := (hb.vT a).1 hv
          refine ⟨_, rfl, ?_, rfl, rfl, rfl⟩
          refine ⟨(hb2 s.watches).congr rfl rfl rfl rfl rfl rfl rfl rfl, h.lim, ?_, ⟨h.wid.nd, hnodup⟩, h.tq, h.qt⟩
          intro c hc l hcl
          have hcl : s.litsOf c = [l] := hcl
          have hc : c ∈ s.clauses ++ [cid] := hc
          rcases List.mem_append.1 hc with hc | hc
          · exact h.units c hc l hcl
          · simp only [List.mem_singleton] at hc
            rw [hc, hl] at hcl
            simp only [List.cons.injEq, and_true] at hcl
            subst hcl
            refine ⟨hat, ?_⟩
            have k1 := hb.levLe hat
            have k2 := hb.levNonneg hat
            unfold decisionLevel at k1
            rw [h.lim] at k1
            simp only [List.length_nil] at k1
            show s.levels (iabs a) ≤ 0
            omega
        | false =>
          right
          have hat := (hb.vF a).1 hv
          obtain ⟨r, hr⟩ := mem_suffix hat
          refine ⟨⟨cid, cid⟩, ?_, ?_⟩
          · simp only [Bool.false_eq_true, if_false]
            unfold mkUnsat
            rw [hl]
            obtain ⟨c, hc, -⟩ := hb.reas _ _ hr
            simp only [hc]
          · rintro ⟨m, hm⟩
            have h1 := hb.implied hm (r.length + 1) (by intro q r' _ hq; rw [h.lim] at hq; simp at hq) _ r hr (by omega)
            obtain ⟨l, hl', ht⟩ := hf.ent m hm
            rw [hl] at hl'
            simp only [List.mem_singleton] at hl'
            subst hl'
            exact (litTrue_neg m (hf.nz l ham)).1 h1 ht
    | cons b t =>
      left
      refine ⟨{ (s.watch (-a) cid).watch (-b) cid with clauses := s.clauses ++ [cid] }, by unfold addClauseObj; rw [hl]; rfl, ?_, rfl, rfl, rfl⟩
      have hw := addId_widx h.wid hl hf.nd hf.idf
      exact ⟨hb2 _, h.lim, hunits2 _ (by rw [hl]; simp), hw, h.tq, h.qt⟩

theorem alloc_pre {F U D} {s : Solver} (h : Pre F U D s) (c : Clause) :
    Pre F U D (s.alloc c).1 ∧ (∀ x ∈ s.clauses, (s.alloc c).1.litsOf x = s.litsOf x) := by
  have hidn : s.nextId ∉ s.clauses := fun hc => by have := h.base.idr _ hc; omega
  have hlo : ∀ x ∈ s.clauses, (s.alloc c).1.litsOf x = s.litsOf x := by
    intro x hx
    show (fset s.heap s.nextId c x).lits = _
    rw [fset_ne]; rfl
    rintro rfl; exact hidn hx
  refine ⟨⟨?_, h.lim, ?_, ⟨h.wid.nd, ?_⟩, h.tq, h.qt⟩, hlo⟩
  · have hb := heapOther_base h.base c hidn (by have := h.base.npos; omega) (n := s.nextId + 1) (by omega)
    exact hb.congr rfl rfl rfl rfl rfl rfl rfl rfl
  · intro x hx l hl
    rw [hlo x hx] at hl
    exact h.units x hx l hl
  · intro k x
    show x ∈ s.watches k ↔ x ∈ s.clauses ∧ _
    rw [h.wid.iff]
    constructor
    · rintro ⟨g1, g2⟩; exact ⟨g1, by rw [hlo x g1]; exact g2⟩
    · rintro ⟨g1, g2⟩; exact ⟨g1, by rw [hlo x g1] at g2; exact g2⟩

theorem addRules_spec {F U D} (G : List (List Int)) (i : Nat) {s : Solver} (h : Pre F U D s)
    (hG : ∀ c ∈ G, c ≠ [] → c ∈ F) (hnz : ∀ c ∈ G, ∀ l ∈ c, l ≠ 0) (hU : ∀ c ∈ G, ∀ l ∈ c, iabs l ∈ U)
    (done : List (List Int)) (hdone : Covers done s) :
    (∃ s', s.addRules i G = .ok s' ∧ Pre F U D s' ∧ Covers (done ++ G) s') ∨
    (∃ u, s.addRules i G = .error (.satisfiability u) ∧ ¬ Satisfiable F) := by
  induction G generalizing i s done with
  | nil => left; exact ⟨s, rfl, h, by simpa using hdone⟩
  | cons c G ih =>
    simp only [addRules, addClause]
    obtain ⟨hp, hlo⟩ := alloc_pre h (Clause.new c false (some i))
    have hlc : (s.alloc (Clause.new c false (some i))).1.litsOf s.nextId = fromkeys c := by
      show (fset s.heap s.nextId (Clause.new c false (some i)) s.nextId).lits = _
      rw [fset_same]; rfl
    have hcl : (s.alloc (Clause.new c false (some i))).1.clauses = s.clauses := rfl
    have hid : (s.alloc (Clause.new c false (some i))).2 = s.nextId := rfl
    have hn : (s.alloc (Clause.new c false (some i))).1.nextId = s.nextId + 1 := rfl
    simp only [hid]
    generalize (s.alloc (Clause.new c false (some i))).1 = s1 at *
    have hcov1 : Covers done s1 := by
      intro d hd hne
      obtain ⟨x, hx, hh⟩ := hdone d hd hne
      exact ⟨x, by rw [hcl]; exact hx, fun l => by rw [hlo x hx]; exact hh l⟩
    have rest : ∀ s2, Pre F U D s2 → Covers (done ++ [c]) s2 →
        (∃ s', s2.addRules (i + 1) G = .ok s' ∧ Pre F U D s' ∧ Covers (done ++ c :: G) s') ∨
        (∃ u, s2.addRules (i + 1) G = .error (.satisfiability u) ∧ ¬ Satisfiable F) := by
      intro s2 hp2 hc2
      have := ih (i + 1) hp2 (fun d hd => hG d (by simp [hd])) (fun d hd => hnz d (by simp [hd]))
        (fun d hd => hU d (by simp [hd])) (done ++ [c]) hc2
      simpa using this
    by_cases hce : c = []
    · subst hce
      have : s1.addClauseObj s.nextId = .ok { s1 with status := some false } := by
        unfold addClauseObj; rw [hlc]; rfl
      rw [this]
      apply rest
      · exact ⟨hp.base.congr rfl rfl rfl rfl rfl rfl rfl rfl, hp.lim, hp.units, ⟨hp.wid.nd, hp.wid.iff⟩, hp.tq, hp.qt⟩
      · intro d hd hne
        simp only [List.mem_append, List.mem_singleton] at hd
        rcases hd with hd | hd
        · exact hcov1 d hd hne
        · exact absurd hd hne
    · have hf : Fresh F U s.nextId s1 := by
        refine ⟨h.base.npos, by rw [hn]; omega, ?_, ?_, ?_, ?_, ?_⟩
        · rw [hcl]; exact fun hc => by have := h.base.idr _ hc; omega
        · rw [hlc]; exact nodup_fromkeys c
        · rw [hlc]; intro l hl; rw [mem_fromkeys] at hl; exact hnz c (by simp) l hl
        · rw [hlc]; intro l hl; rw [mem_fromkeys] at hl; exact hU c (by simp) l hl
        · rw [hlc]; intro m hm
          obtain ⟨l, hl, ht⟩ := hm c (hG c (by simp) hce)
          exact ⟨l, by rw [mem_fromkeys]; exact hl, ht⟩
      rcases addClauseObj_spec hp hf (by rw [hlc, ne_eq, fromkeys_eq_nil]; exact hce) with ⟨s2, k1, k2, k3⟩ | ⟨u, k1, k2⟩
      · rw [k1]
        apply rest s2 k2
        have hl2 : ∀ x, s2.litsOf x = s1.litsOf x := by intro x; unfold litsOf; rw [k3.heap]
        intro d hd hne
        simp only [List.mem_append, List.mem_singleton] at hd
        rcases hd with hd | rfl
        · obtain ⟨x, hx, hh⟩ := hcov1 d hd hne
          exact ⟨x, by rw [k3.clauses]; simp [hx], fun l => by rw [hl2]; exact hh l⟩
        · exact ⟨s.nextId, by rw [k3.clauses]; simp, fun l => by rw [hl2, hlc, mem_fromkeys]⟩
      · right; rw [k1]; exact ⟨u, rfl, k2⟩

/-- adding unassigned keys -/
theorem setup_fold (vars : List Int) (hv : ∀ v ∈ vars, 0 < v) {a : ASet} (h : a.WF) :
    (vars.foldl (fun a v => if a.contains v then a else a.setItem v none) a).WF ∧
    (vars.foldl (fun a v => if a.contains v then a else a.setItem v none) a).data = a.data ∧
    (∀ x, x ∈ (vars.foldl (fun a v => if a.contains v then a else a.setItem v none) a).seen ↔ x ∈ a.seen ∨ x ∈ vars) := by
  induction vars generalizing a with
  | nil => exact ⟨h, rfl, by simp⟩
  | cons v vars ih =>
    have hv0 := hv v (by simp)
    have hva : iabs v = v := iabs_of_pos hv0
    rw [List.foldl_cons]
    split
    · rename_i hc
      unfold ASet.contains at hc
      rw [hva] at hc
      simp only [decide_eq_true_eq] at hc
      obtain ⟨h1, h2, h3⟩ := ih (fun x hx => hv x (by simp [hx])) h
      refine ⟨h1, h2, ?_⟩
      intro x; rw [h3]; simp only [List.mem_cons]
      constructor
      · rintro (k | k) <;> simp [k]
      · rintro (k | rfl | k)
        · exact Or.inl k
        · exact Or.inl hc
        · exact Or.inr k
    · rename_i hc
      unfold ASet.contains at hc
      rw [hva] at hc
      simp only [decide_eq_true_eq] at hc
      have hw := ASet.wf_setItem h v (by omega) none
      obtain ⟨h1, h2, h3⟩ := ih (fun x hx => hv x (by simp [hx])) hw
      refine ⟨h1, ?_, ?_⟩
      · rw [h2]
        funext x
        rw [ASet.setItem_data_none a h]
        split
        · rename_i hx
          have hn : a.data v = none := by
            cases hd : a.data v with
            | none => rfl
            | some b => exact absurd (hva ▸ h.seen_of_data (k := v) (by rw [hd]; simp)) hc
          rcases hx with rfl | rfl
          · exact ((h.neg_none v).2 hn).symm
          · exact hn.symm
        · rfl
      · intro x; rw [h3, ASet.setItem_seen, hva]; simp only [List.mem_cons]; grind

theorem setup_spec {F U D} {s : Solver} (h : Pre F U D s) :
    Inv 0 F U D s.setupAssignments ∧ s.setupAssignments.clauses = s.clauses ∧
      s.setupAssignments.heap = s.heap ∧ s.setupAssignments.trailLim = [] := by
  have hb := h.base
  have hvars : ∀ v, v ∈ fromkeys ((s.clauses.flatMap s.litsOf).map iabs) ↔ ∃ cid ∈ s.clauses, ∃ l ∈ s.litsOf cid, iabs l = v := by
    intro v
    rw [mem_fromkeys, List.mem_map]
    constructor
    · rintro ⟨l, hl, e⟩
      obtain ⟨c, hc, hl⟩ := List.mem_flatMap.1 hl
      exact ⟨c, hc, l, hl, e⟩
    · rintro ⟨c, hc, l, hl, e⟩
      exact ⟨l, List.mem_flatMap.2 ⟨c, hc, hl⟩, e⟩
  obtain ⟨h1, h2, h3⟩ := setup_fold (fromkeys ((s.clauses.flatMap s.litsOf).map iabs)) (by
    intro v hv
    obtain ⟨c, hc, l, hl, rfl⟩ := (hvars v).1 hv
    exact iabs_pos l (hb.cnz c hc l hl)) hb.aset
  unfold setupAssignments
  simp only
  generalize (fromkeys ((s.clauses.flatMap s.litsOf).map iabs)).foldl
    (fun a v => if a.contains v then a else a.setItem v none) s.assignments = a at *
  have hb2 : Base F U D { s with assignments := a } := hb.asg h1 h2 (by
    intro v hv
    rcases (h3 v).1 hv with k | k
    · exact hb.seenU v k
    · obtain ⟨c, hc, l, hl, rfl⟩ := (hvars v).1 k
      exact hb.cU c hc l hl)
  refine ⟨⟨hb2, ?_, h.units, ?_, ⟨h.wid.nd, h.wid.iff⟩, ?_, ?_⟩, trivial, trivial, h.lim⟩
  · intro n hn; simp only at hn; rw [h.lim] at hn; simp at hn
  · intro c hc l hl
    exact (h3 _).2 (Or.inr ((hvars _).2 ⟨c, hc, l, hl, rfl⟩))
  · intro c hc x y z hl
    exact ⟨fun hx => Or.inl (h.tq _ hx), fun hx => Or.inl (h.tq _ hx)⟩
  · intro k hk
    have hkt := h.qt k hk
    refine ⟨hkt, ?_⟩
    have k1 := hb.levLe hkt
    have k2 := hb.levNonneg hkt
    show s.levels (iabs k) = (s.decisionLevel : Int)
    unfold decisionLevel at k1 ⊢
    rw [h.lim] at k1 ⊢
    simp only [List.length_nil] at k1 ⊢
    omega

/-- `from_rules` either gives a state satisfying the invariant, or refutes the rules. -/
theorem fromRules_spec {F U D} (G : List (List Int))
    (hG : ∀ c ∈ G, c ≠ [] → c ∈ F) (hnz : ∀ c ∈ G, ∀ l ∈ c, l ≠ 0) (hU : ∀ c ∈ G, ∀ l ∈ c, iabs l ∈ U) :
    (∃ s, fromRules G = .ok s ∧ Inv 0 F U D s ∧ Covers G s ∧ s.trailLim = []) ∨
    (∃ u, fromRules G = .error (.satisfiability u) ∧ ¬ Satisfiable F) := by
  unfold fromRules
  rcases addRules_spec G 0 (init_pre F U D) hG hnz hU [] (by intro c hc; simp at hc) with ⟨s, h1, h2, h3⟩ | ⟨u, h1, h2⟩
  · left
    rw [h1]
    obtain ⟨k1, k3, k4, k5⟩ := setup_spec h2
    refine ⟨s.setupAssignments, rfl, k1, ?_, k5⟩
    intro c hc hne
    obtain ⟨x, hx, hh⟩ := h3 c (by simpa using hc) hne
    exact ⟨x, by rw [k3]; exact hx, fun l => by unfold litsOf; rw [k4]; exact hh l⟩
  · right; rw [h1]; exact ⟨u, rfl, h2⟩

end Solver

/-- variables of a list of rules -/
def varsOf (G : List (List Int)) : List Int := G.flatMap (fun c => c.map iabs)

theorem mem_varsOf (G : List (List Int)) (v : Int) : v ∈ varsOf G ↔ ∃ c ∈ G, ∃ l ∈ c, iabs l = v := by
  simp [varsOf]

/-- The nonempty rules. -/
def nonempty (G : List (List Int)) : List (List Int) := G.filter (fun c => decide (c ≠ []))

/-- number of turns that always suffices; `n` counts the variables that may be decided -/
def enoughFuel (n : Nat) : Nat := n * (n + 1) ^ n + 1

theorem fromRules_head {U D} (G : List (List Int)) (hnz : ∀ c ∈ G, ∀ l ∈ c, l ≠ 0) (hU : ∀ v ∈ varsOf G, v ∈ U) :
    (∃ s, Solver.fromRules G = .ok s ∧ Solver.Head (nonempty G) U D s ∧ Solver.Covers G s ∧ s.decisionLevel = 0) ∨
    (∃ u, Solver.fromRules G = .error (.satisfiability u) ∧ ¬ Satisfiable (nonempty G)) := by
  rcases Solver.fromRules_spec (F := nonempty G) (U := U) (D := D) G
    (by intro c hc hne; simp [nonempty, hc, hne]) hnz (by
      intro c hc l hl
      exact hU _ ((mem_varsOf G _).2 ⟨c, hc, l, hl, rfl⟩)) with ⟨s, h1, h2, h3, h5⟩ | ⟨u, h1, h2⟩
  · left
    refine ⟨s, h1, ⟨h2, ?_⟩, h3, ?_⟩
    · intro c hc hne; exact h3 c (List.mem_filter.1 hc).1 hne
    · unfold Solver.decisionLevel; rw [h5]; rfl
  · right; exact ⟨u, h1, h2⟩

theorem varsOf_nonempty (G : List (List Int)) : ∀ v ∈ varsOf G, ∃ c ∈ nonempty G, ∃ l ∈ c, iabs l = v := by
  intro v hv
  obtain ⟨c, hc, l, hl, e⟩ := (mem_varsOf G v).1 hv
  exact ⟨c, by simp only [nonempty, List.mem_filter, decide_eq_true_eq]; exact ⟨hc, by rintro rfl; simp at hl⟩, l, hl, e⟩

/-- Everything the rest of the development uses about `from_rules(G).search()`. -/
theorem solveRules_spec {σ : Type} {pol : Policy σ} {U : List Int} {D PI} (G : List (List Int))
    (hpol : pol.OK U (varsOf G) D PI) (hU : ∀ v ∈ varsOf G, v ∈ U)
    (hnz : ∀ c ∈ G, ∀ l ∈ c, l ≠ 0) {ps : σ} (hps : PI ps) (fuel : Nat) :
    (∃ s, solveRules pol fuel ps G = .ok s.assignments.copy ∧
        Solver.Done (nonempty G) U D s ∧ Solver.Covers G s) ∨
    (∃ u, solveRules pol fuel ps G = .error (.satisfiability u) ∧ ¬ Satisfiable (nonempty G)) ∨
    (solveRules pol fuel ps G = .error .outOfFuel ∧ fuel < enoughFuel U.length) := by
  unfold solveRules
  rcases fromRules_head (D := D) G hnz hU with ⟨s, h1, h2, h3, hroot⟩ | ⟨u, h1, h2⟩
  · rw [h1]
    simp only
    unfold Solver.search
    rw [hroot]
    rcases Solver.searchLoop_spec hpol (varsOf_nonempty G) fuel h2 hps with
      ⟨s', k1, k2⟩ | ⟨u, s', k1, k2, -⟩ | ⟨s', k1, k2⟩
    · left; rw [k1]
      refine ⟨s', rfl, k2, ?_⟩
      intro c hc hne
      exact k2.cov c (by simp [nonempty, hc, hne]) hne
    · right; left; rw [k1]; exact ⟨u, rfl, k2⟩
    · right; right; rw [k1]
      refine ⟨rfl, ?_⟩
      unfold enoughFuel; omega
  · right; left; rw [h1]; exact ⟨u, rfl, h2⟩

end Verif.Sat
