import Verif.Solve.UnsatLemmas
import Verif.Solve.SetupLemmas
/-
What an explanation of unsatisfiability is made of, and what its text contains.
-/
set_option linter.unusedSectionVars false
namespace Verif.Solve
open Verif Verif.Pkg Verif.Graph Verif.Rules

variable {N S U : Type} [LinearOrder N] [DecidableEq S] [LinearOrder U] [Syntax S U]

theorem mem_of_dget {κ β : Type} [DecidableEq κ] : ∀ {d : Dict κ β} {k : κ} {v : β}, dget d k = some v → (k, v) ∈ d
  | kv :: t, k, v, h => by
    unfold dget at h
    split at h
    · next e => cases h; subst e; simp
    · exact List.mem_cons_of_mem _ (mem_of_dget h)

theorem dget_of_mem {κ β : Type} [DecidableEq κ] : ∀ {d : Dict κ β} {k : κ} {v : β}, (k, v) ∈ d → ∃ w, dget d k = some w
  | kv :: t, k, v, h => by
    unfold dget
    split
    · exact ⟨_, rfl⟩
    · next e =>
      rcases List.mem_cons.1 h with rfl | h
      · exact absurd rfl e
      · exact dget_of_mem h

theorem sane_of_prov {G : List (List Int)} {sv : Sat.Solver} (h : Sat.Solver.Prov G sv) (rules : List (Rule N U)) :
    Sane (evidenceOf sv rules) sv.nextId := by
  have key : ∀ c, c < sv.nextId → (sv.heap c).learned = true →
      (sv.heap c).rule = none ∧ ∃ ct, (c, ct) ∈ sv.clauseTrails := by
    intro c hc hl
    rcases Nat.eq_zero_or_pos c with rfl | h0
    · rw [h.zero] at hl; cases hl
    · rcases h.cell c h0 hc with ⟨-, k1, k2⟩ | ⟨k, -⟩
      · exact ⟨k1, k2⟩
      · rw [hl] at k; cases k
  constructor
  · intro c hc hl
    obtain ⟨-, ct, hct⟩ := key c hc hl
    obtain ⟨ts, hts⟩ := dget_of_mem hct
    exact ⟨ts, hts, (h.trails _ (mem_of_dget hts)).2⟩
  · intro c hc hl
    show (sv.heap c).rule.bind _ = none
    rw [(key c hc hl).1]; rfl

/-- The clause belongs to one of the rules. -/
theorem rule_of_prov {rules : List (Rule N U)} {sv : Sat.Solver}
    (h : Sat.Solver.Prov (rules.map Rule.literals) sv) {c : Nat} (hc : c < sv.nextId) {r : Rule N U}
    (hr : (evidenceOf sv rules).rule c = some r) :
    r ∈ rules ∧ ∀ l, l ∈ (evidenceOf sv rules).lits c ↔ l ∈ r.literals := by
  unfold Evidence.rule at hr
  cases hi : (sv.heap c).rule with
  | none =>
    have : ((evidenceOf sv rules).heap c).rule = none := hi
    rw [this] at hr; cases hr
  | some i =>
    have h2 : ((evidenceOf sv rules).heap c).rule = some i := hi
    rw [h2] at hr
    have hr' : rules[i]? = some r := hr
    refine ⟨List.mem_of_getElem? hr', ?_⟩
    rcases Nat.eq_zero_or_pos c with rfl | h0
    · rw [h.zero] at hi; cases hi
    · rcases h.cell c h0 hc with ⟨-, k1, -⟩ | ⟨-, j, lits, k1, k2, k3⟩
      · rw [k1] at hi; cases hi
      · rw [hi] at k1
        cases k1
        rw [List.getElem?_map, hr'] at k2
        cases k2
        intro l
        exact (k3.mem_iff).trans (mem_fromkeys _ _)

/-- the clauses an explanation starts from: the clause in conflict, what was learned from it, and the clause that had
assigned its variable -/
inductive Root (e : Evidence N U) (conflict learned : Nat) (implicand : Int) : Nat → Prop
  | conflict : Root e conflict learned implicand conflict
  | learned : Root e conflict learned implicand learned
  | assigning {c} : e.assigning (iabs implicand) = some c → Root e conflict learned implicand c

/-- the clause is one of these, or was used to derive one of them -/
def Involved (e : Evidence N U) (conflict learned : Nat) (implicand : Int) (c : Nat) : Prop :=
  ∃ b, Root e conflict learned implicand b ∧ (c = b ∨ Uses e b c)

/-- `Anchor e R implicand c`: one of the relevant clauses `R`, that of a job or one with the conflicting literal -/
def Anchor (e : Evidence N U) (R : List Nat) (implicand : Int) (c : Nat) : Prop :=
  c ∈ R ∧ ∃ r, e.rule c = some r ∧ (implicand ∈ e.lits c ∨ r.reason.isJob = true)

/-- What is known about an explanation. -/
structure ExplanationOK (sv : Sat.Solver) (rules : List (Rule N U)) (u : Sat.UnsatInfo) (x : Explanation N U) : Prop where
  evidence : x.evidence = evidenceOf sv rules
  memo : MemoOK x.evidence x.memo
  implicand : x.evidence.lits u.learned = [-x.implicand]
  details : ∀ c ∈ x.details, c < sv.nextId ∧ x.evidence.learned c = false ∧ Involved x.evidence u.conflict u.learned x.implicand c ∧
    ∃ r, x.evidence.rule c = some r ∧ r ∈ rules ∧ r.requirements ≠ [] ∧ ∀ l, l ∈ x.evidence.lits c ↔ l ∈ r.literals
  paths : ∃ ends : List Nat, ends.Nodup ∧ (∀ c, c ∈ ends ↔ Anchor x.evidence x.details x.implicand c) ∧
    (ends.length < 2 → x.paths = [ends]) ∧ (2 ≤ ends.length → PathsOK x.evidence x.details ends x.paths)

theorem hasReqs_iff (e : Evidence N U) (c : Nat) : e.hasReqs c = true ↔ ∃ r, e.rule c = some r ∧ r.requirements ≠ [] := by
  unfold Evidence.hasReqs
  cases e.rule c with
  | none => simp
  | some r => cases h : r.requirements <;> simp [h]

theorem uses_lt {e : Evidence N U} {n : Nat} (hs : Sane e n) {x y : Nat} (h : Uses e x y) : x < n → y < n := by
  induction h with
  | direct a1 a2 a3 =>
    intro hx
    obtain ⟨ts, b1, b2⟩ := hs.trail _ hx a1
    rw [a2] at b1; cases b1
    have := b2 _ a3; omega
  | step a1 a2 a3 a4 ih =>
    intro hx
    obtain ⟨ts, b1, b2⟩ := hs.trail _ hx a1
    rw [a2] at b1; cases b1
    have := b2 _ a3
    exact ih (by omega)

theorem mkExplanation_spec {rules : List (Rule N U)} {sv : Sat.Solver} {u : Sat.UnsatInfo} (o : XOrders)
    (hne : ∀ r ∈ rules, r.literals ≠ [])
    (h : Sat.Solver.Prov (rules.map Rule.literals) sv) (hc : u.conflict < sv.nextId) (hl : u.learned < sv.nextId)
    (hu : sv.mkUnsat u.conflict u.learned = .satisfiability u) :
    ∃ x, mkExplanation o (evidenceOf sv rules) u.conflict u.learned = .ok x ∧ ExplanationOK sv rules u x := by
  have hs := sane_of_prov h rules
  generalize he : evidenceOf sv rules = e at hs
  unfold Sat.Solver.mkUnsat at hu
  split at hu
  · next l hlits =>
    split at hu
    · next a ha =>
      have hlits' : e.lits u.learned = [l] := by rw [← he]; exact hlits
      have ha' : e.assigning (iabs (-l)) = some a := by rw [← he]; exact ha
      have han : a < sv.nextId := h.assigned _ _ ha
      unfold mkExplanation
      obtain ⟨r1, i1, m1, a1, a2, a3⟩ := clauseRequirements_spec hs 2 a (by omega) (by omega) han [] ⟨[], []⟩ (MemoOK.empty e)
      obtain ⟨r2, i2, m2, b1, b2, b3⟩ := clauseRequirements_spec hs 2 u.learned (by omega) (by omega) hl [] m1 a2
      obtain ⟨r3, i3, m3, c1, c2, c3⟩ := clauseRequirements_spec hs 2 u.conflict (by omega) (by omega) hc [] m2 b2
      simp only [hlits', ha', a1, b1, c1]
      have hdet : ∀ c ∈ r1 ++ r2 ++ r3, e.hasReqs c = true ∧ c < sv.nextId ∧ Involved e u.conflict u.learned (-l) c := by
        have fin : ∀ {b c : Nat}, b < sv.nextId → Root e u.conflict u.learned (-l) b →
            (e.hasReqs c = true ∧ (c = b ∨ Uses e b c)) →
            e.hasReqs c = true ∧ c < sv.nextId ∧ Involved e u.conflict u.learned (-l) c := by
          intro b c hb hroot hcc
          refine ⟨hcc.1, ?_, b, hroot, hcc.2⟩
          rcases hcc.2 with rfl | k
          · exact hb
          · exact uses_lt hs k hb
        intro c hmem
        simp only [List.mem_append] at hmem
        rcases hmem with (hm | hm) | hm
        · exact fin han (.assigning ha') (a3 c hm)
        · exact fin hl .learned (b3 c hm)
        · exact fin hc .conflict (c3 c hm)
      generalize hR : r1 ++ r2 ++ r3 = R at hdet
      have hdet' : ∀ c ∈ R, ∃ r, e.rule c = some r ∧ r ∈ rules ∧ r.requirements ≠ [] ∧
          ∀ l, l ∈ e.lits c ↔ l ∈ r.literals := by
        intro c hcR
        obtain ⟨k1, k2, -⟩ := hdet c hcR
        obtain ⟨r, k3, k4⟩ := (hasReqs_iff e c).1 k1
        subst he
        obtain ⟨k5, k6⟩ := rule_of_prov h k2 k3
        exact ⟨r, k3, k5, k4, k6⟩
      have hends : ∀ c, c ∈ endClauses e o R (-l) ↔ Anchor e R (-l) c := by
        intro c
        unfold endClauses
        rw [mem_sortBy, (o.endsPerm _).mem_iff, mem_fromkeys, List.mem_filter]
        constructor
        · rintro ⟨k1, k2⟩
          obtain ⟨r, k3, k4, k5, k6⟩ := hdet' c k1
          refine ⟨k1, r, k3, ?_⟩
          unfold Evidence.isEnd at k2
          rw [k3] at k2
          simp only [Bool.and_eq_true, Bool.or_eq_true, decide_eq_true_eq] at k2
          exact k2.2
        · rintro ⟨k1, r, k2, k3⟩
          obtain ⟨r', k4, k5, k6, -⟩ := hdet' c k1
          rw [k2] at k4
          cases k4
          refine ⟨k1, ?_⟩
          unfold Evidence.isEnd
          rw [k2]
          simp only [Bool.and_eq_true, Bool.or_eq_true, decide_eq_true_eq]
          exact ⟨by cases hq : r.requirements with
            | nil => exact absurd hq k6
            | cons _ _ => rfl, k3⟩
      have hnd : (endClauses e o R (-l)).Nodup := by
        unfold endClauses
        exact ((sortBy_perm _ _).trans (o.endsPerm _)).nodup_iff.2 (nodup_fromkeys _)
      obtain ⟨paths, p1, p2, p3⟩ := findConflictPaths_spec (o := o) (e := e) (R := R) (ends := endClauses e o R (-l))
        (by
          intro c hcR hnil
          obtain ⟨r, -, k1, -, k2⟩ := hdet' c hcR
          apply hne r k1
          rw [List.eq_nil_iff_forall_not_mem]
          intro y hy
          have := (k2 y).2 hy
          rw [hnil] at this
          cases this)
        (by intro c hcR; obtain ⟨r, k, -⟩ := hdet' c hcR; exact ⟨r, k⟩)
        (fun c hcE => ((hends c).1 hcE).1) hnd
      simp only [p1]
      refine ⟨_, rfl, ?_⟩
      constructor
      · exact he.symm
      · exact c2
      · show e.lits u.learned = [-(-l)]
        rw [hlits', Int.neg_neg]
      · intro c hcR
        have k := hdet c hcR
        refine ⟨k.2.1, ?_, k.2.2, hdet' c hcR⟩
        cases hlc : e.learned c with
        | false => rfl
        | true =>
          obtain ⟨r, k1, -⟩ := hdet' c hcR
          rw [hs.rule c k.2.1 hlc] at k1
          cases k1
      · exact ⟨_, hnd, hends, p2, p3⟩
    · cases hu
  · cases hu

/-- every clause of a path is one of the relevant ones -/
theorem ExplanationOK.path_mem {sv : Sat.Solver} {rules : List (Rule N U)} {u : Sat.UnsatInfo} {x : Explanation N U}
    (h : ExplanationOK sv rules u x) {p : List Nat} (hp : p ∈ x.paths) {c : Nat} (hc : c ∈ p) : c ∈ x.details := by
  obtain ⟨ends, h1, h2, h3, h4⟩ := h.paths
  rcases Nat.lt_or_ge ends.length 2 with k | k
  · rw [h3 k] at hp
    simp only [List.mem_singleton] at hp
    subst hp
    exact ((h2 c).1 hc).1
  · obtain ⟨a, b, -, -, -, k2, -⟩ := (h4 k).sound p hp
    exact k2.within c hc

/-! ### rules and requirements -/

theorem firstBy_mem {α κ : Type} [DecidableEq κ] (key : α → κ) : ∀ (xs acc : List α) (y : α),
    y ∈ Explanation.firstBy key xs acc → y ∈ xs ∨ y ∈ acc
  | [], acc, y, h => Or.inr h
  | x :: xs, acc, y, h => by
    unfold Explanation.firstBy at h
    split at h
    · rcases firstBy_mem key xs acc y h with k | k
      · exact Or.inl (List.mem_cons_of_mem _ k)
      · exact Or.inr k
    · rcases firstBy_mem key xs _ y h with k | k
      · exact Or.inl (List.mem_cons_of_mem _ k)
      · rcases List.mem_append.1 k with k | k
        · exact Or.inr k
        · simp only [List.mem_singleton] at k
          exact Or.inl (by simp [k])

theorem firstBy_acc {α κ : Type} [DecidableEq κ] (key : α → κ) : ∀ (xs acc : List α) (y : α), y ∈ acc →
    y ∈ Explanation.firstBy key xs acc
  | [], _, _, h => h
  | x :: xs, acc, y, h => by
    unfold Explanation.firstBy
    split
    · exact firstBy_acc key xs acc y h
    · exact firstBy_acc key xs _ y (by simp [h])

theorem firstBy_key {α κ : Type} [DecidableEq κ] (key : α → κ) : ∀ (xs acc : List α) (y : α), y ∈ xs →
    ∃ z ∈ Explanation.firstBy key xs acc, key z = key y
  | x :: xs, acc, y, h => by
    unfold Explanation.firstBy
    rcases List.mem_cons.1 h with rfl | h
    · split
      · next k =>
        rw [List.any_eq_true] at k
        obtain ⟨z, k1, k2⟩ := k
        exact ⟨z, firstBy_acc key xs acc z k1, by simpa using k2⟩
      · exact ⟨y, firstBy_acc key xs _ y (by simp), rfl⟩
    · split
      · exact firstBy_key key xs acc y h
      · exact firstBy_key key xs _ y h

theorem firstBy_nodup {α κ : Type} [DecidableEq κ] (key : α → κ) : ∀ (xs acc : List α), (acc.map key).Nodup →
    ((Explanation.firstBy key xs acc).map key).Nodup
  | [], _, h => h
  | x :: xs, acc, h => by
    unfold Explanation.firstBy
    split
    · exact firstBy_nodup key xs acc h
    · next k =>
      apply firstBy_nodup key xs
      rw [List.map_append, List.nodup_append]
      refine ⟨h, by simp, ?_⟩
      intro a ha b hb hab
      simp only [List.map_cons, List.map_nil, List.mem_singleton] at hb
      subst hb hab
      apply k
      rw [List.any_eq_true]
      obtain ⟨z, hz, hk⟩ := List.mem_map.1 ha
      exact ⟨z, hz, by simpa using hk⟩

/-- the rules along the paths of an explanation -/
def Explanation.chains (x : Explanation N U) : List (List (Rule N U)) :=
  x.paths.map (fun p => p.filterMap x.evidence.rule)

theorem ExplanationOK.mem_rules {sv : Sat.Solver} {rules : List (Rule N U)} {u : Sat.UnsatInfo} {x : Explanation N U}
    (h : ExplanationOK sv rules u x) {r : Option (Rule N U)} (hr : r ∈ x.rules) :
    ∃ r', r = some r' ∧ r' ∈ rules ∧ r'.requirements ≠ [] := by
  rcases firstBy_mem _ _ _ _ hr with k | k
  · obtain ⟨c, k1, rfl⟩ := List.mem_map.1 k
    obtain ⟨p, hp, hcp⟩ := List.mem_flatten.1 k1
    obtain ⟨-, -, -, r, j1, j2, j3, -⟩ := h.details c (h.path_mem hp hcp)
    exact ⟨r, j1, j2, j3⟩
  · cases k

theorem ExplanationOK.requirements {sv : Sat.Solver} {rules : List (Rule N U)} {u : Sat.UnsatInfo} {x : Explanation N U}
    (h : ExplanationOK sv rules u x) : ∃ qs, x.requirements = .ok qs ∧
      (∀ q ∈ qs, ∃ r ∈ rules, some r ∈ x.rules ∧ ∃ rest, r.requirements = q :: rest) ∧
      (∀ r, some r ∈ x.rules → ∃ q ∈ qs, ∃ q' rest, r.requirements = q' :: rest ∧
        q.name = q'.name ∧ q.constraints = q'.constraints) ∧
      (qs.map (fun q => (q.name, q.constraints))).Nodup := by
  have hfirst : ∀ r ∈ x.rules, ∃ q, Explanation.firstReq r = .ok q := by
    intro r hr
    obtain ⟨r', rfl, h1, h2⟩ := h.mem_rules hr
    cases hq : r'.requirements with
    | nil => exact absurd hq h2
    | cons q rest => exact ⟨q, by simp only [Explanation.firstReq, hq]⟩
  obtain ⟨qs, hqs⟩ := mapX_ok hfirst
  unfold Explanation.requirements
  rw [hqs]
  refine ⟨_, rfl, ?_, ?_, firstBy_nodup _ _ _ (by simp)⟩
  · intro q hq
    rcases firstBy_mem _ _ _ _ hq with k | k
    · obtain ⟨r, k1, k2⟩ := (mapX_mem hqs q).1 k
      obtain ⟨r', rfl, h1, h2⟩ := h.mem_rules k1
      refine ⟨r', h1, k1, ?_⟩
      cases hq' : r'.requirements with
      | nil => exact absurd hq' h2
      | cons q2 rest =>
        simp only [Explanation.firstReq, hq'] at k2
        cases k2
        exact ⟨rest, rfl⟩
    · cases k
  · intro r hr
    obtain ⟨q, hq⟩ := hfirst _ hr
    obtain ⟨z, hz, hk⟩ := firstBy_key (fun q : Requirement N U => (q.name, q.constraints)) qs [] q
      ((mapX_mem hqs q).2 ⟨_, hr, hq⟩)
    refine ⟨z, hz, q, ?_⟩
    cases hq' : r.requirements with
    | nil => simp only [Explanation.firstReq, hq'] at hq; cases hq
    | cons q2 rest =>
      simp only [Explanation.firstReq, hq'] at hq
      cases hq
      simp only [Prod.mk.injEq] at hk
      exact ⟨rest, rfl, hk.1, hk.2⟩

end Verif.Solve
