import Verif.Sat.Final
import Mathlib.Data.Nat.Basic
/-
Properties C14-C16 and C57 (decision policy). The package policy is `UndeterminedClausePolicy` wrapped in `PolicyLogger`
(`InstalledFirstPolicy`), with

* `ver` the version of a package id, `order` the (arbitrary) iteration order of Python sets, which may change at
  each call;
* `prefer` the preferred installed packages, in the order of `_prefer_installed_pkg_ids`; `reqs` the ids given to
  `add_requirements`;
* `G` the rules. All ids are positive and known to the pool (`hids`), as those of a Pool are.
-/
namespace Verif.Props
open Verif Verif.Sat

/-- all variables that can be proposed: those of the rules, the preferred ones and the requirements -/
def idsOf (G : List (List Int)) (prefer reqs : List Int) : List Int := varsOf G ++ (prefer ++ reqs)

theorem packagePolicy_contract {V : Type} [LinearOrder V] {ver : Int → Option V} {order : Nat → List Int → List Int}
    (hord : ∀ n l, (order n l).Perm l) {G : List (List Int)} {prefer reqs : List Int}
    (hids : ∀ x ∈ idsOf G prefer reqs, 0 < x ∧ (ver x).isSome) :
    (packagePolicy ver order).OK (idsOf G prefer reqs) (varsOf G) (pkgD ver prefer reqs)
      (PolInv prefer reqs (idsOf G prefer reqs)) :=
  packagePolicy_ok ver order hord hids (fun x hx => by simp [idsOf, hx]) (fun x hx => by simp [idsOf, hx])
    (fun x hx => by simpa [idsOf] using hx)

section
variable {V : Type} [LinearOrder V] {ver : Int → Option V} {order : Nat → List Int → List Int}
variable (hord : ∀ n l, (order n l).Perm l) {G : List (List Int)} {prefer reqs : List Int}
variable (hids : ∀ x ∈ idsOf G prefer reqs, 0 < x ∧ (ver x).isSome) (hnz : ∀ c ∈ G, ∀ l ∈ c, l ≠ 0)
include hord hids hnz

theorem ask_spec {ps : PolState} {s s' : Solver}
    (h : Reach (packagePolicy ver order) G (PolState.start prefer reqs) ps s)
    (hp : Solver.propagate s.propFuel s = .ok (s', none)) (hask : s'.allAssigned = false) :
    ∃ ps' a p, (packagePolicy ver order).next ps s'.assignments (s'.clauses.map s'.heap) = .ok (ps', a, p) ∧
      0 < p ∧ s'.val p = none ∧ p ∈ idsOf G prefer reqs ∧
      GoodChoice ver prefer reqs s'.assignments.assigned p ∧
      (∀ q, q ∈ s'.assignments.assigned ↔ 0 < q ∧ s'.val q ≠ none) := by
  obtain ⟨⟨hi, hcov⟩, hpi⟩ := h.head (packagePolicy_contract hord hids)
    (fun v hv => by simp [idsOf, hv]) hnz (start_inv _ _ _)
  obtain ⟨s1, r, g1, g2, g3, -⟩ := Solver.propagate_spec s.propFuel hi (by unfold Solver.propFuel ASet.len; omega)
  rw [g1] at hp
  simp only [Except.ok.injEq, Prod.mk.injEq] at hp
  obtain ⟨rfl, rfl⟩ := hp
  obtain ⟨hI, hq⟩ := g3 rfl
  have hcov1 := hcov.ext g2
  have hw := hI.base.aset
  have hex : ∃ v ∈ s1.assignments.seen, s1.assignments.value v = none := by
    apply Classical.byContradiction
    intro hno
    unfold Solver.allAssigned ASet.numAssigned ASet.len at hask
    simp only [decide_eq_false_iff_not] at hask
    apply hask
    rw [hw.length_eq_iff]
    intro k hk hn
    exact hno ⟨k, hk, hn⟩
  have hs := s1.assignments.getChangelog_same
  obtain ⟨st', a', p, h1, h2, h3, h4, h5, h6⟩ := nextPackage_spec ver order hord (W := varsOf G) hids
    (fun x hx => by simp [idsOf, hx]) (fun x hx => by simp [idsOf, hx])
    (fun x hx => by simpa [idsOf] using hx) (a := s1.assignments.getChangelog.1) (cs := s1.clauses.map s1.heap) hpi (hw.same hs)
    (by rw [hs.seen]; exact hI.base.seenU) (by
      intro c hc l hl
      obtain ⟨cid, hcid, rfl⟩ := List.mem_map.1 hc
      exact ⟨hI.base.cnz cid hcid l hl, hI.base.cU cid hcid l hl⟩) (by
      intro v hv
      obtain ⟨c, hc, l, hl, e⟩ := varsOf_nonempty G v hv
      obtain ⟨cid, hcid, hh⟩ := hcov1 c hc (by rintro rfl; simp at hl)
      exact ⟨s1.heap cid, List.mem_map_of_mem hcid, l, (hh l).2 hl, e⟩) (by
      obtain ⟨v, hv, hn⟩ := hex
      exact ⟨v, by rw [hs.seen]; exact hv, by unfold ASet.value at *; rw [hs.data]; exact hn⟩)
  rw [hs.assigned] at h5 h6
  have hp0 := (hids p h4).1
  refine ⟨st', a'.consumeChangelog.1, p, by simp only [packagePolicy, h1], hp0, ?_, h4, h6, fun q => hw.asg q⟩
  apply Classical.byContradiction
  intro hne
  exact h5 ((hw.asg p).2 ⟨hp0, hne⟩)

/-- C14: whenever the search asks the package policy for a decision (propagation found no conflict and some known
variable is undecided), the policy answers - no assertion, no KeyError, no `None` - with a positive, undecided id that
occurs in the rules, among the preferred installed packages or among the requirements. -/
theorem C14_policy_suggests_undecided {ps : PolState} {s s' : Solver}
    (h : Reach (packagePolicy ver order) G (PolState.start prefer reqs) ps s)
    (hp : Solver.propagate s.propFuel s = .ok (s', none)) (hask : s'.allAssigned = false) :
    ∃ ps' a p, (packagePolicy ver order).next ps s'.assignments (s'.clauses.map s'.heap) = .ok (ps', a, p) ∧
      0 < p ∧ s'.val p = none ∧ ((∃ c ∈ G, ∃ l ∈ c, iabs l = p) ∨ p ∈ prefer ∨ p ∈ reqs) := by
  obtain ⟨ps', a, p, h1, h2, h3, h4, -⟩ := ask_spec hord hids hnz h hp hask
  refine ⟨ps', a, p, h1, h2, h3, ?_⟩
  rw [← mem_varsOf]
  simpa [idsOf] using h4

/-- C15: the answer is the first undecided preferred package if there is one; otherwise, if some requirement is
undecided, an undecided requirement of maximal version. -/
theorem C15_installed_first_then_newest {ps : PolState} {s s' : Solver}
    (h : Reach (packagePolicy ver order) G (PolState.start prefer reqs) ps s)
    (hp : Solver.propagate s.propFuel s = .ok (s', none)) {ps' : PolState} {a : ASet} {p : Int}
    (hn : (packagePolicy ver order).next ps s'.assignments (s'.clauses.map s'.heap) = .ok (ps', a, p))
    (hask : s'.allAssigned = false) :
    ((∃ q ∈ prefer, s'.val q = none) →
      ∃ pre post, prefer = pre ++ p :: post ∧ ∀ q ∈ pre, s'.val q ≠ none) ∧
    ((∀ q ∈ prefer, s'.val q ≠ none) → (∃ q ∈ reqs, s'.val q = none) →
      p ∈ reqs ∧ s'.val p = none ∧
      ∀ q ∈ reqs, s'.val q = none → ∀ vq vp, ver q = some vq → ver p = some vp → vq ≤ vp) := by
  obtain ⟨ps1, a1, p1, h1, h2, h3, h4, h5, h6⟩ := ask_spec hord hids hnz h hp hask
  rw [h1] at hn
  simp only [Except.ok.injEq, Prod.mk.injEq] at hn
  obtain ⟨rfl, rfl, rfl⟩ := hn
  constructor
  · rintro ⟨q, hq, hqn⟩
    have hqa : q ∉ s'.assignments.assigned := fun hh => ((h6 q).1 hh).2 hqn
    rcases h5 with ⟨pre, post, e, k⟩ | ⟨k, -⟩ | ⟨k, -⟩
    · exact ⟨pre, post, e, fun x hx => ((h6 x).1 (k x hx)).2⟩
    · exact absurd (k q hq) hqa
    · exact absurd (k q hq) hqa
  · intro hall hex
    rcases h5 with ⟨pre, post, e, k⟩ | ⟨-, k1, k2⟩ | ⟨-, k⟩
    · exact absurd h3 (hall p1 (by rw [e]; simp))
    · refine ⟨k1, h3, ?_⟩
      intro q hq hqn
      exact k2 q hq (fun hh => ((h6 q).1 hh).2 hqn)
    · obtain ⟨q, hq, hqn⟩ := hex
      exact absurd hqn ((h6 q).1 (k q hq)).2

end

/-- The result of a finished search, when decisions respect a priority `before` on a set `K` of positive variables:
if `q ∈ K` is false in the result, it is false in every model of the rules that contains all members of `K` that the
result contains and that do not come after `q`. -/
theorem search_lex {σ : Type} {pol : Policy σ} {U : List Int} {D : Int → List Int → Prop} {PI : σ → Prop}
    {G : List (List Int)} (hpol : pol.OK U (varsOf G) D PI) (hU : ∀ v ∈ varsOf G, v ∈ U)
    (hnz : ∀ c ∈ G, ∀ l ∈ c, l ≠ 0) {ps : σ} (hps : PI ps) (K : Int → Prop) (before : Int → Int → Prop)
    (hK : ∀ q, K q → 0 < q)
    (hD : ∀ p t, D p t → (K p ∧ ∀ q, K q → before q p → q ∈ t ∨ -q ∈ t) ∨ (∀ q, K q → q ∈ t ∨ -q ∈ t))
    {fuel : Nat} {a : ASet} (h : solveRules pol fuel ps G = .ok a) {q : Int} (hq : K q)
    (hf : a.value q = some false) {m : Nat → Bool} (hm : Sat m G)
    (hagree : ∀ p, K p → ¬ before q p → a.value p = some true → litTrue m p) : ¬ litTrue m q := by
  rcases solveRules_spec G hpol hU hnz hps fuel with ⟨s, h1, h2, h3⟩ | ⟨u, h1, -⟩ | ⟨h1, -⟩
  · rw [h1] at h
    cases h
    exact lex_preference h2.inv.base K before hK hD hq hf (fun c hc => hm c (List.mem_filter.1 hc).1) hagree
  · rw [h1] at h; simp at h
  · rw [h1] at h; simp at h

/-- C16, for any policy that decides members of `L` before anything else (`hL`): if some model of the rules makes
all of `L` true, then no member of `L` is false in the solution; those that occur in the rules are true in it. -/
theorem C16_preferred_kept_any_policy {σ : Type} {pol : Policy σ} {U : List Int} {D : Int → List Int → Prop}
    {PI : σ → Prop} {G : List (List Int)} (hpol : pol.OK U (varsOf G) D PI) (hU : ∀ v ∈ varsOf G, v ∈ U)
    (hnz : ∀ c ∈ G, ∀ l ∈ c, l ≠ 0) {ps : σ} (hps : PI ps) (L : List Int) (hpos : ∀ q ∈ L, 0 < q)
    (hL : ∀ p t, D p t → p ∈ L ∨ ∀ q ∈ L, q ∈ t ∨ -q ∈ t)
    {fuel : Nat} {a : ASet} (h : solveRules pol fuel ps G = .ok a)
    (hex : ∃ m, Sat m G ∧ ∀ q ∈ L, litTrue m q) :
    ∀ q ∈ L, a.value q ≠ some false ∧ ((∃ c ∈ G, ∃ l ∈ c, iabs l = q) → a.value q = some true) := by
  obtain ⟨m, hm, hmL⟩ := hex
  intro q hq
  have hnf : a.value q ≠ some false := by
    intro hf
    exact search_lex hpol hU hnz hps (fun x => x ∈ L) (fun _ _ => False) hpos
      (fun p t hd => by
        rcases hL p t hd with k | k
        · exact Or.inl ⟨k, fun _ _ hb => hb.elim⟩
        · exact Or.inr k) h hq hf hm (fun p hp _ _ => hmL p hp) (hmL q hq)
  refine ⟨hnf, ?_⟩
  rintro ⟨c, hc, l, hl, e⟩
  rcases solveRules_spec G hpol hU hnz hps fuel with ⟨s, h1, h2, h3⟩ | ⟨u, h1, -⟩ | ⟨h1, -⟩
  · rw [h1] at h
    cases h
    obtain ⟨cid, k1, k2⟩ := h3 c hc (by rintro rfl; simp at hl)
    have hseen := h2.inv.cs cid k1 l ((k2 l).2 hl)
    rw [e] at hseen
    have := h2.all q hseen
    cases hv : s.assignments.copy.value q with
    | none => exact absurd hv this
    | some b => cases b with
      | true => rfl
      | false => exact absurd hv hnf
  · rw [h1] at h; simp at h
  · rw [h1] at h; simp at h

/-- the positive variables assigned by the true literals `t` -/
def asgOf (t : List Int) : List Int := (t.map iabs).filter (fun x => decide (0 < x))

theorem mem_asgOf {t : List Int} {q : Int} (h : q ∈ asgOf t) : q ∈ t ∨ -q ∈ t := by
  simp only [asgOf, List.mem_filter, List.mem_map, decide_eq_true_eq] at h
  obtain ⟨⟨l, hl, rfl⟩, -⟩ := h
  rcases iabs_eq l with e | e
  · left; rw [e]; exact hl
  · right; rw [e, Int.neg_neg]; exact hl

theorem pkgD_choice {V : Type} [LinearOrder V] {ver : Int → Option V} {prefer reqs : List Int} {p : Int} {t : List Int}
    (h : pkgD ver prefer reqs p t) : GoodChoice ver prefer reqs (asgOf t) p := by
  apply h.2
  · intro q hq
    refine ⟨mem_asgOf, ?_⟩
    simp only [asgOf, List.mem_filter, List.mem_map, decide_eq_true_eq]
    rintro (k | k)
    · exact ⟨⟨q, k, iabs_of_pos hq⟩, hq⟩
    · exact ⟨⟨-q, k, by rw [iabs_neg]; exact iabs_of_pos hq⟩, hq⟩
  · intro q hq
    simpa using (List.mem_filter.1 hq).2

theorem pkgD_prefer {V : Type} [LinearOrder V] {ver : Int → Option V} {prefer reqs : List Int} {p : Int} {t : List Int}
    (h : pkgD ver prefer reqs p t) :
    (∃ pre post, prefer = pre ++ p :: post ∧ ∀ q ∈ pre, q ∈ t ∨ -q ∈ t) ∨ (∀ q ∈ prefer, q ∈ t ∨ -q ∈ t) := by
  rcases pkgD_choice h with ⟨pre, post, e, k⟩ | ⟨k, -⟩ | ⟨k, -⟩
  · exact Or.inl ⟨pre, post, e, fun q hq => mem_asgOf (k q hq)⟩
  · exact Or.inr fun q hq => mem_asgOf (k q hq)
  · exact Or.inr fun q hq => mem_asgOf (k q hq)

theorem append_cons_unique {pre post pre' post' : List Int} {p : Int} (hnd : (pre ++ p :: post).Nodup)
    (e : pre ++ p :: post = pre' ++ p :: post') : pre = pre' := by
  induction pre generalizing pre' with
  | nil =>
    cases pre' with
    | nil => rfl
    | cons x l =>
      simp only [List.nil_append, List.cons_append, List.cons.injEq] at e
      obtain ⟨rfl, e⟩ := e
      rw [List.nil_append, List.nodup_cons] at hnd
      exact absurd (by rw [e]; simp) hnd.1
  | cons y pre ih =>
    cases pre' with
    | nil =>
      simp only [List.nil_append, List.cons_append, List.cons.injEq] at e
      obtain ⟨rfl, e⟩ := e
      rw [List.cons_append, List.nodup_cons] at hnd
      exact absurd (by simp) hnd.1
    | cons x l =>
      simp only [List.cons_append, List.cons.injEq] at e
      obtain ⟨rfl, e⟩ := e
      rw [List.cons_append, List.nodup_cons] at hnd
      rw [ih hnd.2 e]

section
variable {V : Type} [LinearOrder V] {ver : Int → Option V} {order : Nat → List Int → List Int}
variable (hord : ∀ n l, (order n l).Perm l) {G : List (List Int)} {prefer reqs : List Int}
variable (hids : ∀ x ∈ idsOf G prefer reqs, 0 < x ∧ (ver x).isSome) (hnz : ∀ c ∈ G, ∀ l ∈ c, l ≠ 0)
include hord hids hnz

/-- C16 for the package policy: if the rules have a solution that keeps all preferred packages, the solution found
keeps all of them (those that occur in the rules are true, the others are not false). -/
theorem C16_preferred_kept {fuel : Nat} {a : ASet}
    (h : solveRules (packagePolicy ver order) fuel (PolState.start prefer reqs) G = .ok a)
    (hex : ∃ m, Sat m G ∧ ∀ q ∈ prefer, litTrue m q) :
    ∀ q ∈ prefer, a.value q ≠ some false ∧ ((∃ c ∈ G, ∃ l ∈ c, iabs l = q) → a.value q = some true) := by
  refine C16_preferred_kept_any_policy (packagePolicy_contract hord hids) (fun v hv => by simp [idsOf, hv]) hnz
    (start_inv _ _ _) prefer (fun q hq => (hids q (by simp [idsOf, hq])).1) ?_ h hex
  intro p t hd
  rcases pkgD_prefer hd with ⟨pre, post, e, -⟩ | k
  · left; rw [e]; simp
  · exact Or.inr k

/-- C57: the preferred packages are kept lexicographically: if preferred package `q` is dropped, then every solution
of the rules that keeps the packages listed before `q` that were kept drops `q` as well. -/
theorem C57_lexicographic_preference {fuel : Nat} {a : ASet}
    (h : solveRules (packagePolicy ver order) fuel (PolState.start prefer reqs) G = .ok a)
    {pre post : List Int} {q : Int} (hq : prefer = pre ++ q :: post) (hnd : prefer.Nodup) (hf : a.value q = some false)
    {m : Nat → Bool} (hm : Sat m G) (hagree : ∀ p ∈ pre, a.value p = some true → litTrue m p) : ¬ litTrue m q := by
  refine search_lex (packagePolicy_contract hord hids) (fun v hv => by simp [idsOf, hv]) hnz (start_inv _ _ _)
    (fun x => x ∈ prefer) (fun x y => ∃ pre post, prefer = pre ++ y :: post ∧ x ∈ pre)
    (fun x hx => (hids x (by simp [idsOf, hx])).1) ?_ h (show q ∈ prefer by rw [hq]; simp) hf hm ?_
  · intro p t hd
    rcases pkgD_prefer hd with ⟨pre, post, e, k⟩ | k
    · left
      refine ⟨show p ∈ prefer by rw [e]; simp, ?_⟩
      rintro x hx ⟨pre', post', e', hx'⟩
      have : pre' = pre := by
        have hnd' := hnd
        rw [e] at e' hnd'
        exact (append_cons_unique hnd' e').symm
      subst this
      exact k x hx'
    · exact Or.inr k
  · intro p hp hnb ht
    by_cases hpp : p ∈ pre
    · exact hagree p hpp ht
    · exfalso
      have hp' : p ∈ prefer := hp
      rw [hq] at hp'
      simp only [List.mem_append, List.mem_cons] at hp'
      rcases hp' with k | rfl | k
      · exact hpp k
      · rw [hf] at ht; simp at ht
      · obtain ⟨u, w, e⟩ := List.append_of_mem k
        exact hnb ⟨pre ++ q :: u, w, by rw [hq, e]; simp, by simp⟩

/-- C58: among the packages matching the job requirements the newest possible is chosen: if `q`, a requirement id,
is left out, then every solution of the rules that contains the preferred
packages that were kept and the requirements of the same or higher version that were chosen leaves `q` out as well. -/
theorem C58_newest_requirement {fuel : Nat} {a : ASet}
    (h : solveRules (packagePolicy ver order) fuel (PolState.start prefer reqs) G = .ok a)
    {q : Int} (hq : q ∈ reqs) (hnd : prefer.Nodup) (hf : a.value q = some false)
    {m : Nat → Bool} (hm : Sat m G) (hagree : ∀ p ∈ prefer, a.value p = some true → litTrue m p)
    (hagree' : ∀ p ∈ reqs, ∀ vp vq, ver p = some vp → ver q = some vq → vq ≤ vp → a.value p = some true → litTrue m p) :
    ¬ litTrue m q := by
  have hver : ∀ x, x ∈ prefer ∨ x ∈ reqs → 0 < x ∧ ∃ v, ver x = some v := by
    intro x hx
    obtain ⟨h1, h2⟩ := hids x (by simp only [idsOf, List.mem_append]; exact Or.inr hx)
    exact ⟨h1, Option.isSome_iff_exists.1 h2⟩
  refine search_lex (packagePolicy_contract hord hids) (fun v hv => by simp [idsOf, hv]) hnz (start_inv _ _ _)
    (fun x => x ∈ prefer ∨ x ∈ reqs)
    (fun x y => (∃ pre post, prefer = pre ++ y :: post ∧ x ∈ pre) ∨
      (y ∉ prefer ∧ (x ∈ prefer ∨ ∃ vx vy, ver x = some vx ∧ ver y = some vy ∧ vy < vx)))
    (fun x hx => (hver x hx).1) ?_ h (Or.inr hq) hf hm ?_
  · intro p t hd
    have key : ∀ pre post, prefer = pre ++ p :: post → (∀ q ∈ pre, q ∈ t ∨ -q ∈ t) →
        (p ∈ prefer ∨ p ∈ reqs) ∧ ∀ x, (x ∈ prefer ∨ x ∈ reqs) →
        ((∃ pre post, prefer = pre ++ p :: post ∧ x ∈ pre) ∨
        (p ∉ prefer ∧ (x ∈ prefer ∨ ∃ vx vy, ver x = some vx ∧ ver p = some vy ∧ vy < vx))) → x ∈ t ∨ -x ∈ t := by
      intro pre post e k
      have hpm : p ∈ prefer := by rw [e]; simp
      refine ⟨Or.inl hpm, ?_⟩
      rintro x hx (⟨pre', post', e', hx'⟩ | ⟨hn, -⟩)
      · have hnd' := hnd
        rw [e] at e' hnd'
        rw [← append_cons_unique hnd' e'] at hx'
        exact k x hx'
      · exact absurd hpm hn
    rcases pkgD_choice hd with ⟨pre, post, e, k⟩ | ⟨k1, k2, k3⟩ | ⟨k1, k2⟩
    · exact Or.inl (key pre post e (fun q hq => mem_asgOf (k q hq)))
    · left
      by_cases hpp : p ∈ prefer
      · obtain ⟨u, w, e⟩ := List.append_of_mem hpp
        exact key u w e (fun q hq => mem_asgOf (k1 q (by rw [e]; simp [hq])))
      · refine ⟨Or.inr k2, ?_⟩
        rintro x hx (⟨pre', post', e', -⟩ | ⟨-, hxp | ⟨vx, vy, e1, e2, hlt⟩⟩)
        · exact absurd (by rw [e']; simp) hpp
        · exact mem_asgOf (k1 x hxp)
        · rcases hx with hx | hx
          · exact mem_asgOf (k1 x hx)
          · by_cases hxa : x ∈ asgOf t
            · exact mem_asgOf hxa
            · exact absurd (k3 x hx hxa vx vy e1 e2) (not_le.2 hlt)
    · right
      rintro x (hx | hx)
      · exact mem_asgOf (k1 x hx)
      · exact mem_asgOf (k2 x hx)
  · intro p hp hnb ht
    by_cases hpp : p ∈ prefer
    · exact hagree p hpp ht
    · rcases hp with hp | hp
      · exact absurd hp hpp
      · obtain ⟨-, vp, e1⟩ := hver p (Or.inr hp)
        obtain ⟨-, vq, e2⟩ := hver q (Or.inr hq)
        refine hagree' p hp vp vq e1 e2 ?_ ht
        apply not_lt.1
        intro hlt
        exact hnb (Or.inr ⟨hpp, Or.inr ⟨vq, vp, e2, e1, hlt⟩⟩)

end

/-! ### Non-vacuity: two installed packages 1 and 2 that exclude each other, a requirement `3 ∨ 4` with versions 30
and 40, and 4 excluding 2. -/
def exG : List (List Int) := [[-1, -2], [3, 4], [-4, -2], [1, 2]]
def exVer : Int → Option Nat := fun x => some (10 * x.toNat)

example : ∀ x ∈ idsOf exG [2, 1] [3, 4], 0 < x ∧ (exVer x).isSome := by decide
example : ∀ (n : Nat) (l : List Int), ((fun _ l => l) n l : List Int).Perm l := fun _ _ => List.Perm.refl _
/-- 2 is preferred to 1 and kept, which forces 1 and 4 out -/
example : ∃ a, solveRules (packagePolicy exVer (fun _ l => l)) 20 (PolState.start [2, 1] [3, 4]) exG = .ok a ∧
    a.value 2 = some true ∧ a.value 1 = some false ∧ a.value 4 = some false ∧ a.value 3 = some true :=
  ⟨_, rfl, by decide, by decide, by decide, by decide⟩
/-- with only 1 preferred, it is kept and the newest requirement is chosen -/
example : ∃ a, solveRules (packagePolicy exVer (fun _ l => l)) 20 (PolState.start [1] [3, 4]) exG = .ok a ∧
    a.value 1 = some true ∧ a.value 4 = some true := ⟨_, rfl, by decide, by decide⟩
example : ∃ m, Sat m exG ∧ ∀ q ∈ [1], litTrue m q :=
  ⟨fun n => decide (n = 1 ∨ n = 4), by unfold Sat SatC litTrue; decide, by unfold litTrue; decide⟩
/-- the policy is actually asked, at the start of this search -/
example : ∃ s s', Solver.fromRules exG = .ok s ∧ Solver.propagate s.propFuel s = .ok (s', none) ∧
    s'.allAssigned = false := ⟨_, _, rfl, rfl, by decide⟩

end Verif.Props
