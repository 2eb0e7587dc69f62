import Verif.Pkg.ConstraintsSpec
import Mathlib.Data.Nat.Basic
import Mathlib.Data.List.Induction
import Mathlib.Tactic.Tauto
import Mathlib.Tactic.Conv
/-
Properties C24-C28: constraints and constraint modifiers.
-/
set_option linter.unusedSectionVars false
namespace Verif.Props
open Verif Verif.Pkg

variable {N U : Type} [DecidableEq N] [LinearOrder U]

theorem sameVersion_iff (a b : Version U) : SameVersion a b ↔ a = b := by
  obtain ⟨u, n⟩ := a; obtain ⟨w, k⟩ := b
  simp [SameVersion]

theorem earlier_iff (a b : Version U) : Earlier a b ↔ a < b := Iff.rfl

theorem earlier_or_same (a b : Version U) : Earlier a b ∨ SameVersion b a ↔ a ≤ b := by
  rw [sameVersion_iff, earlier_iff, le_iff_lt_or_eq, eq_comm (a := a)]

theorem earlier_or_same' (a b : Version U) : Earlier a b ∨ SameVersion a b ↔ a ≤ b := by
  rw [sameVersion_iff, earlier_iff, le_iff_lt_or_eq]

theorem accepts_iff (c : Constraint U) (v : Version U) : Accepts c v ↔ c.matches v = true := by
  cases c with
  | any => simp [Accepts, Constraint.matches]
  | equal w => simp [Accepts, Constraint.matches, sameVersion_iff, eq_comm]
  | not w =>
    simp only [Accepts, Constraint.matches, sameVersion_iff, decide_eq_true_eq, ne_eq]
    rw [eq_comm]
  | geq w => simp only [Accepts, Constraint.matches, decide_eq_true_eq]; exact earlier_or_same w v
  | gt w => simp only [Accepts, Constraint.matches, decide_eq_true_eq]; exact Iff.rfl
  | leq w => simp only [Accepts, Constraint.matches, decide_eq_true_eq]; exact earlier_or_same' v w
  | lt w => simp only [Accepts, Constraint.matches, decide_eq_true_eq]; exact Iff.rfl
  | upstream w => simp [Accepts, Constraint.matches]

theorem multiMatches_iff (cs : List (Constraint U)) (v : Version U) :
    multiMatches cs v = true ↔ ∀ c ∈ cs, c.matches v = true := by
  induction cs with
  | nil => simp [multiMatches]
  | cons c cs ih =>
    unfold multiMatches
    cases h : c.matches v
    · simp [h]
    · simp [h, ih]

/-- C24: a requirement matches exactly the versions that satisfy each of its constraints. -/
theorem C24_matches_meaning (r : Requirement N U) (v : Version U) : r.matches v = true ↔ ReqAccepts r v := by
  unfold Requirement.matches ReqAccepts
  rw [multiMatches_iff]
  exact forall₂_congr fun c _ => (accepts_iff c v).symm

/-- C24: order and repetition of the constraints do not matter. -/
theorem C24_order_and_repetition_irrelevant (r r' : Requirement N U)
    (h : ∀ c, c ∈ r.constraints ↔ c ∈ r'.constraints) (v : Version U) : r.matches v = r'.matches v := by
  rw [Bool.eq_iff_iff, C24_matches_meaning, C24_matches_meaning]
  unfold ReqAccepts
  exact forall_congr' fun c => by rw [h c]

/-! ### the constraints after modification -/

/-- the function applied to each constraint of a requirement named `x` -/
def modMap (m : Modifiers N) (x : N) (c : Constraint U) : Constraint U :=
  let c := if x ∈ m.allowOlder then allowOlderMap c else c
  let c := if x ∈ m.allowNewer then allowNewerMap c else c
  if x ∈ m.allowAny then allowAnyMap c else c

theorem applyMap_eq (x : N) (names : List N) (f : Constraint U → Constraint U) (b : Bool) (l : List (Constraint U)) :
    applyMap x names f (b, l) = (b || decide (x ∈ names), l.map (fun c => if x ∈ names then f c else c)) := by
  unfold applyMap
  split <;> simp [*]

theorem modifyInstall_eq (r : Requirement N U) (m : Modifiers N) :
    modifyInstall r m =
      if r.constraints.map (modMap m r.name) ≠ r.constraints then
        some { cls := .install
               name := r.name
               constraints := fromkeys (r.constraints.map (modMap m r.name)) }
      else none := by
  unfold modifyInstall
  simp only [applyMap_eq, List.map_map]
  have e : (fun c : Constraint U => if r.name ∈ m.allowAny then allowAnyMap c else c) ∘
      (fun c => if r.name ∈ m.allowNewer then allowNewerMap c else c) ∘
      (fun c => if r.name ∈ m.allowOlder then allowOlderMap c else c) = modMap m r.name := rfl
  rw [e]
  by_cases h : r.constraints.map (modMap m r.name) = r.constraints
  · simp [h]
  · have hb : (false || decide (r.name ∈ m.allowOlder) || decide (r.name ∈ m.allowNewer) ||
        decide (r.name ∈ m.allowAny)) = true := by
      apply Classical.byContradiction
      intro hn
      simp only [Bool.not_eq_true, Bool.or_eq_false_iff, decide_eq_false_iff_not] at hn
      apply h
      have : modMap m r.name = (id : Constraint U → Constraint U) := by
        funext c
        simp [modMap, hn]
      rw [this, List.map_id]
    rw [hb]
    simp [h]

theorem modified_constraints (r : Requirement N U) (m : Modifiers N) (c : Constraint U) :
    c ∈ ((modifyInstall r m).getD r).constraints ↔ ∃ c0 ∈ r.constraints, modMap m r.name c0 = c := by
  rw [modifyInstall_eq]
  split
  · simp
  · next h =>
    rw [← List.mem_map]
    rw [Classical.not_not.1 h]
    simp

theorem modified_matches (r : Requirement N U) (m : Modifiers N) (v : Version U) :
    ((modifyInstall r m).getD r).matches v = true ↔ ∀ c ∈ r.constraints, (modMap m r.name c).matches v = true := by
  unfold Requirement.matches
  rw [multiMatches_iff]
  constructor
  · intro h c hc
    exact h _ ((modified_constraints r m _).2 ⟨c, hc, rfl⟩)
  · intro h c hc
    obtain ⟨c0, h0, rfl⟩ := (modified_constraints r m c).1 hc
    exact h c0 h0

/-- every successful modification (of a requirement of any class) behaves like this -/
theorem modifyRequirement_matches {r r' : Requirement N U} {m : Modifiers N} (h : modifyRequirement r m = .ok r')
    (v : Version U) : r'.matches v = true ↔ ∀ c ∈ r.constraints, (modMap m r.name c).matches v = true := by
  have key : ∀ c : Requirement N U, (modifyInstall r m).getD r = c → (c.matches v = true ↔
      ∀ c ∈ r.constraints, (modMap m r.name c).matches v = true) := by
    rintro c rfl
    exact modified_matches r m v
  have anyCase : r.hasAnyVersionConstraint = false → (r.matches v = true ↔
      ∀ c ∈ r.constraints, (modMap m r.name c).matches v = true) := by
    intro hh
    have : ∀ c ∈ r.constraints, c = .any := by
      unfold Requirement.hasAnyVersionConstraint at hh
      split at hh
      · next e => rw [e]; simp
      · next c e =>
        cases c <;> simp at hh
        rw [e]; simp
      · simp at hh
    unfold Requirement.matches
    rw [multiMatches_iff]
    refine forall₂_congr fun c hc => ?_
    rw [this c hc]
    unfold modMap
    constructor
    · intro _
      split <;> split <;> split <;> rfl
    · intro _; rfl
  unfold modifyRequirement at h
  split at h
  · cases h; exact key _ rfl
  · split at h
    · split at h
      · simp at h
      · next e =>
        cases h
        exact key r (by rw [e]; rfl)
    · next hh =>
      cases h
      exact anyCase (by simpa using hh)

/-! ### C25 -/

/-- C25, proved part: a version accepted before modification is accepted afterwards, provided its build number lies,
for each `^= x` constraint, between the build number of `x` and MAX_BUILD = 999999999 (so always for `^=` constraints
written without a build number and packages with build numbers up to MAX_BUILD). -/
theorem C25_modifiers_only_relax_partial {r r' : Requirement N U} {m : Modifiers N}
    (h : modifyRequirement r m = .ok r') {v : Version U} (hv : ReqAccepts r v)
    (hb : ∀ x, Constraint.upstream x ∈ r.constraints → x.build ≤ v.build ∧ v.build ≤ 999999999) :
    ReqAccepts r' v := by
  rw [← C24_matches_meaning] at hv ⊢
  rw [modifyRequirement_matches h]
  unfold Requirement.matches at hv
  rw [multiMatches_iff] at hv
  intro c hc
  have hcv := hv c hc
  cases c with
  | upstream w =>
    obtain ⟨b1, b2⟩ := hb w hc
    have e : v.upstream = w.upstream := by simpa [Constraint.matches] using hcv
    unfold modMap
    have g1 : w ≤ v := Or.inr ⟨e.symm, b1⟩
    have g2 : v ≤ (⟨w.upstream, MAX_BUILD⟩ : Version U) := Or.inr ⟨e, b2⟩
    split <;> split <;> split <;>
      simp [allowOlderMap, allowNewerMap, allowAnyMap, leqLeastUpperBound, Constraint.matches, e, g1, g2]
  | equal w =>
    have e : w = v := by simpa [Constraint.matches] using hcv
    subst e
    unfold modMap
    split <;> split <;> split <;> simp [allowOlderMap, allowNewerMap, allowAnyMap, Constraint.matches]
  | any => unfold modMap; split <;> split <;> split <;> rfl
  | not w => unfold modMap; split <;> split <;> split <;> exact hcv
  | geq w => unfold modMap; split <;> split <;> split <;> first | exact hcv | rfl
  | gt w => unfold modMap; split <;> split <;> split <;> first | exact hcv | rfl
  | leq w => unfold modMap; split <;> split <;> split <;> first | exact hcv | rfl
  | lt w => unfold modMap; split <;> split <;> split <;> first | exact hcv | rfl

/-- C25 without the proviso is false of the code: `^= 1-3` accepts version 1-1, but with `allow_newer` it becomes
`>= 1-3`, which does not. -/
theorem C25_violated_by_allow_newer :
    ∃ (r r' : Requirement Nat Nat) (m : Modifiers Nat) (v : Version Nat),
      modifyRequirement r m = .ok r' ∧ ReqAccepts r v ∧ ¬ ReqAccepts r' v := by
  refine ⟨⟨.install, 0, [.upstream ⟨1, 3⟩]⟩, ⟨.install, 0, [.geq ⟨1, 3⟩]⟩, ⟨[0], [], []⟩, ⟨1, 1⟩, rfl, ?_, ?_⟩
  · rw [← C24_matches_meaning]; decide
  · rw [← C24_matches_meaning]; decide

/-- ... and `^= 1` accepts version 1-1000000000, but with `allow_older` it becomes `<= 1-999999999`. -/
theorem C25_violated_by_allow_older :
    ∃ (r r' : Requirement Nat Nat) (m : Modifiers Nat) (v : Version Nat),
      modifyRequirement r m = .ok r' ∧ ReqAccepts r v ∧ ¬ ReqAccepts r' v := by
  refine ⟨⟨.install, 0, [.upstream ⟨1, 0⟩]⟩, ⟨.install, 0, [.leq ⟨1, MAX_BUILD⟩]⟩, ⟨[], [], [0]⟩,
    ⟨1, 1000000000⟩, rfl, ?_, ?_⟩
  · rw [← C24_matches_meaning]; decide
  · rw [← C24_matches_meaning]; decide

/-- hypotheses of the proved part: `^= 1, != 1-4` with allow_newer and version 1-3 -/
example : ∃ (r r' : Requirement Nat Nat) (m : Modifiers Nat) (v : Version Nat), modifyRequirement r m = .ok r' ∧
    r' ≠ r ∧ ReqAccepts r v ∧ ∀ x, Constraint.upstream x ∈ r.constraints → x.build ≤ v.build ∧ v.build ≤ 999999999 := by
  refine ⟨⟨.install, 0, [.upstream ⟨1, 0⟩, .not ⟨1, 4⟩]⟩, _, ⟨[0], [], []⟩, ⟨1, 3⟩, rfl, by decide, ?_, ?_⟩
  · rw [← C24_matches_meaning]; decide
  · intro x hx
    simp only [List.mem_cons, Constraint.upstream.injEq, List.not_mem_nil, or_false, reduceCtorEq] at hx
    subst hx; decide

/-! ### C26 -/

theorem modMap_not (m : Modifiers N) (x : N) (w : Version U) : modMap m x (.not w) = .not w := by
  unfold modMap; split <;> split <;> split <;> rfl

/-- C26, allow_newer alone: a version is accepted by the modified requirement exactly when each `!=` constraint accepts
it and each other constraint accepts it or an earlier version. (`^=` constraints with a build number are excluded, see
C25 and `C26_violated`, and so are `<` constraints that accept nothing at all.) -/
theorem C26_allow_newer_exactly_partial {r r' : Requirement N U} {m : Modifiers N}
    (h : modifyRequirement r m = .ok r') (h1 : r.name ∈ m.allowNewer) (h2 : r.name ∉ m.allowOlder)
    (h3 : r.name ∉ m.allowAny) (hup : ∀ w, Constraint.upstream w ∈ r.constraints → w.build = 0)
    (hlt : ∀ w, Constraint.lt w ∈ r.constraints → ∃ v, Earlier v w) (v : Version U) :
    ReqAccepts r' v ↔ ∀ c ∈ r.constraints, ((∃ w, c = .not w) ∧ Accepts c v) ∨
      ((∀ w, c ≠ .not w) ∧ ∃ u, (Earlier u v ∨ SameVersion u v) ∧ Accepts c u) := by
  rw [← C24_matches_meaning, modifyRequirement_matches h]
  refine forall₂_congr fun c hc => ?_
  have e : modMap m r.name c = allowNewerMap c := by simp [modMap, h1, h2, h3]
  rw [e, ← accepts_iff]
  simp only [earlier_or_same']
  cases c with
  | not w => simp [allowNewerMap]
  | any => simp [allowNewerMap, Accepts]; exact ⟨v, le_refl v⟩
  | equal w =>
    simp only [allowNewerMap, Accepts, earlier_or_same]
    simp [sameVersion_iff]
  | geq w =>
    simp only [allowNewerMap, Accepts, earlier_or_same]
    simp only [reduceCtorEq, exists_false, false_and, ne_eq, not_false_eq_true, implies_true, true_and, false_or]
    exact ⟨fun hh => ⟨v, le_refl v, hh⟩, fun ⟨u, g1, g2⟩ => le_trans g2 g1⟩
  | gt w =>
    simp only [allowNewerMap, Accepts, earlier_iff]
    simp only [reduceCtorEq, exists_false, false_and, ne_eq, not_false_eq_true, implies_true, true_and, false_or]
    exact ⟨fun hh => ⟨v, le_refl v, hh⟩, fun ⟨u, g1, g2⟩ => lt_of_lt_of_le g2 g1⟩
  | leq w =>
    simp only [allowNewerMap, Accepts, earlier_or_same']
    simp only [reduceCtorEq, exists_false, false_and, ne_eq, not_false_eq_true, implies_true, true_and, false_or,
      true_iff]
    rcases le_total v w with g | g
    · exact ⟨v, le_refl v, g⟩
    · exact ⟨w, g, le_refl w⟩
  | lt w =>
    simp only [allowNewerMap, Accepts, earlier_iff]
    simp only [reduceCtorEq, exists_false, false_and, ne_eq, not_false_eq_true, implies_true, true_and, false_or,
      true_iff]
    obtain ⟨u, hu⟩ := hlt w hc
    rcases lt_or_ge v w with g | g
    · exact ⟨v, le_refl v, g⟩
    · exact ⟨u, le_trans (le_of_lt hu) g, hu⟩
  | upstream w =>
    simp only [allowNewerMap, Accepts, earlier_or_same]
    simp only [reduceCtorEq, exists_false, false_and, ne_eq, not_false_eq_true, implies_true, true_and, false_or]
    have hw := hup w hc
    constructor
    · intro hh
      exact ⟨w, hh, rfl⟩
    · rintro ⟨u, g1, g2⟩
      refine le_trans ?_ g1
      exact Or.inr ⟨g2.symm, by omega⟩

/-- C26, allow_older alone: a version is accepted by the modified requirement exactly when each `!=` constraint accepts
it and each other constraint accepts it or a later version. (For `^=`, packages with build numbers up to MAX_BUILD.) -/
theorem C26_allow_older_exactly_partial {r r' : Requirement N U} {m : Modifiers N}
    (h : modifyRequirement r m = .ok r') (h1 : r.name ∈ m.allowOlder) (h2 : r.name ∉ m.allowNewer)
    (h3 : r.name ∉ m.allowAny) (v : Version U) (hv : v.build ≤ 999999999) :
    ReqAccepts r' v ↔ ∀ c ∈ r.constraints, ((∃ w, c = .not w) ∧ Accepts c v) ∨
      ((∀ w, c ≠ .not w) ∧ ∃ u, (Earlier v u ∨ SameVersion u v) ∧ Accepts c u) := by
  rw [← C24_matches_meaning, modifyRequirement_matches h]
  refine forall₂_congr fun c hc => ?_
  have e : modMap m r.name c = allowOlderMap c := by simp [modMap, h1, h2, h3]
  rw [e, ← accepts_iff]
  simp only [earlier_or_same]
  cases c with
  | not w => simp [allowOlderMap]
  | any => simp [allowOlderMap, Accepts]; exact ⟨v, le_refl v⟩
  | equal w =>
    simp only [allowOlderMap, Accepts, earlier_or_same']
    simp [sameVersion_iff]
  | leq w =>
    simp only [allowOlderMap, Accepts, earlier_or_same']
    simp only [reduceCtorEq, exists_false, false_and, ne_eq, not_false_eq_true, implies_true, true_and, false_or]
    exact ⟨fun hh => ⟨v, le_refl v, hh⟩, fun ⟨u, g1, g2⟩ => le_trans g1 g2⟩
  | lt w =>
    simp only [allowOlderMap, Accepts, earlier_iff]
    simp only [reduceCtorEq, exists_false, false_and, ne_eq, not_false_eq_true, implies_true, true_and, false_or]
    exact ⟨fun hh => ⟨v, le_refl v, hh⟩, fun ⟨u, g1, g2⟩ => lt_of_le_of_lt g1 g2⟩
  | geq w =>
    simp only [allowOlderMap, Accepts, earlier_or_same]
    simp only [reduceCtorEq, exists_false, false_and, ne_eq, not_false_eq_true, implies_true, true_and, false_or,
      true_iff]
    rcases le_total v w with g | g
    · exact ⟨w, g, le_refl w⟩
    · exact ⟨v, le_refl v, g⟩
  | gt w =>
    simp only [allowOlderMap, Accepts, earlier_iff]
    simp only [reduceCtorEq, exists_false, false_and, ne_eq, not_false_eq_true, implies_true, true_and, false_or,
      true_iff]
    rcases le_or_gt v w with g | g
    · refine ⟨⟨w.upstream, w.build + 1⟩, le_trans g ?_, Or.inr ⟨rfl, Nat.lt_succ_self _⟩⟩
      exact Or.inr ⟨rfl, Nat.le_succ _⟩
    · exact ⟨v, le_refl v, g⟩
  | upstream w =>
    simp only [allowOlderMap, leqLeastUpperBound, Accepts, earlier_or_same']
    simp only [reduceCtorEq, exists_false, false_and, ne_eq, not_false_eq_true, implies_true, true_and, false_or]
    constructor
    · intro hh
      exact ⟨_, hh, rfl⟩
    · rintro ⟨u, g1, g2⟩
      rcases g1 with g1 | ⟨g1, -⟩
      · exact Or.inl (g2 ▸ g1)
      · exact Or.inr ⟨g1.trans g2, hv⟩

/-- C26, allow_newer, for all requirements and versions: what the modified requirement accepts is closed upwards, but for the
versions that are excluded by `!=`; allow_older: downwards. -/
theorem C26_closed {r r' : Requirement N U} {m : Modifiers N} (h : modifyRequirement r m = .ok r') {v w : Version U}
    (hv : ReqAccepts r' v) (hx : NotExcluded r w) :
    (r.name ∈ m.allowNewer → Earlier v w → ReqAccepts r' w) ∧ (r.name ∈ m.allowOlder → Earlier w v → ReqAccepts r' w) := by
  rw [← C24_matches_meaning, modifyRequirement_matches h] at hv
  rw [← C24_matches_meaning, modifyRequirement_matches h]
  constructor
  · intro hn hlt c hc
    have hlt : v < w := (earlier_iff v w).1 hlt
    have hcv := hv c hc
    have hnot : ∀ x, c = .not x → ((.not x : Constraint U).matches w = true) := by
      rintro x rfl
      rw [← accepts_iff]; exact hx x hc
    rw [← accepts_iff] at hcv ⊢
    cases c with
    | not x => rw [modMap_not, accepts_iff]; exact hnot x rfl
    | _ =>
      unfold modMap at hcv ⊢
      simp only [hn, if_true] at hcv ⊢
      split at hcv <;> split at hcv <;>
        simp only [*, if_true, if_false, allowOlderMap, allowNewerMap, allowAnyMap,
          leqLeastUpperBound, Accepts, earlier_or_same] at hcv ⊢ <;>
        first | trivial | exact le_trans hcv (le_of_lt hlt) | exact lt_trans hcv hlt
  · intro hn hlt c hc
    have hlt : w < v := (earlier_iff w v).1 hlt
    have hcv := hv c hc
    have hnot : ∀ x, c = .not x → ((.not x : Constraint U).matches w = true) := by
      rintro x rfl
      rw [← accepts_iff]; exact hx x hc
    rw [← accepts_iff] at hcv ⊢
    cases c with
    | not x => rw [modMap_not, accepts_iff]; exact hnot x rfl
    | _ =>
      unfold modMap at hcv ⊢
      simp only [hn, if_true] at hcv ⊢
      split at hcv <;> split at hcv <;>
        simp only [*, if_true, if_false, allowOlderMap, allowNewerMap, allowAnyMap,
          leqLeastUpperBound, Accepts, earlier_or_same'] at hcv ⊢ <;>
        first | trivial | exact le_trans (le_of_lt hlt) hcv | exact lt_trans hlt hcv

/-- C26: every version above one that was accepted before is accepted after allow_newer, every version below one after
allow_older, unless it is excluded by `!=`. Missing: accepted versions outside the build numbers of C25. -/
theorem C26_above_and_below_accepted_partial {r r' : Requirement N U} {m : Modifiers N} (h : modifyRequirement r m = .ok r')
    {v w : Version U} (hv : ReqAccepts r v)
    (hb : ∀ x, Constraint.upstream x ∈ r.constraints → x.build ≤ v.build ∧ v.build ≤ 999999999) (hx : NotExcluded r w) :
    (r.name ∈ m.allowNewer → Earlier v w → ReqAccepts r' w) ∧ (r.name ∈ m.allowOlder → Earlier w v → ReqAccepts r' w) :=
  C26_closed h (C25_modifiers_only_relax_partial h hv hb) hx

/-- C26 is violated: `^= 1-3` accepts 1-1, but 1-2 is not accepted after allow_newer; `^= 1` accepts 1-1000000001, but
1-1000000000 is not accepted after allow_older. -/
theorem C26_violated :
    (∃ (r r' : Requirement Nat Nat) (m : Modifiers Nat) (v w : Version Nat), modifyRequirement r m = .ok r' ∧
      r.name ∈ m.allowNewer ∧ ReqAccepts r v ∧ Earlier v w ∧ NotExcluded r w ∧ ¬ ReqAccepts r' w) ∧
    ∃ (r r' : Requirement Nat Nat) (m : Modifiers Nat) (v w : Version Nat), modifyRequirement r m = .ok r' ∧
      r.name ∈ m.allowOlder ∧ ReqAccepts r v ∧ Earlier w v ∧ NotExcluded r w ∧ ¬ ReqAccepts r' w := by
  refine ⟨⟨⟨.install, 0, [.upstream ⟨1, 3⟩]⟩, ⟨.install, 0, [.geq ⟨1, 3⟩]⟩, ⟨[0], [], []⟩, ⟨1, 1⟩, ⟨1, 2⟩, rfl,
      by decide, ?_, Or.inr ⟨rfl, by decide⟩, ?_, ?_⟩,
    ⟨.install, 0, [.upstream ⟨1, 0⟩]⟩, ⟨.install, 0, [.leq ⟨1, MAX_BUILD⟩]⟩, ⟨[], [], [0]⟩, ⟨1, 1000000001⟩, ⟨1, 1000000000⟩, rfl,
      by decide, ?_, Or.inr ⟨rfl, by decide⟩, ?_, ?_⟩
  · rw [← C24_matches_meaning]; decide
  · intro x hx; simp at hx
  · rw [← C24_matches_meaning]; decide
  · rw [← C24_matches_meaning]; decide
  · intro x hx; simp at hx
  · rw [← C24_matches_meaning]; decide

/-- C26: with allow_any, or with both allow_newer and allow_older, exactly the versions not excluded by a `!=`
constraint are accepted. -/
theorem C26_allow_any_exactly {r r' : Requirement N U} {m : Modifiers N}
    (h : modifyRequirement r m = .ok r')
    (h1 : r.name ∈ m.allowAny ∨ (r.name ∈ m.allowNewer ∧ r.name ∈ m.allowOlder)) (v : Version U) :
    ReqAccepts r' v ↔ NotExcluded r v := by
  rw [← C24_matches_meaning, modifyRequirement_matches h]
  have key : ∀ c : Constraint U, (∃ w, c = .not w) ∨ modMap m r.name c = .any := by
    intro c
    cases c with
    | not w => exact Or.inl ⟨w, rfl⟩
    | _ =>
      right
      rcases h1 with h1 | ⟨h1, h2⟩
      · unfold modMap
        simp only [h1, if_true]
        split <;> split <;> rfl
      · unfold modMap
        simp only [h1, h2, if_true]
        split <;> rfl
  constructor
  · intro hh w hw
    have := hh _ hw
    rw [modMap_not, ← accepts_iff] at this
    exact this
  · intro hh c hc
    rcases key c with ⟨w, rfl⟩ | e
    · rw [modMap_not, ← accepts_iff]
      exact hh w hc
    · rw [e]; rfl

theorem modMap_idem (m : Modifiers N) (x : N) (c : Constraint U) : modMap m x (modMap m x c) = modMap m x c := by
  unfold modMap
  cases c <;> by_cases h1 : x ∈ m.allowOlder <;> by_cases h2 : x ∈ m.allowNewer <;> by_cases h3 : x ∈ m.allowAny <;>
    simp [h1, h2, h3, allowOlderMap, allowNewerMap, allowAnyMap, leqLeastUpperBound]

/-- C26: applying the same modifiers again changes nothing. -/
theorem C26_idempotent {r r' : Requirement N U} {m : Modifiers N} (h : modifyRequirement r m = .ok r') :
    modifyRequirement r' m = .ok r' := by
  have key : ∀ r0 : Requirement N U, modifyInstall ((modifyInstall r0 m).getD r0) m = none := by
    intro r0
    have : ((modifyInstall r0 m).getD r0).constraints.map (modMap m r0.name) =
        ((modifyInstall r0 m).getD r0).constraints := by
      conv_rhs => rw [← List.map_id ((modifyInstall r0 m).getD r0).constraints]
      apply List.map_congr_left
      intro c hc
      obtain ⟨c0, -, rfl⟩ := (modified_constraints r0 m c).1 hc
      exact modMap_idem m r0.name c0
    have hn : ((modifyInstall r0 m).getD r0).name = r0.name := by
      rw [modifyInstall_eq]; split <;> rfl
    rw [modifyInstall_eq, hn, this]
    simp
  unfold modifyRequirement at h
  split at h
  · next hc =>
    cases h
    have hc' : ((modifyInstall r m).getD r).cls = .install := by
      rw [modifyInstall_eq]; split
      · rfl
      · exact hc
    unfold modifyRequirement
    rw [hc']
    simp only [key r]
    rfl
  · next hcc =>
    split at h
    · next hh =>
      split at h
      · simp at h
      · next e =>
        cases h
        unfold modifyRequirement
        split
        · next k => exact absurd k hcc
        · rw [hh, e]; rfl
    · next hh =>
      cases h
      unfold modifyRequirement
      split
      · next k => exact absurd k hcc
      · simp [hh]

/-- hypotheses of the C26 theorems: `>= 2-1, < 3-0, != 2-5` for name 0 -/
def exReq : Requirement Nat Nat := ⟨.install, 0, [.geq ⟨2, 1⟩, .lt ⟨3, 0⟩, .not ⟨2, 5⟩]⟩
example : modifyRequirement exReq ⟨[0], [], []⟩ = .ok ⟨.install, 0, [.geq ⟨2, 1⟩, .any, .not ⟨2, 5⟩]⟩ := rfl
example : modifyRequirement exReq ⟨[], [], [0]⟩ = .ok ⟨.install, 0, [.any, .lt ⟨3, 0⟩, .not ⟨2, 5⟩]⟩ := rfl
example : modifyRequirement exReq ⟨[], [0], []⟩ = .ok ⟨.install, 0, [.any, .not ⟨2, 5⟩]⟩ := rfl
example : ∀ w, Constraint.upstream w ∈ exReq.constraints → w.build = 0 := by simp [exReq]
example : ∀ w, Constraint.lt w ∈ exReq.constraints → ∃ v : Version Nat, Earlier v w := by
  intro w hw
  simp [exReq] at hw
  subst hw
  exact ⟨⟨1, 0⟩, Or.inl (by decide)⟩

/-! ### C27 -/

/-- C27: a requirement whose package is not a target of the modifiers is returned unchanged, whatever its class. -/
theorem C27_other_packages_untouched (r : Requirement N U) (m : Modifiers N) (h : r.name ∉ m.targets) :
    modifyRequirement r m = .ok r := by
  have h' : r.name ∉ m.allowOlder ∧ r.name ∉ m.allowAny ∧ r.name ∉ m.allowNewer := by
    simpa [Modifiers.targets] using h
  have : modifyInstall r m = none := by
    rw [modifyInstall_eq]
    have e : modMap m r.name = (id : Constraint U → Constraint U) := by
      funext c; simp [modMap, h']
    rw [e]; simp
  unfold modifyRequirement
  rw [this]
  split
  · rfl
  · simp

example : (0 : Nat) ∉ (⟨[1], [2], [3]⟩ : Modifiers Nat).targets := by decide

/-! ### C60 -/

/-- C60: modifying an InstallRequirement never fails. -/
theorem C60_install_requirements_never_fail (r : Requirement N U) (m : Modifiers N) (h : r.cls = .install) :
    ∃ r', modifyRequirement r m = .ok r' ∧ r'.name = r.name ∧ r'.cls = .install := by
  refine ⟨(modifyInstall r m).getD r, by unfold modifyRequirement; rw [h], ?_⟩
  rw [modifyInstall_eq]
  split
  · exact ⟨rfl, rfl⟩
  · exact ⟨rfl, h⟩

/-- C60: any other requirement is returned unchanged or rejected with NotImplementedError (C60_rejected_iff: when). -/
theorem C60_other_requirements_unchanged_or_rejected (r : Requirement N U) (m : Modifiers N) (h : r.cls ≠ .install) :
    modifyRequirement r m = .ok r ∨ modifyRequirement r m = .error .notImplemented := by
  unfold modifyRequirement
  split
  · next hc => exact absurd hc h
  · split
    · split
      · exact Or.inr rfl
      · exact Or.inl rfl
    · exact Or.inl rfl

/-- C60: when a conflict with a versioned constraint (other than `!=`) names a package under allow_any, the query is
rejected. -/
theorem C60_versioned_conflict_on_target_rejected (r : Requirement N U) (m : Modifiers N) (h : r.cls ≠ .install)
    (ht : r.name ∈ m.allowAny) {c : Constraint U} (hc : c ∈ r.constraints) (h1 : c ≠ .any) (h2 : ∀ w, c ≠ .not w) :
    modifyRequirement r m = .error .notImplemented := by
  have hany : r.hasAnyVersionConstraint = true := by
    unfold Requirement.hasAnyVersionConstraint
    split
    · next e => rw [e] at hc; simp at hc
    · next d e =>
      rw [e] at hc
      simp at hc
      subst hc
      cases c <;> first | rfl | exact absurd rfl h1
    · rfl
  have hne : modMap m r.name c ≠ c := by
    have : modMap m r.name c = .any := by
      unfold modMap
      simp only [ht, if_true]
      cases c <;> first | (split <;> split <;> rfl) | exact absurd rfl (h2 _)
    rw [this]; exact fun e => h1 e.symm
  have hm : ∃ x, modifyInstall r m = some x := by
    rw [modifyInstall_eq, if_pos]
    · exact ⟨_, rfl⟩
    · intro e
      have : ∀ l : List (Constraint U), l.map (modMap m r.name) = l → ∀ c ∈ l, modMap m r.name c = c := by
        intro l
        induction l with
        | nil => simp
        | cons a t ih =>
          intro e c hc
          rw [List.map_cons, List.cons.injEq] at e
          rcases List.mem_cons.1 hc with rfl | k
          · exact e.1
          · exact ih e.2 c k
      exact hne (this _ e c hc)
  obtain ⟨x, hx⟩ := hm
  unfold modifyRequirement
  split
  · next hh => exact absurd hh h
  · rw [hany, hx]; rfl

example : modifyRequirement (⟨.conflict, 0, [.lt ⟨3, 0⟩]⟩ : Requirement Nat Nat) ⟨[], [0], []⟩ =
    .error .notImplemented := rfl
example : modifyRequirement (⟨.conflict, 0, [.any]⟩ : Requirement Nat Nat) ⟨[], [0], []⟩ =
    .ok ⟨.conflict, 0, [.any]⟩ := rfl

/-- the modifiers `m` take back something of the constraint `c` on the package `x`: `allow_any` every bound, `allow_newer`
upper bounds, `allow_older` lower bounds -/
def TakesBack (m : Modifiers N) (x : N) : Constraint U → Prop
  | .any => False
  | .not _ => False
  | .equal _ => x ∈ m.allowAny ∨ x ∈ m.allowNewer ∨ x ∈ m.allowOlder
  | .upstream _ => x ∈ m.allowAny ∨ x ∈ m.allowNewer ∨ x ∈ m.allowOlder
  | .leq _ => x ∈ m.allowAny ∨ x ∈ m.allowNewer
  | .lt _ => x ∈ m.allowAny ∨ x ∈ m.allowNewer
  | .geq _ => x ∈ m.allowAny ∨ x ∈ m.allowOlder
  | .gt _ => x ∈ m.allowAny ∨ x ∈ m.allowOlder

theorem modMap_ne_iff (m : Modifiers N) (x : N) (c : Constraint U) : modMap m x c ≠ c ↔ TakesBack m x c := by
  unfold modMap
  by_cases h1 : x ∈ m.allowOlder <;> by_cases h2 : x ∈ m.allowNewer <;> by_cases h3 : x ∈ m.allowAny <;>
    cases c <;> simp [h1, h2, h3, TakesBack, allowOlderMap, allowNewerMap, allowAnyMap, leqLeastUpperBound]

/-- C60: it is rejected exactly when the modifiers take back something of one of its constraints. -/
theorem C60_rejected_iff (r : Requirement N U) (m : Modifiers N) (h : r.cls ≠ .install) :
    (modifyRequirement r m = .error .notImplemented ↔ ∃ c ∈ r.constraints, TakesBack m r.name c) ∧
    (modifyRequirement r m = .ok r ↔ ∀ c ∈ r.constraints, ¬ TakesBack m r.name c) := by
  have key : ∀ l : List (Constraint U), l.map (modMap m r.name) = l ↔ ∀ c ∈ l, ¬ TakesBack m r.name c := by
    intro l
    induction l with
    | nil => simp
    | cons a t ih =>
      rw [List.map_cons, List.cons.injEq, ih, List.forall_mem_cons, ← modMap_ne_iff, not_not]
  have hok : modifyRequirement r m = .ok r ↔ ∀ c ∈ r.constraints, ¬ TakesBack m r.name c := by
    rw [← key]
    unfold modifyRequirement
    split
    · next hc => exact absurd hc h
    · split
      · rw [modifyInstall_eq]
        by_cases e : r.constraints.map (modMap m r.name) = r.constraints <;> simp [e]
      · next hn =>
        refine ⟨fun _ => ?_, fun _ => rfl⟩
        unfold Requirement.hasAnyVersionConstraint at hn
        split at hn
        · next e => rw [e]; rfl
        · next c e =>
          rw [e]
          have : c = .any := by cases c <;> simp at hn <;> rfl
          subst this
          rw [key]
          simp [TakesBack]
        · simp at hn
  refine ⟨?_, hok⟩
  rcases C60_other_requirements_unchanged_or_rejected r m h with e | e
  · have := hok.1 e
    rw [e]
    constructor
    · intro k; cases k
    · rintro ⟨c, hc, ht⟩; exact absurd ht (this c hc)
  · refine ⟨fun _ => ?_, fun _ => e⟩
    by_contra hc
    push Not at hc
    rw [hok.2 hc] at e
    cases e

/-- a conflict with `2 >= 3`: newer versions of 2 may be allowed, older ones not -/
example : modifyRequirement (⟨.conflict, 2, [.geq ⟨3, 0⟩]⟩ : Requirement Nat Nat) ⟨[2], [], []⟩ = .ok ⟨.conflict, 2, [.geq ⟨3, 0⟩]⟩ :=
  (C60_rejected_iff _ _ (by decide)).2.2 (by simp [TakesBack])
example : modifyRequirement (⟨.conflict, 2, [.geq ⟨3, 0⟩]⟩ : Requirement Nat Nat) ⟨[], [], [2]⟩ = .error .notImplemented :=
  (C60_rejected_iff _ _ (by decide)).1.2 ⟨_, List.mem_singleton.2 rfl, Or.inr (by simp)⟩

/-! ### C28 -/

/-- effect of a call -/
def ModOp.apply (m : Modifiers N) : ModOp N → Modifiers N
  | .allowNewer x => m.addNewer x
  | .allowAny x => m.addAny x
  | .allowOlder x => m.addOlder x
  | .update o => m.update o
  | .remove ps => m.remove ps

/-- the modifiers after a history of calls on a new ConstraintModifiers -/
def runMods (history : List (ModOp N)) : Modifiers N := history.foldl ModOp.apply Modifiers.empty

theorem addedAndNotRemoved_append (adds removes : ModOp N → Prop) (hist : List (ModOp N)) (o : ModOp N) :
    AddedAndNotRemoved adds removes (hist ++ [o]) ↔
      adds o ∨ (AddedAndNotRemoved adds removes hist ∧ ¬ removes o) := by
  constructor
  · rintro ⟨before, op, after, e, h1, h2⟩
    rcases List.eq_nil_or_concat after with rfl | ⟨after', x, rfl⟩
    · have : hist = before ∧ o = op := by
        have e' : hist ++ [o] = before ++ [op] := e
        rw [List.append_inj_left' e' rfl] 
        have := List.append_inj_right' e' rfl
        simpa using this
      left; rw [this.2]; exact h1
    · right
      have e' : hist ++ [o] = (before ++ op :: after') ++ [x] := by rw [e]; simp
      have e1 : hist = before ++ op :: after' := List.append_inj_left' e' rfl
      have e2 : o = x := by simpa using List.append_inj_right' e' rfl
      refine ⟨⟨before, op, after', e1, h1, fun y hy => h2 y (by simp [hy])⟩, ?_⟩
      rw [e2]; exact h2 x (by simp)
  · rintro (h | ⟨⟨before, op, after, rfl, h1, h2⟩, h3⟩)
    · exact ⟨hist, o, [], rfl, h, by simp⟩
    · refine ⟨before, op, after ++ [o], by simp, h1, ?_⟩
      intro y hy
      rcases List.mem_append.1 hy with k | k
      · exact h2 y k
      · simp at k; rw [k]; exact h3

theorem runMods_spec (hist : List (ModOp N)) (x : N) :
    (x ∈ (runMods hist).allowNewer ↔ AddedAndNotRemoved (ModOp.addsNewer x) (ModOp.removes x) hist) ∧
    (x ∈ (runMods hist).allowAny ↔ AddedAndNotRemoved (ModOp.addsAny x) (ModOp.removes x) hist) ∧
    (x ∈ (runMods hist).allowOlder ↔ AddedAndNotRemoved (ModOp.addsOlder x) (ModOp.removes x) hist) := by
  induction hist using List.reverseRecOn with
  | nil =>
    have : ∀ a r : ModOp N → Prop, ¬ AddedAndNotRemoved a r [] := by
      rintro a r ⟨b, o, c, e, -⟩
      simp at e
    simp [runMods, Modifiers.empty, this]
  | append_singleton hist o ih =>
    have e : runMods (hist ++ [o]) = ModOp.apply (runMods hist) o := by simp [runMods]
    rw [e, addedAndNotRemoved_append, addedAndNotRemoved_append, addedAndNotRemoved_append, ← ih.1, ← ih.2.1, ← ih.2.2]
    cases o with
    | allowNewer y =>
      simp [ModOp.apply, Modifiers.addNewer, ModOp.addsNewer, ModOp.addsAny, ModOp.addsOlder, ModOp.removes, eq_comm]
    | allowAny y =>
      simp [ModOp.apply, Modifiers.addAny, ModOp.addsNewer, ModOp.addsAny, ModOp.addsOlder, ModOp.removes, eq_comm]
    | allowOlder y =>
      simp [ModOp.apply, Modifiers.addOlder, ModOp.addsNewer, ModOp.addsAny, ModOp.addsOlder, ModOp.removes, eq_comm]
    | update m =>
      simp [ModOp.apply, Modifiers.update, ModOp.addsNewer, ModOp.addsAny, ModOp.addsOlder, ModOp.removes]
    | remove ps =>
      simp [ModOp.apply, Modifiers.remove, Modifiers.diffUpdate, ModOp.addsNewer, ModOp.addsAny, ModOp.addsOlder,
        ModOp.removes]

/-- C28: after any history of calls each set contains exactly the names added (directly or by `update`) and not
removed since. -/
theorem C28_sets_follow_history (hist : List (ModOp N)) (x : N) :
    (x ∈ (runMods hist).allowNewer ↔ AddedAndNotRemoved (ModOp.addsNewer x) (ModOp.removes x) hist) ∧
    (x ∈ (runMods hist).allowAny ↔ AddedAndNotRemoved (ModOp.addsAny x) (ModOp.removes x) hist) ∧
    (x ∈ (runMods hist).allowOlder ↔ AddedAndNotRemoved (ModOp.addsOlder x) (ModOp.removes x) hist) :=
  runMods_spec hist x

/-- C28: `targets` is the union of the three sets. -/
theorem C28_targets_is_union (m : Modifiers N) (x : N) :
    x ∈ m.targets ↔ x ∈ m.allowNewer ∨ x ∈ m.allowAny ∨ x ∈ m.allowOlder := by
  simp [Modifiers.targets]
  tauto

theorem runMods_nodup (hist : List (ModOp N)) : (runMods hist).allowNewer.Nodup ∧ (runMods hist).allowAny.Nodup ∧
    (runMods hist).allowOlder.Nodup := by
  induction hist using List.reverseRecOn with
  | nil => simp [runMods, Modifiers.empty]
  | append_singleton hist o ih =>
    have e : runMods (hist ++ [o]) = ModOp.apply (runMods hist) o := by simp [runMods]
    rw [e]
    obtain ⟨i1, i2, i3⟩ := ih
    cases o with
    | allowNewer y => exact ⟨nodup_sadd _ _ i1, i2, i3⟩
    | allowAny y => exact ⟨i1, nodup_sadd _ _ i2, i3⟩
    | allowOlder y => exact ⟨i1, i2, nodup_sadd _ _ i3⟩
    | update m => exact ⟨nodup_supdate _ _ i1, nodup_supdate _ _ i2, nodup_supdate _ _ i3⟩
    | remove ps => exact ⟨i1.filter _, i2.filter _, i3.filter _⟩

/-- C28: `asdict()` lists each set in strictly increasing order. -/
theorem C28_asdict_sorted {N : Type} [LinearOrder N] (hist : List (ModOp N)) :
    let d := (runMods hist).asdict
    (d.1.Pairwise (· < ·) ∧ ∀ x, x ∈ d.1 ↔ x ∈ (runMods hist).allowNewer) ∧
    (d.2.1.Pairwise (· < ·) ∧ ∀ x, x ∈ d.2.1 ↔ x ∈ (runMods hist).allowAny) ∧
    (d.2.2.Pairwise (· < ·) ∧ ∀ x, x ∈ d.2.2 ↔ x ∈ (runMods hist).allowOlder) := by
  have key : ∀ l : List N, l.Nodup → (sortBy id l).Pairwise (· < ·) := by
    intro l hl
    have h1 := sortBy_sorted id l
    have h2 : (sortBy id l).Pairwise (· ≠ ·) := (sortBy_perm id l).nodup_iff.2 hl
    exact (h1.and h2).imp (fun h => lt_of_le_of_ne h.1 h.2)
  obtain ⟨i1, i2, i3⟩ := runMods_nodup hist
  exact ⟨⟨key _ i1, fun x => mem_sortBy _ _ _⟩, ⟨key _ i2, fun x => mem_sortBy _ _ _⟩,
    ⟨key _ i3, fun x => mem_sortBy _ _ _⟩⟩

/-- C28: `asdict()` depends only on which names the sets contain: two histories that leave the same names give the
same dictionary, whatever the order of the calls. -/
theorem C28_asdict_order_independent {N : Type} [LinearOrder N] (h1 h2 : List (ModOp N))
    (hN : ∀ x, x ∈ (runMods h1).allowNewer ↔ x ∈ (runMods h2).allowNewer)
    (hA : ∀ x, x ∈ (runMods h1).allowAny ↔ x ∈ (runMods h2).allowAny)
    (hO : ∀ x, x ∈ (runMods h1).allowOlder ↔ x ∈ (runMods h2).allowOlder) :
    (runMods h1).asdict = (runMods h2).asdict := by
  have key : ∀ l l' : List N, l.Nodup → l'.Nodup → (∀ x, x ∈ l ↔ x ∈ l') → sortBy id l = sortBy id l' :=
    fun l l' n n' h => sortBy_perm_eq id ((List.perm_ext_iff_of_nodup n n').2 h) (fun a _ b _ e => e)
  obtain ⟨i1, i2, i3⟩ := runMods_nodup h1
  obtain ⟨j1, j2, j3⟩ := runMods_nodup h2
  unfold Modifiers.asdict
  rw [key _ _ i1 j1 hN, key _ _ i2 j2 hA, key _ _ i3 j3 hO]

example : (runMods ([.allowNewer 3, .update ⟨[1, 3], [7], []⟩, .remove [3, 7], .allowAny 2] : List (ModOp Nat))).asdict
    = ([1], [2], []) := by decide

end Verif.Props
