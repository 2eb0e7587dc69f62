import Verif.Props.Total
import Verif.Rules.Alike
/-
Property C94: the outcome of a request depends on the requirements of its jobs only through the available packages that
they accept.
-/
set_option linter.unusedSectionVars false
namespace Verif.Props
open Verif Verif.Pkg Verif.Solve Verif.Rules

variable {N S U : Type} [LinearOrder N] [DecidableEq S] [LinearOrder U] [Syntax S U]

/-! ### Specification -/

/-- among its own name and the names it declares to provide, `n` is not twice -/
def ProvidesOnce (p : Package N S U) (n : N) : Prop := (p.name :: p.declaredProvides.map Prod.fst).count n ≤ 1

/-- The same available packages are accepted by `r` and by `r'`: they have the same name and accept the same of the versions
that are available under that name; or, whatever their names, the packages that provide the one in an accepted version are
those that provide the other in an accepted version, provided no package lists one of these names twice. -/
def SameAsk (avail : List (Package N S U)) (r r' : Requirement N U) : Prop :=
  (r.name = r'.name ∧ ∀ p ∈ avail, Provides p r.name → (ReqAccepts r p.version ↔ ReqAccepts r' p.version)) ∨
  ((∀ p ∈ avail, ProvidesOnce p r.name ∧ ProvidesOnce p r'.name) ∧
    ∀ p ∈ avail, (Provides p r.name ∧ ReqAccepts r p.version) ↔ (Provides p r'.name ∧ ReqAccepts r' p.version))

/-- jobs of the same kind for the same packages -/
def SameJob (avail : List (Package N S U)) (j j' : Job N U) : Prop :=
  j.kind = j'.kind ∧
    ((j.requirement = none ∧ j'.requirement = none) ∨
      ∃ r r', j.requirement = some r ∧ j'.requirement = some r' ∧ SameAsk avail r r')

/-- the same outcome: the same transaction or the same exception (the jobs that an exception lists correspond to one
another) -/
inductive SameOutcome (avail : List (Package N S U)) :
    Except (SErr N U) (Transaction N S U) → Except (SErr N U) (Transaction N S U) → Prop
  | ok (t : Transaction N S U) : SameOutcome avail (.ok t) (.ok t)
  | error (e : SErr N U) : SameOutcome avail (.error e) (.error e)
  | hint (u : Sat.UnsatInfo) {js js' : List (Job N U)} (h : List.Forall₂ (SameJob avail) js js') :
    SameOutcome avail (.error (.hint u js)) (.error (.hint u js'))

/-! ### Proofs -/

/-- the packages listed under a name whose versions a requirement accepts -/
theorem providersIn_filter_congr {l : List (Package N S U)} {r r' : Requirement N U} (h : SameAsk l r r') :
    (providersIn l r.name).filter (fun p => r.matches p.version) =
      (providersIn l r'.name).filter (fun p => r'.matches p.version) := by
  have key : ∀ p ∈ l, (List.replicate (p.provNames.count r.name) p).filter (fun p => r.matches p.version) =
      (List.replicate (p.provNames.count r'.name) p).filter (fun p => r'.matches p.version) := by
    intro p hp
    rw [List.filter_replicate, List.filter_replicate]
    rcases h with ⟨hn, h⟩ | ⟨h1, h⟩
    · rw [← hn]
      by_cases hm : r.name ∈ p.provNames
      · have := h p hp ((provides_iff p _).2 hm)
        rw [← C24_matches_meaning, ← C24_matches_meaning] at this
        by_cases ha : r.matches p.version = true
        · rw [if_pos ha, if_pos (this.1 ha)]
        · rw [if_neg ha, if_neg (fun h => ha (this.2 h))]
      · rw [List.count_eq_zero_of_not_mem hm]
        simp
    · have h2 := h p hp
      obtain ⟨h3, h4⟩ := h1 p hp
      rw [provides_iff, provides_iff, ← C24_matches_meaning, ← C24_matches_meaning, ← List.count_pos_iff,
        ← List.count_pos_iff] at h2
      have h3' : p.provNames.count r.name ≤ 1 := h3
      have h4' : p.provNames.count r'.name ≤ 1 := h4
      by_cases ha : r.matches p.version = true <;> by_cases hb : r'.matches p.version = true
      · rw [if_pos ha, if_pos hb]
        congr 1
        simp only [ha, hb, and_true] at h2
        omega
      · rw [if_pos ha, if_neg hb]
        have h5 : ¬ 0 < p.provNames.count r.name := fun h => hb (h2.1 ⟨h, ha⟩).2
        have : p.provNames.count r.name = 0 := by omega
        rw [this]; rfl
      · rw [if_neg ha, if_pos hb]
        have h5 : ¬ 0 < p.provNames.count r'.name := fun h => ha (h2.2 ⟨h, hb⟩).2
        have : p.provNames.count r'.name = 0 := by omega
        rw [this]; rfl
      · rw [if_neg ha, if_neg hb]
  unfold providersIn
  induction l with
  | nil => rfl
  | cons p l ih =>
    rw [List.flatMap_cons, List.flatMap_cons, List.filter_append, List.filter_append, key p (by simp)]
    congr 1
    refine ih ?_ (fun q hq => key q (by simp [hq]))
    rcases h with ⟨hn, h⟩ | ⟨h1, h⟩
    · exact Or.inl ⟨hn, fun q hq => h q (by simp [hq])⟩
    · exact Or.inr ⟨fun q hq => h1 q (by simp [hq]), fun q hq => h q (by simp [hq])⟩

theorem whatProvides_congr {pool : Pool N S U} {l : List (Package N S U)} (hok : pool.OK l) {r r' : Requirement N U}
    (h : SameAsk l r r') : pool.whatProvides r false = pool.whatProvides r' false := by
  have e : ∀ r : Requirement N U, pool.whatProvides r false =
      .ok ((providersIn l r.name).filter (fun p => r.matches p.version)) := by
    intro r
    rw [hok.names.whatProvides_eq]
    split
    · rfl
    · next hn =>
      have : providersIn l r.name = [] := by
        rw [List.eq_nil_iff_forall_not_mem]
        intro p hp
        rw [mem_providersIn] at hp
        exact hn ⟨p, hp⟩
      rw [this]; rfl
  rw [e, e, providersIn_filter_congr h]

theorem alikeJob_of_same {pool : Pool N S U} {l : List (Package N S U)} (hok : pool.OK l) {j j' : Job N U}
    (h : SameJob l j j') : AlikeJob pool j j' := by
  obtain ⟨hk, h | ⟨r, r', h1, h2, h3⟩⟩ := h
  · exact ⟨hk, Or.inl h⟩
  · exact ⟨hk, Or.inr ⟨r, r', h1, h2, whatProvides_congr hok h3⟩⟩

theorem alike_jobIds (pool : Pool N S U) (inst : Repository N S U) {js js' : List (Job N U)}
    (h : List.Forall₂ (AlikeJob pool) js js') : ∀ (ids : List Nat) (soft : List (Package N S U)),
    jobIds pool inst js ids soft = jobIds pool inst js' ids soft := by
  induction h with
  | nil => intro _ _; rfl
  | @cons j j' js js' hj _ ih =>
    intro ids soft
    obtain ⟨hk, ⟨h1, h2⟩ | ⟨r, r', h1, h2, hw⟩⟩ := hj
    · unfold jobIds
      rw [hk, h1, h2]
    · unfold jobIds
      rw [hk, h1, h2]
      simp only [hw, ih]

theorem alike_createRules (s : DependencySolver N S U) (o : Orders) (pool : Pool N S U) {q q' : Request N U}
    (h : List.Forall₂ (AlikeJob pool) q.jobs q'.jobs) :
    SameE (fun st st' : Setup N S U => st.requirementIds = st'.requirementIds ∧ AlikeGen st.gen st'.gen ∧
      st.prefer = st'.prefer) (createRules s o pool q) (createRules s o pool q') := by
  unfold createRules
  rw [alike_jobIds pool s.installed h]
  refine (SameE.of_eq _).bind fun x _ e => ?_
  subst e
  refine (SameE.of_eq _).bind fun d _ e => ?_
  subst e
  refine (SameE.of_eq _).bind fun p _ e => ?_
  subst e
  exact (alike_iterRules s.strict pool d h).bind fun g g' hg => .ok ⟨rfl, hg, rfl⟩

theorem convertUpgrade_alike (pool : Pool N S U) {q q' : Request N U} (hm : q.modifiers = q'.modifiers)
    (h : List.Forall₂ (AlikeJob pool) q.jobs q'.jobs) (remote : List (Repository N S U)) (inst : Repository N S U) :
    List.Forall₂ (AlikeJob pool) (convertUpgrade q remote inst).jobs (convertUpgrade q' remote inst).jobs ∧
      (convertUpgrade q remote inst).modifiers = (convertUpgrade q' remote inst).modifiers := by
  have self : ∀ js : List (Job N U), List.Forall₂ (AlikeJob pool) js js := by
    intro js
    induction js with
    | nil => exact .nil
    | cons j js ih =>
      refine .cons ⟨rfl, ?_⟩ ih
      cases hr : j.requirement with
      | none => exact Or.inl ⟨rfl, rfl⟩
      | some r => exact Or.inr ⟨r, r, rfl, rfl, rfl⟩
  obtain ⟨m, js⟩ := q
  obtain ⟨m', js'⟩ := q'
  simp only at h hm
  subst hm
  cases h with
  | nil => exact ⟨.nil, rfl⟩
  | @cons j j' js js' hj h =>
    cases h with
    | nil =>
      unfold convertUpgrade
      simp only [hj.1]
      split
      · exact ⟨self _, rfl⟩
      · exact ⟨.cons hj .nil, rfl⟩
    | cons hj' h => exact ⟨.cons hj (.cons hj' h), rfl⟩

theorem alike_solve (s : DependencySolver N S U) (o : Orders) {q q' : Request N U}
    (hm : q.modifiers = q'.modifiers) (h : List.Forall₂ (AlikeJob (s.solvePool q)) q.jobs q'.jobs) :
    s.solve o q = s.solve o q' := by
  have hp : s.solvePool q' = s.solvePool q := by unfold DependencySolver.solvePool; rw [hm]
  rw [solve_stages, solve_stages, hp]
  have hc := alike_createRules s o (s.solvePool q) (convertUpgrade_alike (s.solvePool q) hm h s.remote s.installed).1
  revert hc
  generalize createRules s o (s.solvePool q) (convertUpgrade q s.remote s.installed) = x
  generalize createRules s o (s.solvePool q) (convertUpgrade q' s.remote s.installed) = y
  intro hc
  cases hc with
  | error e => rfl
  | @ok st st' hst =>
    obtain ⟨h1, h2, h3⟩ := hst
    have hs : search o (s.solvePool q) st = search o (s.solvePool q) st' := by
      unfold search
      simp only [h1, h2.1.literals, h3]
    simp only [hs, h1]

theorem forall₂_alike {pool : Pool N S U} {l : List (Package N S U)} (hok : pool.OK l) {js js' : List (Job N U)}
    (h : List.Forall₂ (SameJob l) js js') : List.Forall₂ (AlikeJob pool) js js' := by
  induction h with
  | nil => exact .nil
  | cons hj _ ih => exact .cons (alikeJob_of_same hok hj) ih

variable {rs : List (Repository N S U)} {s : DependencySolver N S U}

/-- C94: if two requests have the same modifiers, and their jobs correspond to one another, each to one of the same kind for
the same available packages, then the outcome is the same: the same transaction, or the same exception. -/
theorem C94_same_outcome (hs : SolverFor rs s) (o : Orders) {q q' : Request N U} (hm : q.modifiers = q'.modifiers)
    (h : List.Forall₂ (SameJob (allPackages rs)) q.jobs q'.jobs) : s.solve o q = s.solve o q' :=
  alike_solve s o hm (forall₂_alike (hs.solvePool q).ok h)

/-! #### the minimal set of jobs -/

/-- two results of `minimal_unsatisfiable_subset` -/
abbrev SameMus {α ε : Type} (R : α → α → Prop) : Except (MusErr ε) (List α) → Except (MusErr ε) (List α) → Prop :=
  SameE (List.Forall₂ R)

theorem forall₂_append {α : Type} {R : α → α → Prop} {a b c d : List α} (h : List.Forall₂ R a b)
    (h' : List.Forall₂ R c d) : List.Forall₂ R (a ++ c) (b ++ d) := by
  induction h with
  | nil => exact h'
  | cons h1 _ ih => exact .cons h1 ih

theorem forall₂_length {α : Type} {R : α → α → Prop} {a b : List α} (h : List.Forall₂ R a b) : a.length = b.length := by
  induction h with
  | nil => rfl
  | cons _ _ ih => simp [ih]

theorem forall₂_take {α : Type} {R : α → α → Prop} {a b : List α} (h : List.Forall₂ R a b) (n : Nat) :
    List.Forall₂ R (a.take n) (b.take n) := by
  induction h generalizing n with
  | nil => simp
  | cons h1 _ ih =>
    cases n with
    | zero => exact .nil
    | succ n => exact .cons h1 (ih n)

theorem forall₂_drop {α : Type} {R : α → α → Prop} {a b : List α} (h : List.Forall₂ R a b) (n : Nat) :
    List.Forall₂ R (a.drop n) (b.drop n) := by
  induction h generalizing n with
  | nil => simp
  | cons h1 h2 ih =>
    cases n with
    | zero => exact .cons h1 h2
    | succ n => exact ih n

theorem minimalUnsat_same {α ε : Type} {R : α → α → Prop} {f g : List α → Except ε Bool}
    (hfg : ∀ l l', List.Forall₂ R l l' → f l = g l') : ∀ (n : Nat) {l l' i i' : List α},
    List.Forall₂ R l l' → List.Forall₂ R i i' → SameMus R (minimalUnsat f n l i) (minimalUnsat g n l' i') := by
  intro n
  induction n with
  | zero => intro _ _ _ _ _ _; exact .error _
  | succ n ih =>
    intro l l' i i' hl hi
    unfold minimalUnsat
    rw [forall₂_length hl]
    split
    · exact .ok hl
    · have hA : List.Forall₂ R (split l).1 (split l').1 := by
        unfold split; rw [forall₂_length hl]; exact forall₂_take hl _
      have hB : List.Forall₂ R (split l).2 (split l').2 := by
        unfold split; rw [forall₂_length hl]; exact forall₂_drop hl _
      simp only [hfg _ _ (forall₂_append hA hi), hfg _ _ (forall₂_append hB hi)]
      split
      · exact .error _
      · exact ih hA hi
      · split
        · exact .error _
        · exact ih hB hi
        · have h1 := ih hA (forall₂_append hB hi)
          revert h1
          generalize minimalUnsat f n (split l).1 ((split l).2 ++ i) = x
          generalize minimalUnsat g n (split l').1 ((split l').2 ++ i') = y
          intro h1
          cases h1 with
          | error e => exact .error _
          | ok h1 =>
            have h2 := ih hB (forall₂_append h1 hi)
            revert h2
            simp only
            generalize minimalUnsat f n _ _ = x
            generalize minimalUnsat g n _ _ = y
            intro h2
            cases h2 with
            | error e => exact .error _
            | ok h2 => exact .ok (forall₂_append h1 h2)

theorem mus_same {α ε : Type} {R : α → α → Prop} {f g : List α → Except ε Bool}
    (hfg : ∀ l l', List.Forall₂ R l l' → f l = g l') (n : Nat) {l l' : List α} (hl : List.Forall₂ R l l') :
    SameMus R (minimalUnsatisfiableSubset f n l) (minimalUnsatisfiableSubset g n l') := by
  unfold minimalUnsatisfiableSubset
  rw [hfg _ _ hl]
  split
  · exact .error _
  · exact .error _
  · exact minimalUnsat_same hfg n hl .nil

theorem sameAsk_refl (avail : List (Package N S U)) (r : Requirement N U) : SameAsk avail r r :=
  Or.inl ⟨rfl, fun _ _ _ => Iff.rfl⟩

theorem sameJob_refl (avail : List (Package N S U)) (j : Job N U) : SameJob avail j j := by
  refine ⟨rfl, ?_⟩
  cases hr : j.requirement with
  | none => exact Or.inl ⟨rfl, rfl⟩
  | some r => exact Or.inr ⟨r, r, rfl, rfl, sameAsk_refl avail r⟩

theorem convertUpgrade_same (avail : List (Package N S U)) {q q' : Request N U} (hm : q.modifiers = q'.modifiers)
    (h : List.Forall₂ (SameJob avail) q.jobs q'.jobs) (remote : List (Repository N S U)) (inst : Repository N S U) :
    List.Forall₂ (SameJob avail) (convertUpgrade q remote inst).jobs (convertUpgrade q' remote inst).jobs ∧
      (convertUpgrade q remote inst).modifiers = (convertUpgrade q' remote inst).modifiers := by
  have self : ∀ js : List (Job N U), List.Forall₂ (SameJob avail) js js := by
    intro js
    induction js with
    | nil => exact .nil
    | cons j js ih => exact .cons (sameJob_refl avail j) ih
  obtain ⟨m, js⟩ := q
  obtain ⟨m', js'⟩ := q'
  simp only at h hm
  subst hm
  cases h with
  | nil => exact ⟨.nil, rfl⟩
  | @cons j j' js js' hj h =>
    cases h with
    | nil =>
      unfold convertUpgrade
      simp only [hj.1]
      split
      · exact ⟨self _, rfl⟩
      · exact ⟨.cons hj .nil, rfl⟩
    | cons hj' h => exact ⟨.cons hj (.cons hj' h), rfl⟩

/-- C94: the same for `solve_with_hint`: if it lists jobs that conflict, then it lists the corresponding ones of the other
request. (The iteration orders of the inner calls are the same for corresponding jobs.) -/
theorem C94_same_outcome_with_hint (hs : SolverFor rs s) (o : Orders) {o₁ o₂ : List (Job N U) → Orders}
    (ho : ∀ js js', List.Forall₂ (SameJob (allPackages rs)) js js' → o₁ js = o₂ js') {q q' : Request N U}
    (hm : q.modifiers = q'.modifiers) (h : List.Forall₂ (SameJob (allPackages rs)) q.jobs q'.jobs) :
    SameOutcome (allPackages rs) (s.solveWithHint o o₁ q) (s.solveWithHint o o₂ q') := by
  have hq := convertUpgrade_same (allPackages rs) hm h s.remote s.installed
  have hc : ∀ l l', List.Forall₂ (SameJob (allPackages rs)) l l' →
      hintCallback s o₁ (convertUpgrade q s.remote s.installed).modifiers l =
        hintCallback s o₂ (convertUpgrade q' s.remote s.installed).modifiers l' := by
    intro l l' hl
    unfold hintCallback
    rw [ho l l' hl, ← hq.2, C94_same_outcome hs (o₂ l') (q := ⟨_, l⟩) (q' := ⟨_, l'⟩) rfl hl]
  have hmus := mus_same hc ((convertUpgrade q s.remote s.installed).jobs.length + 1) hq.1
  unfold DependencySolver.solveWithHint
  rw [C94_same_outcome hs o hm h]
  split
  · exact .ok _
  · simp only [← forall₂_length hq.1]
    revert hmus
    generalize minimalUnsatisfiableSubset (hintCallback s o₁ _) _ (convertUpgrade q s.remote s.installed).jobs = x
    generalize minimalUnsatisfiableSubset (hintCallback s o₂ _) _ (convertUpgrade q' s.remote s.installed).jobs = y
    intro hmus
    cases hmus with
    | error e => cases e <;> exact .error _
    | ok h => exact .hint _ h
  · exact .error _

/-! #### which requirements ask for the same packages -/

/-- C94: the class of a requirement does not matter, nor the order of its constraints or their repetition: requirements for
the same name whose constraints are the same set ask for the same packages, whatever is available. -/
theorem C94_same_constraints (avail : List (Package N S U)) {r r' : Requirement N U} (hn : r.name = r'.name)
    (hc : ∀ c, c ≠ .any → (c ∈ r.constraints ↔ c ∈ r'.constraints)) : SameAsk avail r r' := by
  refine Or.inl ⟨hn, fun p _ _ => ?_⟩
  unfold ReqAccepts
  constructor
  · intro h c hcm
    by_cases e : c = .any
    · subst e; trivial
    · exact h c ((hc c e).2 hcm)
  · intro h c hcm
    by_cases e : c = .any
    · subst e; trivial
    · exact h c ((hc c e).1 hcm)

/-- C94: a constraint that all available packages of that name meet can be left out -/
theorem C94_constraint_met (avail : List (Package N S U)) (cls : ReqClass) (n : N) (c : Constraint U)
    (cs : List (Constraint U)) (h : ∀ p ∈ avail, Provides p n → Accepts c p.version) :
    SameAsk avail ⟨cls, n, c :: cs⟩ ⟨cls, n, cs⟩ := by
  refine Or.inl ⟨rfl, fun p hp hn => ?_⟩
  constructor
  · intro h' c' hc'
    exact h' c' (by simp [show c' ∈ cs from hc'])
  · intro h' c' hc'
    rcases List.mem_cons.1 (show c' ∈ c :: cs from hc') with rfl | hc'
    · exact h p hp hn
    · exact h' c' hc'

end Verif.Props
