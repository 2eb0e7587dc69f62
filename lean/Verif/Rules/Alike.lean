import Verif.Rules.Model
import Verif.Pkg.PoolSpec
/-
For C94: the rules depend on the requirement of a job only through the packages that the pool gives for it. Two runs of
the rules generator whose jobs ask for the same packages produce the same rules, up to the requirements that the rules
keep for the explanations.
-/
set_option linter.unusedSectionVars false
namespace Verif.Rules
open Verif Verif.Pkg

variable {N S U : Type} [DecidableEq N] [DecidableEq S] [LinearOrder U] [Syntax S U]

/-- two results: the same exception, or related values -/
inductive SameE {α β ε : Type} (R : α → β → Prop) : Except ε α → Except ε β → Prop
  | error (e : ε) : SameE R (.error e) (.error e)
  | ok {a : α} {b : β} (h : R a b) : SameE R (.ok a) (.ok b)

theorem SameE.bind {α β γ δ ε : Type} {R : α → β → Prop} {Q : γ → δ → Prop} {x : Except ε α} {y : Except ε β}
    {f : α → Except ε γ} {g : β → Except ε δ} (h : SameE R x y) (hfg : ∀ a b, R a b → SameE Q (f a) (g b)) :
    SameE Q (x >>= f) (y >>= g) := by
  cases h with
  | error e => exact .error e
  | ok h => exact hfg _ _ h

theorem SameE.refl {α ε : Type} {R : α → α → Prop} (hR : ∀ a, R a a) (x : Except ε α) : SameE R x x := by
  cases x with
  | error e => exact .error e
  | ok a => exact .ok (hR a)

theorem SameE.of_eq {α ε : Type} (x : Except ε α) : SameE Eq x x := .refl (fun _ => rfl) x

/-- what the solver uses of a rule -/
def Rule.bare (r : Rule N U) : List Int × Reason := (r.literals, r.reason)

/-- histories of the same length -/
def AlikeReqs (a b : Reqs N U) : Prop := a.map List.length = b.map List.length

/-- the same rules but for their requirements -/
def AlikeRules (a b : List (Rule N U)) : Prop := a.map Rule.bare = b.map Rule.bare

def AlikeWork (a b : List (Work N S U)) : Prop := List.Forall₂ (fun x y => x.1 = y.1 ∧ AlikeReqs x.2 y.2) a b

def AlikeGen (a b : Gen N U) : Prop := AlikeRules a.rules b.rules ∧ a.added = b.added

theorem alike_one (r r' : Requirement N U) : AlikeReqs (some [r]) (some [r']) := rfl

theorem AlikeReqs.combine {a b : Reqs N U} (h : AlikeReqs a b) (r : Requirement N U) :
    AlikeReqs (combine a r) (combine b r) := by
  unfold AlikeReqs Rules.combine at *
  cases a <;> cases b <;> simp_all

theorem AlikeRules.literals {a b : List (Rule N U)} (h : AlikeRules a b) :
    a.map Rule.literals = b.map Rule.literals := by
  have := congrArg (List.map Prod.fst) h
  simpa [Rule.bare, Function.comp_def] using this

theorem AlikeRules.addRule {a b : List (Rule N U)} (h : AlikeRules a b) {r r' : Rule N U} (hr : r.bare = r'.bare) :
    AlikeRules (addRule r a) (addRule r' b) := by
  have hl : r.literals = r'.literals := congrArg Prod.fst hr
  have hany : a.any (fun x => decide (x.literals = r.literals)) = b.any (fun x => decide (x.literals = r'.literals)) := by
    have h1 : ∀ l : List (Rule N U), l.any (fun x => decide (x.literals = r.literals))
        = (l.map Rule.literals).any (fun x => decide (x = r.literals)) := by
      intro l; simp [List.any_map, Function.comp_def]
    rw [← hl, h1, h1, h.literals]
  unfold Rules.addRule
  rw [hany]
  split
  · exact h
  · unfold AlikeRules at *
    simp [h, hr]

theorem mkRule_bare (ls : List Int) (k : Reason) (a b : Reqs N U) : (mkRule ls k a).bare = (mkRule ls k b).bare := rfl

theorem alike_removeRule (pool : Pool N S U) (p : Package N S U) (k : Reason) (a b : Reqs N U) :
    SameE (fun r r' => r.bare = r'.bare) (removeRule pool p k a) (removeRule pool p k b) :=
  (SameE.of_eq _).bind fun _ _ h => by subst h; exact .ok rfl

theorem alike_dependencyRule (pool : Pool N S U) (p : Package N S U) (ds : List (Package N S U)) (k : Reason)
    (a b : Reqs N U) :
    SameE (fun r r' => r.bare = r'.bare) (dependencyRule pool p ds k a) (dependencyRule pool p ds k b) :=
  (SameE.of_eq _).bind fun _ _ h => by
    subst h
    exact (SameE.of_eq _).bind fun _ _ h => by subst h; exact .ok rfl

theorem alike_conflictRule (pool : Pool N S U) (p q : Package N S U) (k : Reason) (a b : Reqs N U) :
    SameE (fun r r' => r.map Rule.bare = r'.map Rule.bare) (conflictRule pool p q k a) (conflictRule pool p q k b) := by
  unfold conflictRule
  split
  · exact .ok rfl
  · exact (SameE.of_eq _).bind fun _ _ h => by
      subst h
      exact (SameE.of_eq _).bind fun _ _ h => by subst h; exact .ok rfl

theorem AlikeRules.addRule? {a b : List (Rule N U)} (h : AlikeRules a b) {r r' : Option (Rule N U)}
    (hr : r.map Rule.bare = r'.map Rule.bare) : AlikeRules (addRule? r a) (addRule? r' b) := by
  cases r <;> cases r' <;> simp at hr
  · exact h
  · exact h.addRule hr

theorem alike_strictCheck (strict : Bool) {a b : Reqs N U} (h : AlikeReqs a b) (e : PErr) :
    strictCheck strict a e = strictCheck strict b e := by
  unfold AlikeReqs at h
  unfold strictCheck
  cases a <;> cases b <;> simp_all

theorem AlikeWork.append {a b c d : List (Work N S U)} (h : AlikeWork a b) (h' : AlikeWork c d) :
    AlikeWork (a ++ c) (b ++ d) := by
  induction h with
  | nil => exact h'
  | cons h1 _ ih => exact .cons h1 ih

theorem alikeWork_map {a b : Reqs N U} (h : AlikeReqs a b) (ps : List (Package N S U)) :
    AlikeWork (ps.map (fun q => (q, a))) (ps.map (fun q => (q, b))) := by
  induction ps with
  | nil => exact .nil
  | cons p ps ih => exact .cons ⟨rfl, h⟩ ih

theorem alike_addRequires (strict : Bool) (pool : Pool N S U) (p : Package N S U) {a b : Reqs N U}
    (h : AlikeReqs a b) (cs : List (CTuple N S)) : ∀ {rules rules' : List (Rule N U)} {qd qd' : List (Work N S U)},
    AlikeRules rules rules' → AlikeWork qd qd' →
    SameE (fun x y => AlikeRules x.1 y.1 ∧ AlikeWork x.2 y.2) (addRequires strict pool p a cs rules qd)
      (addRequires strict pool p b cs rules' qd') := by
  induction cs with
  | nil => intro _ _ _ _ h1 h2; exact .ok ⟨h1, h2⟩
  | cons c cs ih =>
    intro rules rules' qd qd' h1 h2
    unfold addRequires
    refine (SameE.of_eq _).bind fun r _ e => ?_
    subst e
    refine (SameE.of_eq _).bind fun ps _ e => ?_
    subst e
    split
    · rw [alike_strictCheck strict h]
      refine (SameE.of_eq _).bind fun _ _ _ => ?_
      refine (alike_removeRule pool p _ _ _).bind fun r r' hr => ?_
      exact .ok ⟨h1.addRule hr, .nil⟩
    · refine (alike_dependencyRule pool p _ _ _ _).bind fun r r' hr => ?_
      exact ih (h1.addRule hr) (h2.append (alikeWork_map (h.combine _) _))

theorem alike_addSameName (pool : Pool N S U) (p : Package N S U) (a b : Reqs N U) (qs : List (Package N S U)) :
    ∀ {rules rules' : List (Rule N U)}, AlikeRules rules rules' →
    SameE AlikeRules (addSameName pool p a qs rules) (addSameName pool p b qs rules') := by
  induction qs with
  | nil => intro _ _ h; exact .ok h
  | cons q qs ih =>
    intro rules rules' h
    unfold addSameName
    split
    · exact (alike_conflictRule pool p q _ _ _).bind fun r r' hr => ih (h.addRule? hr)
    · exact ih h

theorem alike_addProviderConflicts (pool : Pool N S U) (p : Package N S U) (a b : Reqs N U)
    (qs : List (Package N S U)) : ∀ {rules rules' : List (Rule N U)}, AlikeRules rules rules' →
    SameE AlikeRules (addProviderConflicts pool p a qs rules) (addProviderConflicts pool p b qs rules') := by
  induction qs with
  | nil => intro _ _ h; exact .ok h
  | cons q qs ih =>
    intro rules rules' h
    unfold addProviderConflicts
    exact (alike_conflictRule pool p q _ _ _).bind fun r r' hr => ih (h.addRule? hr)

theorem alike_addDeclared (strict : Bool) (pool : Pool N S U) (p : Package N S U) {a b : Reqs N U}
    (h : AlikeReqs a b) (cs : List (CTuple N S)) : ∀ {rules rules' : List (Rule N U)}, AlikeRules rules rules' →
    SameE AlikeRules (addDeclared strict pool p a cs rules) (addDeclared strict pool p b cs rules') := by
  induction cs with
  | nil => intro _ _ h1; exact .ok h1
  | cons c cs ih =>
    intro rules rules' h1
    unfold addDeclared
    refine (SameE.of_eq _).bind fun r _ e => ?_
    subst e
    refine (SameE.of_eq _).bind fun ps _ e => ?_
    subst e
    split
    · rw [alike_strictCheck strict h]
      exact (SameE.of_eq _).bind fun _ _ _ => ih h1
    · exact (alike_addProviderConflicts pool p _ _ _ h1).bind fun _ _ h2 => ih h2

theorem alike_addConflicts (strict : Bool) (pool : Pool N S U) (p : Package N S U) {a b : Reqs N U}
    (h : AlikeReqs a b) {rules rules' : List (Rule N U)} (h1 : AlikeRules rules rules') :
    SameE AlikeRules (addConflicts strict pool p a rules) (addConflicts strict pool p b rules') := by
  unfold addConflicts
  refine (SameE.of_eq _).bind fun ps _ e => ?_
  subst e
  exact (alike_addSameName pool p _ _ _ h1).bind fun _ _ h2 => alike_addDeclared strict pool p h _ h2

theorem alike_work (strict : Bool) (pool : Pool N S U) : ∀ (n : Nat) {q q' : List (Work N S U)} {g g' : Gen N U},
    AlikeWork q q' → AlikeGen g g' → SameE AlikeGen (work strict pool n q g) (work strict pool n q' g') := by
  intro n
  induction n with
  | zero =>
    intro q q' g g' hq hg
    cases hq with
    | nil => exact .ok hg
    | cons h hq => exact .error _
  | succ n ih =>
    intro q q' g g' hq hg
    cases hq with
    | nil => exact .ok hg
    | @cons x y q q' h hq =>
      obtain ⟨p, a⟩ := x
      obtain ⟨p', b⟩ := y
      obtain ⟨h1, h2⟩ := h
      simp only at h1 h2
      subst h1
      unfold work
      refine (SameE.of_eq _).bind fun i _ e => ?_
      subst e
      rw [hg.2]
      split
      · exact ih hq hg
      · refine (alike_addRequires strict pool p h2 _ hg.1 .nil).bind fun x y hxy => ?_
        refine (alike_addConflicts strict pool p h2 hxy.1).bind fun rs rs' hrs => ?_
        exact ih (AlikeWork.append hq hxy.2) ⟨hrs, rfl⟩

theorem alike_addPackageRules (strict : Bool) (pool : Pool N S U) (p : Package N S U) {a b : Reqs N U}
    (h : AlikeReqs a b) {g g' : Gen N U} (hg : AlikeGen g g') :
    SameE AlikeGen (addPackageRules strict pool p a g) (addPackageRules strict pool p b g') :=
  alike_work strict pool _ (.cons ⟨rfl, h⟩ .nil) hg

theorem alike_addCandidates (strict : Bool) (pool : Pool N S U) (d : Dict Nat (Package N S U)) (r r' : Requirement N U)
    (ps : List (Package N S U)) : ∀ {g g' : Gen N U}, AlikeGen g g' →
    SameE AlikeGen (addCandidates strict pool d r ps g) (addCandidates strict pool d r' ps g') := by
  induction ps with
  | nil => intro _ _ h; exact .ok h
  | cons p ps ih =>
    intro g g' h
    unfold addCandidates
    refine (SameE.of_eq _).bind fun i _ e => ?_
    subst e
    split
    · exact ih h
    · exact (alike_addPackageRules strict pool p (alike_one r r') h).bind fun _ _ h => ih h

theorem AlikeGen.addRule {g g' : Gen N U} (h : AlikeGen g g') {r r' : Rule N U} (hr : r.bare = r'.bare) :
    AlikeGen { g with rules := Rules.addRule r g.rules } { g' with rules := Rules.addRule r' g'.rules } :=
  ⟨h.1.addRule hr, h.2⟩

theorem alike_addRemovals (pool : Pool N S U) (r r' : Requirement N U) (ps : List (Package N S U)) :
    ∀ {g g' : Gen N U}, AlikeGen g g' → SameE AlikeGen (addRemovals pool r ps g) (addRemovals pool r' ps g') := by
  induction ps with
  | nil => intro _ _ h; exact .ok h
  | cons p ps ih =>
    intro g g' h
    unfold addRemovals
    exact (alike_removeRule pool p _ _ _).bind fun _ _ hr => ih (h.addRule hr)

/-- two jobs of the same kind for which the pool has the same packages -/
def AlikeJob (pool : Pool N S U) (j j' : Job N U) : Prop :=
  j.kind = j'.kind ∧
    ((j.requirement = none ∧ j'.requirement = none) ∨
      ∃ r r', j.requirement = some r ∧ j'.requirement = some r' ∧
        pool.whatProvides r false = pool.whatProvides r' false)

theorem alike_addInstallJob (strict : Bool) (pool : Pool N S U) (d : Dict Nat (Package N S U)) {r r' : Requirement N U}
    (hw : pool.whatProvides r false = pool.whatProvides r' false) {g g' : Gen N U} (h : AlikeGen g g') :
    SameE AlikeGen (addInstallJob strict pool d r g) (addInstallJob strict pool d r' g') := by
  unfold addInstallJob
  rw [hw]
  refine (SameE.of_eq _).bind fun ps _ e => ?_
  subst e
  split
  · exact .error _
  · refine (alike_addCandidates strict pool d r r' _ h).bind fun g g' h => ?_
    exact SameE.bind (R := fun r r' => r.bare = r'.bare)
      ((SameE.of_eq _).bind fun _ _ e => by subst e; exact .ok rfl) fun _ _ hr => .ok (h.addRule hr)

theorem alike_addRemoveJob (pool : Pool N S U) {r r' : Requirement N U}
    (hw : pool.whatProvides r false = pool.whatProvides r' false) {g g' : Gen N U} (h : AlikeGen g g') :
    SameE AlikeGen (addRemoveJob pool r g) (addRemoveJob pool r' g') := by
  unfold addRemoveJob
  rw [hw]
  refine (SameE.of_eq _).bind fun ps _ e => ?_
  subst e
  exact alike_addRemovals pool r r' _ h

theorem alike_addUpdateJob (strict : Bool) (pool : Pool N S U) (d : Dict Nat (Package N S U)) {r r' : Requirement N U}
    (hw : pool.whatProvides r false = pool.whatProvides r' false) {g g' : Gen N U} (h : AlikeGen g g') :
    SameE AlikeGen (addUpdateJob strict pool d r g) (addUpdateJob strict pool d r' g') := by
  unfold addUpdateJob
  rw [hw]
  refine (SameE.of_eq _).bind fun ps _ e => ?_
  subst e
  split
  · exact .ok h
  · refine (SameE.of_eq _).bind fun p _ e => ?_
    subst e
    refine (alike_addPackageRules strict pool p (alike_one r r') h).bind fun g g' h => ?_
    refine (SameE.of_eq _).bind fun i _ e => ?_
    subst e
    exact .ok (h.addRule rfl)

theorem alike_addJob (strict : Bool) (pool : Pool N S U) (d : Dict Nat (Package N S U)) {j j' : Job N U}
    (hj : AlikeJob pool j j') {g g' : Gen N U} (h : AlikeGen g g') :
    SameE AlikeGen (addJob strict pool d j g) (addJob strict pool d j' g') := by
  obtain ⟨hk, ⟨h1, h2⟩ | ⟨r, r', h1, h2, hw⟩⟩ := hj
  · unfold addJob
    rw [hk, h1, h2]
    cases j'.kind <;> exact .error _
  · unfold addJob
    rw [hk, h1, h2]
    cases j'.kind with
    | install => exact alike_addInstallJob strict pool d hw h
    | softUpdate => exact alike_addInstallJob strict pool d hw h
    | remove => exact alike_addRemoveJob pool hw h
    | hardUpdate => exact alike_addUpdateJob strict pool d hw h
    | upgrade => exact .error _

theorem alike_addJobs (strict : Bool) (pool : Pool N S U) (d : Dict Nat (Package N S U)) {js js' : List (Job N U)}
    (hj : List.Forall₂ (AlikeJob pool) js js') : ∀ {g g' : Gen N U}, AlikeGen g g' →
    SameE AlikeGen (addJobs strict pool d js g) (addJobs strict pool d js' g') := by
  induction hj with
  | nil => intro _ _ h; exact .ok h
  | cons hj _ ih =>
    intro g g' h
    unfold addJobs
    exact (alike_addJob strict pool d hj h).bind fun _ _ h => ih h

theorem alike_addOthers (strict : Bool) (pool : Pool N S U) (ps : List (Package N S U)) :
    ∀ {g g' : Gen N U}, AlikeGen g g' → SameE AlikeGen (addOthers strict pool ps g) (addOthers strict pool ps g') := by
  induction ps with
  | nil => intro _ _ h; exact .ok h
  | cons p ps ih =>
    intro g g' h
    unfold addOthers
    exact (alike_addPackageRules strict pool p (show AlikeReqs none none from rfl) h).bind fun _ _ h => ih h

theorem alike_addInstalled (strict : Bool) (pool : Pool N S U) (ps : List (Package N S U)) :
    ∀ {g g' : Gen N U}, AlikeGen g g' →
    SameE AlikeGen (addInstalled strict pool ps g) (addInstalled strict pool ps g') := by
  induction ps with
  | nil => intro _ _ h; exact .ok h
  | cons p ps ih =>
    intro g g' h
    unfold addInstalled
    refine (alike_addOthers strict pool _ h).bind fun _ _ h => ?_
    exact (alike_addPackageRules strict pool p (show AlikeReqs none none from rfl) h).bind fun _ _ h => ih h

/-- the rules of jobs that ask for the same packages are the same, but for the requirements they keep -/
theorem alike_iterRules (strict : Bool) (pool : Pool N S U) (d : Dict Nat (Package N S U)) {js js' : List (Job N U)}
    (hj : List.Forall₂ (AlikeJob pool) js js') :
    SameE AlikeGen (iterRules strict pool js d) (iterRules strict pool js' d) := by
  unfold iterRules
  exact (alike_addJobs strict pool d hj ⟨rfl, rfl⟩).bind fun _ _ h => alike_addInstalled strict pool _ h

end Verif.Rules
