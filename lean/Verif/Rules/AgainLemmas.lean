import Verif.Rules.Again
import Verif.Rules.Alike
/-
For C128: a run of the rules generator that begins with some rules is a run that begins with none, the rules with other
literals being put behind those that were there.
-/
set_option linter.unusedSectionVars false
namespace Verif.Rules
open Verif Verif.Pkg

variable {N S U : Type} [DecidableEq N] [DecidableEq S] [LinearOrder U] [Syntax S U]

/-- the rules `kept`, and behind them those of `rules` that have other literals -/
def behind (kept rules : List (Rule N U)) : List (Rule N U) :=
  kept ++ rules.filter (fun r => decide (r.literals ∉ kept.map Rule.literals))

theorem addRule_behind (kept rules : List (Rule N U)) (r : Rule N U) :
    addRule r (behind kept rules) = behind kept (addRule r rules) := by
  have hany : ∀ l : List (Rule N U), (l.any (fun x => decide (x.literals = r.literals)) = true) ↔
      r.literals ∈ l.map Rule.literals := by
    intro l; simp
  by_cases hk : r.literals ∈ kept.map Rule.literals
  · have h1 : r.literals ∈ (behind kept rules).map Rule.literals := by
      unfold behind; rw [List.map_append]; exact List.mem_append_left _ hk
    have e1 : addRule r (behind kept rules) = behind kept rules := by
      unfold addRule; rw [if_pos ((hany _).2 h1)]
    rw [e1]
    unfold addRule
    split
    · rfl
    · unfold behind
      rw [List.filter_append]
      have : [r].filter (fun r => decide (r.literals ∉ kept.map Rule.literals)) = [] := by
        rw [List.filter_cons_of_neg (by simpa using hk)]; rfl
      rw [this, List.append_nil]
  · have h2 : r.literals ∈ (behind kept rules).map Rule.literals ↔ r.literals ∈ rules.map Rule.literals := by
      unfold behind
      rw [List.map_append, List.mem_append]
      constructor
      · rintro (h | h)
        · exact absurd h hk
        · obtain ⟨x, hx, e⟩ := List.mem_map.1 h
          exact List.mem_map.2 ⟨x, (List.mem_filter.1 hx).1, e⟩
      · intro h
        obtain ⟨x, hx, e⟩ := List.mem_map.1 h
        exact Or.inr (List.mem_map.2 ⟨x, List.mem_filter.2 ⟨hx, by rw [e]; simpa using hk⟩, e⟩)
    by_cases hr : r.literals ∈ rules.map Rule.literals
    · unfold addRule
      rw [if_pos ((hany _).2 (h2.2 hr)), if_pos ((hany _).2 hr)]
    · unfold addRule
      rw [if_neg (fun h => hr (h2.1 ((hany _).1 h))), if_neg (fun h => hr ((hany _).1 h))]
      unfold behind
      rw [List.filter_append]
      have : [r].filter (fun r => decide (r.literals ∉ kept.map Rule.literals)) = [r] := by
        rw [List.filter_cons_of_pos (by simpa using hk)]; rfl
      rw [this, List.append_assoc]

/-- `b` is `a` put behind `kept` -/
def Onto (kept a b : List (Rule N U)) : Prop := b = behind kept a

def OntoGen (kept : List (Rule N U)) (a b : Gen N U) : Prop := Onto kept a.rules b.rules ∧ a.added = b.added

section
variable {kept : List (Rule N U)}

theorem Onto.addRule {a b : List (Rule N U)} (h : Onto kept a b) (r : Rule N U) :
    Onto kept (addRule r a) (addRule r b) := by
  unfold Onto at *
  rw [h, addRule_behind]

theorem Onto.addRule? {a b : List (Rule N U)} (h : Onto kept a b) (r : Option (Rule N U)) :
    Onto kept (addRule? r a) (addRule? r b) := by
  cases r with
  | none => exact h
  | some r => exact h.addRule r

theorem OntoGen.addRule {a b : Gen N U} (h : OntoGen kept a b) (r : Rule N U) :
    OntoGen kept { a with rules := Rules.addRule r a.rules } { b with rules := Rules.addRule r b.rules } :=
  ⟨h.1.addRule r, h.2⟩

/-- bind on both sides after the same computation -/
theorem SameE.same {α γ δ ε : Type} {Q : γ → δ → Prop} (x : Except ε α) {f : α → Except ε γ} {g : α → Except ε δ}
    (h : ∀ a, SameE Q (f a) (g a)) : SameE Q (x >>= f) (x >>= g) :=
  (SameE.of_eq x).bind fun a _ e => by subst e; exact h a

theorem onto_addRequires (strict : Bool) (pool : Pool N S U) (p : Package N S U) (reqs : Reqs N U)
    (cs : List (CTuple N S)) : ∀ {a b : List (Rule N U)} (qd : List (Work N S U)), Onto kept a b →
    SameE (fun x y => Onto kept x.1 y.1 ∧ x.2 = y.2) (addRequires strict pool p reqs cs a qd)
      (addRequires strict pool p reqs cs b qd) := by
  induction cs with
  | nil => intro _ _ _ h; exact .ok ⟨h, rfl⟩
  | cons c cs ih =>
    intro a b qd h
    unfold addRequires
    refine .same _ fun r => .same _ fun ps => ?_
    split
    · exact .same _ fun _ => .same _ fun r => .ok ⟨h.addRule r, rfl⟩
    · exact .same _ fun r => ih _ (h.addRule r)

theorem onto_addSameName (pool : Pool N S U) (p : Package N S U) (reqs : Reqs N U) (qs : List (Package N S U)) :
    ∀ {a b : List (Rule N U)}, Onto kept a b → SameE (Onto kept) (addSameName pool p reqs qs a) (addSameName pool p reqs qs b) := by
  induction qs with
  | nil => intro _ _ h; exact .ok h
  | cons q qs ih =>
    intro a b h
    unfold addSameName
    split
    · exact .same _ fun r => ih (h.addRule? r)
    · exact ih h

theorem onto_addProviderConflicts (pool : Pool N S U) (p : Package N S U) (reqs : Reqs N U) (qs : List (Package N S U)) :
    ∀ {a b : List (Rule N U)}, Onto kept a b →
    SameE (Onto kept) (addProviderConflicts pool p reqs qs a) (addProviderConflicts pool p reqs qs b) := by
  induction qs with
  | nil => intro _ _ h; exact .ok h
  | cons q qs ih =>
    intro a b h
    unfold addProviderConflicts
    exact .same _ fun r => ih (h.addRule? r)

theorem onto_addDeclared (strict : Bool) (pool : Pool N S U) (p : Package N S U) (reqs : Reqs N U) (cs : List (CTuple N S)) :
    ∀ {a b : List (Rule N U)}, Onto kept a b →
    SameE (Onto kept) (addDeclared strict pool p reqs cs a) (addDeclared strict pool p reqs cs b) := by
  induction cs with
  | nil => intro _ _ h; exact .ok h
  | cons c cs ih =>
    intro a b h
    unfold addDeclared
    refine .same _ fun r => .same _ fun ps => ?_
    split
    · exact .same _ fun _ => ih h
    · exact (onto_addProviderConflicts pool p _ _ h).bind fun _ _ h => ih h

theorem onto_addConflicts (strict : Bool) (pool : Pool N S U) (p : Package N S U) (reqs : Reqs N U)
    {a b : List (Rule N U)} (h : Onto kept a b) :
    SameE (Onto kept) (addConflicts strict pool p reqs a) (addConflicts strict pool p reqs b) := by
  unfold addConflicts
  exact .same _ fun ps => (onto_addSameName pool p _ _ h).bind fun _ _ h => onto_addDeclared strict pool p _ _ h

theorem onto_work (strict : Bool) (pool : Pool N S U) : ∀ (n : Nat) (q : List (Work N S U)) {a b : Gen N U},
    OntoGen kept a b → SameE (OntoGen kept) (work strict pool n q a) (work strict pool n q b) := by
  intro n
  induction n with
  | zero =>
    intro q a b h
    cases q with
    | nil => exact .ok h
    | cons x q => exact .error _
  | succ n ih =>
    intro q a b h
    cases q with
    | nil => exact .ok h
    | cons x q =>
      obtain ⟨p, reqs⟩ := x
      unfold work
      refine .same _ fun i => ?_
      rw [h.2]
      split
      · exact ih _ h
      · refine (onto_addRequires strict pool p reqs _ [] h.1).bind fun x y hxy => ?_
        refine (onto_addConflicts strict pool p reqs hxy.1).bind fun rs rs' hrs => ?_
        rw [hxy.2]
        exact ih _ ⟨hrs, rfl⟩

theorem onto_addPackageRules (strict : Bool) (pool : Pool N S U) (p : Package N S U) (reqs : Reqs N U)
    {a b : Gen N U} (h : OntoGen kept a b) :
    SameE (OntoGen kept) (addPackageRules strict pool p reqs a) (addPackageRules strict pool p reqs b) :=
  onto_work strict pool _ _ h

theorem onto_addCandidates (strict : Bool) (pool : Pool N S U) (d : Dict Nat (Package N S U)) (r : Requirement N U)
    (ps : List (Package N S U)) : ∀ {a b : Gen N U}, OntoGen kept a b →
    SameE (OntoGen kept) (addCandidates strict pool d r ps a) (addCandidates strict pool d r ps b) := by
  induction ps with
  | nil => intro _ _ h; exact .ok h
  | cons p ps ih =>
    intro a b h
    unfold addCandidates
    refine .same _ fun i => ?_
    split
    · exact ih h
    · exact (onto_addPackageRules strict pool p _ h).bind fun _ _ h => ih h

theorem onto_addRemovals (pool : Pool N S U) (r : Requirement N U) (ps : List (Package N S U)) :
    ∀ {a b : Gen N U}, OntoGen kept a b → SameE (OntoGen kept) (addRemovals pool r ps a) (addRemovals pool r ps b) := by
  induction ps with
  | nil => intro _ _ h; exact .ok h
  | cons p ps ih =>
    intro a b h
    unfold addRemovals
    exact .same _ fun r => ih (h.addRule r)

theorem onto_addJob (strict : Bool) (pool : Pool N S U) (d : Dict Nat (Package N S U)) (j : Job N U)
    {a b : Gen N U} (h : OntoGen kept a b) :
    SameE (OntoGen kept) (addJob strict pool d j a) (addJob strict pool d j b) := by
  have hinst : ∀ r, SameE (OntoGen kept) (addInstallJob strict pool d r a) (addInstallJob strict pool d r b) := by
    intro r
    unfold addInstallJob
    refine .same _ fun ps => ?_
    split
    · exact .error _
    · exact (onto_addCandidates strict pool d r _ h).bind fun _ _ h => .same _ fun r => .ok (h.addRule r)
  unfold addJob
  cases j.kind <;> cases j.requirement with
  | none => exact .error _
  | some r => first
    | exact hinst r
    | exact .error _
    | (unfold addRemoveJob; exact .same _ fun ps => onto_addRemovals pool r ps h)
    | (unfold addUpdateJob
       refine .same _ fun ps => ?_
       split
       · exact .ok h
       · exact .same _ fun p => (onto_addPackageRules strict pool p _ h).bind fun _ _ h =>
           .same _ fun i => .ok (h.addRule _))

theorem onto_addJobs (strict : Bool) (pool : Pool N S U) (d : Dict Nat (Package N S U)) (js : List (Job N U)) :
    ∀ {a b : Gen N U}, OntoGen kept a b → SameE (OntoGen kept) (addJobs strict pool d js a) (addJobs strict pool d js b) := by
  induction js with
  | nil => intro _ _ h; exact .ok h
  | cons j js ih =>
    intro a b h
    unfold addJobs
    exact (onto_addJob strict pool d j h).bind fun _ _ h => ih h

theorem onto_addOthers (strict : Bool) (pool : Pool N S U) (ps : List (Package N S U)) :
    ∀ {a b : Gen N U}, OntoGen kept a b → SameE (OntoGen kept) (addOthers strict pool ps a) (addOthers strict pool ps b) := by
  induction ps with
  | nil => intro _ _ h; exact .ok h
  | cons p ps ih =>
    intro a b h
    unfold addOthers
    exact (onto_addPackageRules strict pool p _ h).bind fun _ _ h => ih h

theorem onto_addInstalled (strict : Bool) (pool : Pool N S U) (ps : List (Package N S U)) :
    ∀ {a b : Gen N U}, OntoGen kept a b →
    SameE (OntoGen kept) (addInstalled strict pool ps a) (addInstalled strict pool ps b) := by
  induction ps with
  | nil => intro _ _ h; exact .ok h
  | cons p ps ih =>
    intro a b h
    unfold addInstalled
    exact (onto_addOthers strict pool _ h).bind fun _ _ h =>
      (onto_addPackageRules strict pool p _ h).bind fun _ _ h => ih h

theorem onto_iterRules (strict : Bool) (pool : Pool N S U) (jobs : List (Job N U)) (d : Dict Nat (Package N S U)) :
    SameE (OntoGen kept) (iterRules strict pool jobs d) (iterRulesAgain strict pool jobs d kept) := by
  unfold iterRules iterRulesAgain
  refine (onto_addJobs strict pool d jobs ?_).bind fun _ _ h => onto_addInstalled strict pool _ h
  exact ⟨by simp [Onto, behind], rfl⟩

end

end Verif.Rules
