import Verif.Solve.Blame
import Verif.Rules.BlameLemmas
/-
`solve` with the data of its exceptions is `solve`; which exceptions the part after rule generation raises.
-/
set_option linter.unusedSectionVars false
namespace Verif.Solve
open Verif Verif.Pkg Verif.Graph Verif.Rules Verif.Props

variable {N S U : Type} [LinearOrder N] [DecidableEq S] [LinearOrder U] [Syntax S U]

theorem forget_jobIds (pool : Pool N S U) (installed : Repository N S U) (js : List (Job N U)) (ids : List Nat)
    (soft : List (Package N S U)) : forget (jobIdsB pool installed js ids soft) = jobIds pool installed js ids soft := by
  induction js generalizing ids soft with
  | nil => rfl
  | cons j js ih =>
    unfold jobIdsB jobIds
    rw [forget_ite]
    split
    · rfl
    · cases j.requirement with
      | none => rfl
      | some r =>
        simp only
        rw [forget_plain_bind]
        refine bind_congr' fun ps => ?_
        rw [forget_ite]
        split
        · rfl
        · rw [forget_plain_bind]
          split
          · refine bind_congr' fun _ => ?_
            rw [forget_plain_bind]
            exact bind_congr' fun _ => ih _ _
          · refine bind_congr' fun _ => ?_
            rw [forget_plain_bind]
            exact bind_congr' fun _ => ih _ _

theorem forget_createRules (s : DependencySolver N S U) (o : Orders) (pool : Pool N S U) (q : Request N U) :
    forget (createRulesB s o pool q) = createRules s o pool q := by
  unfold createRulesB createRules
  rw [forget_bind, forget_jobIds]
  refine bind_congr' fun x => ?_
  obtain ⟨ids, soft⟩ := x
  simp only
  rw [forget_plain_bind]
  refine bind_congr' fun d => ?_
  rw [forget_plain_bind]
  refine bind_congr' fun prefer => ?_
  rw [forget_bind, forget_iterRules]
  rfl

/-- the exception without its data -/
def SBlame.forget : SBlame N S U → SErr N U
  | .pkg b => .pkg b.err
  | .sat e => .sat e

/-- what happens, without the data of an exception -/
def forgetS {α : Type} : Except (SBlame N S U) α → Except (SErr N U) α
  | .ok a => .ok a
  | .error b => .error b.forget

theorem forget_solve (s : DependencySolver N S U) (o : Orders) (q : Request N U) : forgetS (s.solveB o q) = s.solve o q := by
  unfold DependencySolver.solveB DependencySolver.solve
  simp only
  rw [← forget_createRules]
  cases createRulesB s o (s.solvePool (convertUpgrade q s.remote s.installed)) (convertUpgrade q s.remote s.installed) with
  | error b => rfl
  | ok st =>
    simp only [forget_ok, liftP, bind, Except.bind]
    cases search o (s.solvePool (convertUpgrade q s.remote s.installed)) st with
    | error e => rfl
    | ok a =>
      simp only [liftS]
      cases finish s o (s.solvePool (convertUpgrade q s.remote s.installed)) st.requirementIds a with
      | error e => rfl
      | ok t => rfl

/-! ### The exceptions of the other parts -/

/-- it never raises NoPackageFound or a subclass -/
def Quiet {α : Type} (x : Except PErr α) : Prop := ∀ e, x = .error e → ¬ CarriesRequirement e

theorem Quiet.ok {α : Type} (a : α) : Quiet (.ok a) := fun _ h => nomatch h

theorem Quiet.error {α : Type} {e : PErr} (h : ¬ CarriesRequirement e) : Quiet (α := α) (.error e) := by
  intro e' he
  cases he
  exact h

theorem Quiet.bind {α β : Type} {x : Except PErr α} {f : α → Except PErr β} (h : Quiet x) (hf : ∀ a, x = .ok a → Quiet (f a)) :
    Quiet (x >>= f) := by
  cases hx : x with
  | error e =>
    intro e' he
    cases he
    exact h e hx
  | ok a => exact hf a hx

theorem Quiet.mapE {α β : Type} {f : α → Except PErr β} (hf : ∀ a, Quiet (f a)) (l : List α) : Quiet (mapE f l) := by
  induction l with
  | nil => exact Quiet.ok _
  | cons x xs ih =>
    unfold Verif.mapE
    cases hx : f x with
    | error e => exact Quiet.error (hf x e hx)
    | ok y =>
      simp only
      cases hxs : Verif.mapE f xs with
      | error e => exact Quiet.error (ih e hxs)
      | ok ys => exact Quiet.ok _

theorem quiet_from (cls : ReqClass) (t : CTuple N S) : Quiet (fromConstraints (U := U) cls t) :=
  fun _ h => Run.not_input (fromConstraints_err h)

theorem quiet_provides (pool : Pool N S U) (r : Requirement N U) (b : Bool) : Quiet (pool.whatProvides r b) :=
  fun _ h => Run.not_impl (whatProvides_err h).1

theorem quiet_id (pool : Pool N S U) (p : Package N S U) : Quiet (pool.packageId p) := fun _ h => Run.not_value (packageId_err h)

theorem quiet_package (pool : Pool N S U) (i : Nat) : Quiet (pool.idToPkg i) := by
  unfold Pool.idToPkg
  split
  · exact Quiet.ok _
  · exact Quiet.error (Run.not_value rfl)

theorem quiet_value {α : Type} : Quiet (α := α) (.error .valueError) := Quiet.error (Run.not_value rfl)

theorem quiet_assertion {α : Type} : Quiet (α := α) (.error .assertion) :=
  Quiet.error (Run.not_input (Or.inr (Or.inr (Or.inl rfl))))

theorem quiet_fuel {α : Type} : Quiet (α := α) (.error .outOfFuel) := Quiet.error (by rintro (k | k | k) <;> cases k)

theorem quiet_key {α : Type} : Quiet (α := α) (.error .keyError) := Quiet.error (by rintro (k | k | k) <;> cases k)

theorem quiet_depLits (pool : Pool N S U) (closed : Bool) (m : Dict Nat Int) (ds : List (Package N S U)) :
    Quiet (depLits pool closed m ds) := by
  induction ds with
  | nil => exact Quiet.ok _
  | cons d ds ih =>
    unfold depLits
    split
    · next e he => exact Quiet.error (quiet_id _ _ _ he)
    · split
      · next e he => exact Quiet.error (ih _ he)
      · split <;> exact Quiet.ok _

theorem quiet_depEdges (pool : Pool N S U) (closed : Bool) (m : Dict Nat Int) (cs : List (CTuple N S)) (acc : List Int) :
    Quiet (depEdges pool closed m cs acc) := by
  induction cs generalizing acc with
  | nil => exact Quiet.ok _
  | cons c cs ih =>
    unfold depEdges
    split
    · next e he => exact Quiet.error (quiet_from _ _ _ he)
    · split
      · next e he => exact Quiet.error (quiet_provides _ _ _ _ he)
      · split
        · next e he => exact Quiet.error (quiet_depLits _ _ _ _ _ he)
        · exact ih _

theorem quiet_graph (pool : Pool N S U) (lits : List Int) (closed : Bool) : Quiet (packageLitDependencyGraph pool lits closed) := by
  unfold packageLitDependencyGraph
  split
  · next e he =>
    refine Quiet.error (Quiet.mapE (fun l => ?_) _ e he)
    unfold litPackage
    split
    · next e he => exact Quiet.error (quiet_package _ _ _ he)
    · exact Quiet.ok _
  · refine Quiet.mapE (fun lp => ?_) _
    unfold nodeItem
    split
    · next e he => exact Quiet.error (quiet_depEdges _ _ _ _ _ _ he)
    · exact Quiet.ok _

theorem quiet_packageKey (pool : Pool N S U) (i : Nat) : Quiet (packageKey pool i) := by
  unfold packageKey
  split
  · next e he => exact Quiet.error (quiet_package _ _ _ he)
  · exact Quiet.ok _

theorem quiet_sortOut (decisions : List Int) (installed : List Nat) (ls : List Int) (acc : List Nat × List Nat) :
    Quiet (sortOut decisions installed ls acc) := by
  induction ls generalizing acc with
  | nil => exact Quiet.ok _
  | cons l ls ih =>
    obtain ⟨a, b⟩ := acc
    unfold sortOut
    split
    · exact quiet_assertion
    · split
      · exact ih _
      · split <;> exact ih _

theorem quiet_installLoop (pool : Pool N S U) (loc : Dict (N × Version U) Nat) (is : List Nat) (ps : List (Package N S U))
    (rm : List Nat) : Quiet (installLoop pool loc is ps rm) := by
  induction is generalizing ps rm with
  | nil => exact Quiet.ok _
  | cons i is ih =>
    unfold installLoop
    split
    · next e he => exact Quiet.error (quiet_packageKey _ _ _ he)
    · simp only
      split
      · exact ih _ _
      · split
        · next e he => exact Quiet.error (quiet_package _ _ _ he)
        · exact ih _ _

theorem quiet_safe (pool : Pool N S U) (decisions : List Int) (installed : List Nat) (loc : Dict (N × Version U) Nat) :
    Quiet (safeOperations pool decisions installed loc) := by
  unfold safeOperations
  split
  · next e he => exact Quiet.error (quiet_graph _ _ _ _ he)
  · split
    · exact quiet_value
    · exact quiet_fuel
    · split
      · next e he => exact Quiet.error (quiet_sortOut _ _ _ _ _ he)
      · split
        · next e he => exact Quiet.error (quiet_installLoop _ _ _ _ _ _ he)
        · split
          · next e he => exact Quiet.error (Quiet.mapE (fun i => quiet_package _ i) _ _ he)
          · exact Quiet.ok _

theorem quiet_absorbAll (pool : Pool N S U) (ks : List (PKey N S U)) (d : Dict (PKey N S U) (List (Op N S U))) :
    Quiet (absorbAll pool ks d) := by
  induction ks generalizing d with
  | nil => exact Quiet.ok _
  | cons k ks ih =>
    unfold absorbAll
    split
    · split
      · next e he =>
        unfold findOtherProviders at he
        split at he
        · next e' he' => cases he; exact Quiet.error (quiet_provides _ _ _ _ he')
        · cases he
      · exact ih _
    · exact ih _

theorem quiet_merge (ops : List (Op N S U)) : Quiet (mergeOperations ops) := by
  unfold mergeOperations
  split
  · exact Quiet.ok _
  · split
    · next e he =>
      refine Quiet.error (Quiet.mapE (fun o => ?_) _ _ he)
      cases o
      · exact Quiet.ok _
      · exact Quiet.ok _
      · exact quiet_value
    · split
      · exact Quiet.ok _
      · exact quiet_value

theorem quiet_transaction (pool : Pool N S U) (decisions : List Int) (installed : List Nat) :
    Quiet (mkTransaction pool decisions installed) := by
  unfold mkTransaction
  split
  · next e he =>
    unfold localPackages at he
    split at he
    · next e' he' =>
      cases he
      refine Quiet.error (Quiet.mapE (fun i => ?_) _ _ he')
      unfold keyItem
      split
      · next e he => exact Quiet.error (quiet_packageKey _ _ _ he)
      · exact Quiet.ok _
    · cases he
  · split
    · next e he => exact Quiet.error (quiet_safe _ _ _ _ _ he)
    · split
      · next e he =>
        unfold prettyOperations at he
        simp only at he
        split at he
        · next e' he' => cases he; exact Quiet.error (quiet_absorbAll _ _ _ _ he')
        · exact Quiet.error (Quiet.mapE (fun o => quiet_merge o) _ _ he)
      · exact Quiet.ok _

theorem quiet_names (pool : Pool N S U) (l : Int) : Quiet (getNames pool l) := by
  unfold getNames
  split
  · next e he => exact Quiet.error (quiet_package _ _ _ he)
  · exact Quiet.ok _

theorem quiet_neighbors (pool : Pool N S U) (m : Dict N Int) (l : Int) : Quiet (neighborFunc pool m l) := by
  unfold neighborFunc
  split
  · next e he =>
    split at he
    · exact Quiet.error (quiet_package _ _ _ he)
    · exact Quiet.error (quiet_value _ he)
  · split
    · next e he =>
      refine Quiet.error (Quiet.mapE (fun t => ?_) _ _ he)
      unfold depNeighbors
      split
      · exact quiet_key
      · exact Quiet.ok _
    · exact Quiet.ok _

theorem quiet_loop {pop : PopOrder Int} {f : Int → Except PErr (List Int)} (hf : ∀ l, Quiet (f l)) {n : Nat} {queue visited : List Int}
    {x : Except PErr (List Int)} (h : connectedLoop pop f n queue visited = some x) : Quiet x := by
  induction n generalizing queue visited with
  | zero => cases h
  | succ n ih =>
    unfold connectedLoop at h
    split at h
    · cases h; exact Quiet.ok _
    · simp only at h
      split at h
      · next e he => cases h; exact Quiet.error (hf _ _ he)
      · exact ih h

theorem quiet_include {pop : PopOrder Int} {f : Int → Except PErr (List Int)} (hf : ∀ l, Quiet (f l)) (n : Nat) (rs visited : List Int) :
    Quiet (includeAll pop f n rs visited) := by
  induction rs generalizing visited with
  | nil => exact Quiet.ok _
  | cons r rs ih =>
    unfold includeAll
    split
    · exact quiet_fuel
    · next e he => exact quiet_loop hf he
    · exact ih _

theorem quiet_connected (o : Orders) (pool : Pool N S U) (solution : List Int) (rootIds : List Nat) :
    Quiet (connectedPackages o pool solution rootIds) := by
  unfold connectedPackages
  split
  · next e he => exact Quiet.error (Quiet.mapE (fun i => quiet_names _ _) _ _ he)
  · split
    · next e he =>
      refine Quiet.error (Quiet.mapE (fun l => ?_) _ _ he)
      unfold nameItems
      split
      · next e he => exact Quiet.error (quiet_names _ _ _ he)
      · exact Quiet.ok _
    · simp only
      split
      · next e he => exact Quiet.error (quiet_include (fun l => quiet_neighbors _ _ l) _ _ _ _ he)
      · split
        · exact Quiet.ok _
        · exact quiet_assertion

theorem quiet_finish (s : DependencySolver N S U) (o : Orders) (pool : Pool N S U) (ids : List Nat) (a : ASet) :
    Quiet (finish s o pool ids a) := by
  unfold finish
  refine (Quiet.mapE (fun p => quiet_id pool p) _).bind fun l _ => ?_
  simp only
  split
  · exact (quiet_connected o pool _ _).bind fun _ _ => quiet_transaction _ _ _
  · exact (Quiet.ok _).bind fun _ _ => quiet_transaction _ _ _

theorem quiet_installedDict (pool : Pool N S U) (ps : List (Package N S U)) (d : Dict Nat (Package N S U)) :
    Quiet (installedDict pool ps d) := by
  induction ps generalizing d with
  | nil => exact Quiet.ok _
  | cons p ps ih =>
    unfold installedDict
    exact (quiet_id _ _).bind fun _ _ => ih _

theorem quiet_prefer (pool : Pool N S U) (order : List Nat → List Nat) (installed soft : List (Package N S U)) :
    Quiet (preferIds pool order installed soft) := by
  unfold preferIds
  refine (Quiet.mapE (fun p => quiet_id _ p) _).bind fun _ _ => ?_
  refine (Quiet.mapE (fun i => ?_) _).bind fun _ _ => Quiet.ok _
  split
  · next e he => exact Quiet.error (quiet_package _ _ _ he)
  · exact Quiet.ok _

theorem quiet_max (installed : Repository N S U) (ps : List (Package N S U)) : Quiet (maxPkg (hardKey installed) ps) :=
  fun _ h => Run.not_value (maxPkg_err (fun _ _ h => by cases h) h)

end Verif.Solve
