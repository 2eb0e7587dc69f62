import Verif.Sat.Again
import Verif.Props.SatCore
/-
Properties C95 (`is_satisfiable`) and C96 (one solver object used several times).
-/
namespace Verif.Props
open Verif Verif.Sat

/-! ### C95 -/

/-- C95 (the code violates it): `is_satisfiable` never looks at the rules. It returns True, whatever they are. -/
theorem C95_always_true (rules : List (List Int)) : isSatisfiable rules = .ok true := by
  unfold isSatisfiable
  by_cases h : rules = []
  · rw [if_pos h]; rfl
  · rw [if_neg h]; rfl

/-- C95 (the code violates it): it says that 1 and not 1 is satisfiable. -/
theorem C95_violated : ∃ rules : List (List Int), ¬ Satisfiable rules ∧ isSatisfiable rules = .ok true := by
  refine ⟨[[1], [-1]], ?_, C95_always_true _⟩
  rintro ⟨m, hm⟩
  obtain ⟨l, hl, h1⟩ := hm [1] (by simp)
  obtain ⟨l', hl', h2⟩ := hm [-1] (by simp)
  simp only [List.mem_singleton] at hl hl'
  subst hl; subst hl'
  exact (litTrue_neg m (by decide)).1 h2 h1

/-- C95, the half that holds: satisfiable rules are said to be satisfiable. (That unsatisfiable rules are refused is missing: it
is false.) -/
theorem C95_satisfiable_partial (rules : List (List Int)) (_ : Satisfiable rules) : isSatisfiable rules = .ok true :=
  C95_always_true rules

/-- the hypothesis of `C95_satisfiable_partial` can be met -/
example : Satisfiable [[1, 2], [-1]] :=
  ⟨fun n => decide (n = 2), by
    intro c hc
    simp only [List.mem_cons, List.not_mem_nil, or_false] at hc
    rcases hc with rfl | rfl
    · exact ⟨2, by simp, by decide⟩
    · exact ⟨-1, by simp, by decide⟩⟩

/-! ### C96 -/

/-- What a call is bound to give after a search that returned the solution `a`: every search returns `a` again; adding a
clause of a single literal raises SatisfiabilityError if `a` makes the literal false; everything else goes without notice. -/
inductive AfterSolution {σ : Type} (a : ASet) : Call σ → Answer → Prop
  | search (fuel : Nat) (ps : σ) : AfterSolution a (.search (fuel + 1) ps) (.solution a)
  | setup : AfterSolution a .setup .nothing
  | add {lits : List Int} (h : ∀ l ∈ lits, (∀ x ∈ lits, x = l) → a.value l = some true) :
    AfterSolution a (.add lits) .nothing
  | refused {lits : List Int} {l : Int} (u : UnsatInfo) (hl : l ∈ lits) (h : ∀ x ∈ lits, x = l) (hv : a.value l = some false) :
    AfterSolution a (.add lits) (.raised (.satisfiability u))

/-- the clauses added by calls -/
def addedBy {σ : Type} : List (Call σ) → List (List Int)
  | [] => []
  | .add lits :: cs => lits :: addedBy cs
  | _ :: cs => addedBy cs

/-- every search has at least one turn -/
def Turns {σ : Type} (cs : List (Call σ)) : Prop := ∀ fuel ps, Call.search fuel ps ∈ cs → 0 < fuel

theorem fromkeys_single {lits : List Int} {l : Int} : fromkeys lits = [l] ↔ l ∈ lits ∧ ∀ x ∈ lits, x = l := by
  constructor
  · intro h
    refine ⟨by rw [← mem_fromkeys, h]; simp, fun x hx => ?_⟩
    rw [← mem_fromkeys, h] at hx
    simpa using hx
  · rintro ⟨h1, h2⟩
    have hnd := nodup_fromkeys lits
    have hm : ∀ x, x ∈ fromkeys lits ↔ x = l := by
      intro x
      rw [mem_fromkeys]
      exact ⟨h2 x, by rintro rfl; exact h1⟩
    cases hf : fromkeys lits with
    | nil => rw [hf] at hm; exact absurd ((hm l).2 rfl) (by simp)
    | cons a r =>
      rw [hf] at hm hnd
      have ha := (hm a).1 (by simp)
      subst ha
      cases r with
      | nil => rfl
      | cons b t =>
        have hb := (hm b).1 (by simp)
        subst hb
        simp at hnd

theorem later_calls {σ : Type} (pol : Policy σ) {A : ASet} (hA : ∀ v ∈ A.seen, A.value v ≠ none) (hwf : A.WF)
    (cs : List (Call σ)) (ht : Turns cs) : ∀ {s : Solver}, Solver.Rest A s →
    (∀ c ∈ addedBy cs, ∀ l ∈ c, iabs l ∈ A.seen) →
    List.Forall₂ (AfterSolution A.copy) cs (calls pol cs s).1 := by
  induction cs with
  | nil => intro _ _ _; exact .nil
  | cons c cs ih =>
    intro s h hadd
    have ht' : Turns cs := fun fuel ps hm => ht fuel ps (by simp [hm])
    unfold calls
    simp only
    cases c with
    | search fuel ps =>
      obtain ⟨n, rfl⟩ : ∃ n, fuel = n + 1 := ⟨fuel - 1, by have := ht fuel ps (by simp); omega⟩
      have hc : call pol s (.search (n + 1) ps) = (.solution A.copy, s) := by
        unfold call
        simp only [Solver.search_done pol n ps h.q h.all, h.asg]
      rw [hc]
      exact .cons (.search n ps) (ih ht' h hadd)
    | setup =>
      have hc : call pol s .setup = (.nothing, s) := by
        unfold call
        simp only [Solver.rest_setup h]
      rw [hc]
      exact .cons .setup (ih ht' h hadd)
    | add lits =>
      have hrest : ∀ c ∈ addedBy cs, ∀ l ∈ c, iabs l ∈ A.seen := fun c hc => hadd c (by simp [addedBy, hc])
      rcases Solver.rest_add hA hwf h lits (hadd lits (by simp [addedBy])) with ⟨s', h1, h2, h3⟩ | ⟨e, l, h1, h2, h3⟩
      · have hc : call pol s (.add lits) = (.nothing, s') := by unfold call; simp only [h1]
        rw [hc]
        refine .cons (.add ?_) (ih ht' h2 hrest)
        intro l hl hx
        exact h3 l (fromkeys_single.2 ⟨hl, hx⟩)
      · have hc : call pol s (.add lits) = (.raised (.satisfiability e), s) := by unfold call; simp only [h1]
        rw [hc]
        obtain ⟨k1, k2⟩ := fromkeys_single.1 h2
        exact .cons (.refused e k1 k2 h3) (ih ht' h hrest)

section
variable {σ : Type} {pol : Policy σ} {U : List Int} {D : Int → List Int → Prop} {PI : σ → Prop}
variable {G : List (List Int)} (hpol : pol.OK U (varsOf G) D PI) (hU : ∀ v ∈ varsOf G, v ∈ U)
variable (hnz : ∀ c ∈ G, ∀ l ∈ c, l ≠ 0) {ps : σ} (hps : PI ps)
include hpol hU hnz hps

/-- C96, what holds: when a solver made of the rules `G` has returned a solution, then whatever calls follow, every search
returns the same solution again: neither the next one nor one of the clauses added meanwhile (which must be over the variables
of `G`). Adding a clause raises an exception, SatisfiabilityError, exactly if it consists of one literal that is false in that solution. (Missing: that
the answers take account of the clauses that were added. It is false.) -/
theorem C96_same_solution_partial {fuel : Nat} {s s' : Solver} {a : ASet} (hs : Solver.fromRules G = .ok s)
    (h : s.search pol fuel ps = .ok (s', a)) (cs : List (Call σ)) (ht : Turns cs)
    (hadd : ∀ c ∈ addedBy cs, ∀ l ∈ c, iabs l ∈ varsOf G) :
    List.Forall₂ (AfterSolution a) cs (calls pol cs s').1 := by
  have hd := Solver.searchLoop_done fuel h
  obtain ⟨hq, hall, rfl⟩ := hd
  rcases fromRules_head (D := D) G hnz hU with ⟨s0, h1, h2, h3, hroot⟩ | ⟨u, h1, -⟩
  · rw [hs] at h1
    cases h1
    unfold Solver.search at h
    rw [hroot] at h
    rcases Solver.searchLoop_spec hpol (varsOf_nonempty G) fuel h2 hps with
      ⟨s1, k1, k2⟩ | ⟨u, s1, k1, -, -⟩ | ⟨s1, k1, -⟩
    · rw [h] at k1
      simp only [Except.ok.injEq, Prod.mk.injEq] at k1
      obtain ⟨rfl, -⟩ := k1
      have hrest : Solver.Rest s'.assignments s' := by
        refine ⟨hq, hall, rfl, k2.inv.cs, fun cid hc => (k2.inv.base.idr cid hc).2, ?_⟩
        intro l hl
        have hb := k2.inv.base
        have hn : s'.assignments.value (-l) = some true := by
          have := hb.aset.neg l
          have hl' : s'.assignments.data l = some false := hl
          rw [hl'] at this
          exact this
        obtain ⟨r, hr⟩ := Solver.mem_suffix ((hb.vT (-l)).1 hn)
        obtain ⟨c, hc, -⟩ := hb.reas _ _ hr
        have e : iabs (-l) = iabs l := by unfold iabs; omega
        rw [e] at hc
        rw [hc]; simp
      refine later_calls pol k2.all k2.inv.base.aset cs ht hrest ?_
      intro c hc l hl
      obtain ⟨d, hd, l', hl', e⟩ := (mem_varsOf G _).1 (hadd c hc l hl)
      obtain ⟨cid, m1, m2⟩ := k2.cov d (by
        simp only [nonempty, List.mem_filter, decide_eq_true_eq]
        exact ⟨hd, by rintro rfl; simp at hl'⟩) (by rintro rfl; simp at hl')
      rw [← e]
      exact k2.inv.cs cid m1 l' ((m2 l').2 hl')
    · rw [h] at k1; cases k1
    · rw [h] at k1; cases k1
  · rw [hs] at h1; cases h1

/-- C96: so the answer of a search after clauses were added is right - a solution of the rules and of these clauses - exactly
if the first solution happens to satisfy them. -/
theorem C96_right_iff_partial (hne : ∀ c ∈ G, c ≠ []) {fuel : Nat} {s s' : Solver} {a b : ASet}
    (hs : Solver.fromRules G = .ok s) (h : s.search pol fuel ps = .ok (s', a)) (cs : List (Call σ)) (ht : Turns cs)
    (hadd : ∀ c ∈ addedBy cs, ∀ l ∈ c, iabs l ∈ varsOf G) (hb : Answer.solution b ∈ (calls pol cs s').1) :
    b = a ∧ ((∀ c ∈ G ++ addedBy cs, ∃ l ∈ c, b.value l = some true) ↔
      ∀ c ∈ addedBy cs, ∃ l ∈ c, a.value l = some true) := by
  have hall := C96_same_solution_partial hpol hU hnz hps hs h cs ht hadd
  have hba : b = a := by
    generalize (calls pol cs s').1 = answers at hall hb
    clear ht hadd
    induction hall with
    | nil => cases hb
    | cons hc _ ih =>
      rcases List.mem_cons.1 hb with hb | hb
      · subst hb; cases hc; rfl
      · exact ih hb
  refine ⟨hba, ?_⟩
  subst hba
  have hG : ∀ c ∈ G, ∃ l ∈ c, b.value l = some true := by
    have hsol : solveRules pol fuel ps G = .ok b := by
      unfold solveRules
      rw [hs]
      simp only [h]
    intro c hc
    exact (C01_solution_satisfies_every_rule hpol hU hnz hps hsol).1 c hc (hne c hc)
  constructor
  · intro k c hc; exact k c (by simp [hc])
  · intro k c hc
    rcases List.mem_append.1 hc with hc | hc
    · exact hG c hc
    · exact k c hc

end

/-! #### The code violates C96 -/

/-- the calls after `MiniSATSolver.from_rules(G)` -/
def session (G : List (List Int)) (cs : List (Call Unit)) : List Answer :=
  match Solver.fromRules G with
  | .error e => [.raised e]
  | .ok s => (calls defaultPolicy cs s).1

/-- `search()` -/
abbrev searching : Call Unit := .search 100 ()

/-- the values of the variables of the list in an answer -/
def Answer.read (vs : List Int) : Answer → Option (List (Option Bool))
  | .solution a => some (vs.map a.value)
  | _ => none

def Answer.isUnsat : Answer → Bool
  | .raised (.satisfiability _) => true
  | _ => false

/-- C96 (violated): `search` does not return "the next solution", as its documentation says: 1 or 2 has three solutions, but
every search returns the same one. -/
theorem C96_violated_next :
    (session [[1, 2]] [searching, searching, searching]).map (Answer.read [1, 2]) =
      [some [some true, some true], some [some true, some true], some [some true, some true]] := by
  decide +kernel

/-- C96 (violated): a clause added after a search is ignored. The second search returns an assignment that does not satisfy it,
although 1 and not 2 would. -/
theorem C96_violated_added :
    (session [[1, 2]] [searching, .add [-1, -2], .setup, searching]).map (Answer.read [1, 2]) =
      [some [some true, some true], none, none, some [some true, some true]] ∧
    Satisfiable [[1, 2], [-1, -2]] := by
  refine ⟨by decide +kernel, fun n => decide (n = 1), ?_⟩
  intro c hc
  simp only [List.mem_cons, List.not_mem_nil, or_false] at hc
  rcases hc with rfl | rfl
  · exact ⟨1, by simp, by decide⟩
  · exact ⟨-2, by simp, by decide⟩

/-- C96 (violated): or it is refused with SatisfiabilityError, although together with the rules it is satisfiable. -/
theorem C96_violated_unit :
    (session [[1, 2]] [searching, .add [-1]]).map Answer.isUnsat = [false, true] ∧ Satisfiable [[1, 2], [-1]] := by
  refine ⟨by decide +kernel, fun n => decide (n = 2), ?_⟩
  intro c hc
  simp only [List.mem_cons, List.not_mem_nil, or_false] at hc
  rcases hc with rfl | rfl
  · exact ⟨2, by simp, by decide⟩
  · exact ⟨-1, by simp, by decide⟩

/-- C96 (violated): after a search has raised SatisfiabilityError, the next one may return a "solution". Here it makes 1 false,
which is one of the rules. -/
theorem C96_violated_after_failure :
    (session [[1], [-1, 2], [-1, -2]] [searching, searching]).map Answer.isUnsat = [true, false] ∧
    (session [[1], [-1, 2], [-1, -2]] [searching, searching]).map (Answer.read [1, 2]) =
      [none, some [some false, some true]] := by
  constructor <;> decide +kernel

/-- C96 (violated): clauses added to a solver that was not made by `from_rules` are ignored unless `_setup_assignments` is called
before the search: the "solution" has no values. -/
theorem C96_violated_setup :
    (calls defaultPolicy [.add [1, 2], searching] Solver.init).1.map (Answer.read [1, 2]) =
      [none, some [none, none]] ∧
    (calls defaultPolicy [.add [1, 2], .setup, searching] Solver.init).1.map (Answer.read [1, 2]) =
      [none, none, some [some true, some true]] := by
  constructor <;> decide +kernel

/-- the hypotheses of `C96_same_solution_partial` and `C96_right_iff_partial` can be met, with clauses added -/
example : ∃ s s' a, Solver.fromRules [[1, 2], [-1, 3]] = .ok s ∧ s.search defaultPolicy 100 () = .ok (s', a) ∧
    defaultPolicy.OK (varsOf [[1, 2], [-1, 3]]) (varsOf [[1, 2], [-1, 3]]) (fun _ _ => True) (fun _ => True) ∧
    (∀ c ∈ addedBy ([.add [-1, -2], .setup, searching] : List (Call Unit)), ∀ l ∈ c, iabs l ∈ varsOf [[1, 2], [-1, 3]]) ∧
    (∃ b, Answer.solution b ∈ (calls defaultPolicy [.add [-1, -2], .setup, searching] s').1) :=
  ⟨_, _, _, rfl, rfl, defaultPolicy_ok _ _, by decide, _, List.Mem.tail _ (List.Mem.tail _ (List.Mem.head _))⟩

end Verif.Props
