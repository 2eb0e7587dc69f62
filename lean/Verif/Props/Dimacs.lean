import Verif.Solve.DimacsLemmas
import Verif.Props.Solve
import Verif.Props.Pools
import Mathlib.Data.Finset.Card
import Mathlib.Order.Interval.Finset.Nat
/-
C93: scripts/scenario_to_dimacs.py, the problem for an external SAT solver and the transaction made of its answer.
-/
set_option linter.unusedSectionVars false
namespace Verif.Props
open Verif Verif.Pkg Verif.Rules Verif.Sat Verif.Solve Verif.Dimacs

variable {N S U : Type} [LinearOrder N] [DecidableEq S] [LinearOrder U] [Syntax S U]

/-! ### the text -/

theorem header_words (v n : Nat) : words ["p cnf ".toList ++ intText v ++ ' ' :: intText n] =
    [['p'], ['c', 'n', 'f'], intText v, intText n] := by
  have hv : ' ' ∉ intText (v : Int) := by
    intro h
    rcases intText_chars h with h | h <;> exact absurd h (by decide)
  have hn : ' ' ∉ intText (n : Int) := by
    intro h
    rcases intText_chars h with h | h <;> exact absurd h (by decide)
  have e : "p cnf ".toList ++ intText v ++ ' ' :: intText n =
      ['p'] ++ ' ' :: (['c', 'n', 'f'] ++ ' ' :: (intText v ++ ' ' :: intText n)) := by
    show 'p' :: ' ' :: 'c' :: 'n' :: 'f' :: ' ' :: (intText v ++ ' ' :: intText n) = _
    rfl
  unfold words
  rw [e, List.flatMap_singleton, cut_append (by decide), cut_append (by decide), cut_append hv, cut_none hn]
  rw [List.filter_eq_self.2]
  intro w hw
  simp only [List.mem_cons, List.not_mem_nil, or_false] at hw
  rcases hw with rfl | rfl | rfl | rfl
  · decide
  · decide
  · simp [intText_ne_nil]
  · simp [intText_ne_nil]

/-- the number of different variables -/
def numVars (cs : List (List Int)) : Nat := (fromkeys (cs.flatMap (fun c => c.map iabs))).length

theorem clause_line {c : List Int} {x : Char} (h : x ∈ dimacsClause c) : x = ' ' ∨ x = '-' ∨ x.isDigit = true := by
  rcases mem_joinWith h with h | ⟨w, hw, h⟩
  · exact Or.inl (by simpa using h)
  · simp only [List.mem_append, List.mem_map, List.mem_singleton] at hw
    rcases hw with ⟨i, -, rfl⟩ | rfl
    · exact Or.inr (intText_chars h)
    · simp only [List.mem_singleton] at h
      subst h; exact Or.inr (Or.inr (by decide))

theorem clause_head (c : List Int) : (dimacsClause c).head? ≠ some 'c' := by
  intro h
  have : 'c' ∈ dimacsClause c := by
    cases hd : dimacsClause c with
    | nil => rw [hd] at h; simp at h
    | cons x xs => rw [hd] at h; simp at h; simp [h]
  rcases clause_line this with h | h | h <;> exact absurd h (by decide)

theorem key_newline (T : Texts N U) (pool : Pool N S U) :
    '\n' ∉ "c {".toList ++ joinWith [',', ' '] (pool.idToPackage.map (dimacsKeyItem T)) ++ ['}'] := by
  intro h
  simp only [List.mem_append, List.mem_singleton] at h
  rcases h with (h | h) | h
  · exact absurd h (by decide)
  · rcases mem_joinWith h with h | ⟨w, hw, h⟩
    · exact absurd h (by decide)
    · obtain ⟨e, -, rfl⟩ := List.mem_map.1 hw
      unfold dimacsKeyItem at h
      simp only [List.mem_append, List.mem_cons] at h
      rcases h with h | h | h | h
      · exact jsonString_newline _ h
      · exact absurd h (by decide)
      · exact absurd h (by decide)
      · exact jsonString_newline _ h
  · exact absurd h (by decide)

theorem dimacs_lines (T : Texts N U) (pool : Pool N S U) (cs : List (List Int)) :
    cut '\n' (dimacsText T pool cs) = toDimacs T pool cs := by
  unfold dimacsText
  refine cut_join (by unfold toDimacs; simp) ?_
  intro l hl
  unfold toDimacs clausesToDimacs at hl
  simp only [List.mem_cons, List.mem_map] at hl
  rcases hl with rfl | rfl | rfl | ⟨c, -, rfl⟩
  · decide
  · exact key_newline T pool
  · intro h
    simp only [List.mem_append, List.mem_cons] at h
    rcases h with (h | h) | h | h
    · exact absurd h (by decide)
    · rcases intText_chars h with h | h <;> exact absurd h (by decide)
    · exact absurd h (by decide)
    · rcases intText_chars h with h | h <;> exact absurd h (by decide)
  · intro h
    rcases clause_line h with h | h | h <;> exact absurd h (by decide)

theorem read_dimacs (T : Texts N U) (pool : Pool N S U) {cs : List (List Int)} (h : ∀ c ∈ cs, ∀ l ∈ c, l ≠ 0) :
    read (dimacsText T pool cs) = some ⟨numVars cs, cs.length, cs⟩ := by
  have hf : (toDimacs T pool cs).filter (fun l => decide (l.head? ≠ some 'c')) = clausesToDimacs cs := by
    have hrest : (clausesToDimacs cs).filter (fun l => decide (l.head? ≠ some 'c')) = clausesToDimacs cs := by
      rw [List.filter_eq_self]
      intro l hl
      unfold clausesToDimacs at hl
      simp only [List.mem_cons, List.mem_map] at hl
      rcases hl with rfl | ⟨c, -, rfl⟩
      · show decide (some 'p' ≠ some 'c') = true
        decide
      · rw [decide_eq_true_eq]; exact clause_head c
    unfold toDimacs
    rw [List.filter_cons_of_neg, List.filter_cons_of_neg, hrest]
    · show ¬ decide (some 'c' ≠ some 'c') = true
      simp
    · show ¬ decide (some 'c' ≠ some 'c') = true
      simp
  unfold Dimacs.read
  rw [dimacs_lines, hf]
  unfold clausesToDimacs
  simp only
  rw [header_words]
  simp only [and_self, if_true]
  rw [readNat_intText, readNat_intText, allWords, readNumbers]
  simp only
  rw [readClauses_all h]
  rfl

/-- C93: the file, read as DIMACS, has exactly the given clauses, literal by literal, and announces their number. -/
theorem C93_clauses_read_back (T : Texts N U) (pool : Pool N S U) {cs : List (List Int)} (h : ∀ c ∈ cs, ∀ l ∈ c, l ≠ 0) :
    ∃ p, Dimacs.read (dimacsText T pool cs) = some p ∧ p.clauses = cs ∧ p.count = p.clauses.length :=
  ⟨_, read_dimacs T pool h, rfl, rfl⟩

example : ∀ c ∈ [[1, -23], [4]], ∀ l ∈ c, l ≠ (0 : Int) := by decide

/-- C93: the second line of the file is a comment which, as JSON, maps the id of every package of the pool to its name and
version. -/
theorem C93_key (T : Texts N U) (pool : Pool N S U) (cs : List (List Int)) :
    ∃ json rest, cut '\n' (dimacsText T pool cs) = "c KEY".toList :: ('c' :: ' ' :: json) :: rest ∧
      JsonObject json (pool.idToPackage.map (fun e => (intText e.1, T.name e.2.name ++ ' ' :: T.version e.2.version))) := by
  refine ⟨'{' :: (joinWith [',', ' '] (pool.idToPackage.map (dimacsKeyItem T)) ++ ['}']), _, dimacs_lines T pool cs, ?_⟩
  cases hd : pool.idToPackage with
  | nil => exact .empty
  | cons e es =>
    refine .items ?_
    clear hd
    induction es generalizing e with
    | nil => exact .one (jsonString_spec _) (jsonString_spec _)
    | cons e' es ih =>
      have := JsonItems.cons (jsonString_spec (intText e.1)) (jsonString_spec (T.name e.2.name ++ ' ' :: T.version e.2.version)) (ih e')
      rw [List.map_cons, List.map_cons, joinWith]
      simpa [dimacsKeyItem] using this

/-! ### the announcement -/

theorem fromkeys_card {l : List Int} (h : ∀ x ∈ l, 0 ≤ x) : (fromkeys l).length = (l.map Int.natAbs).toFinset.card := by
  have hnd : ((fromkeys l).map Int.natAbs).Nodup := by
    rw [List.nodup_map_iff_inj_on (nodup_fromkeys l)]
    intro x hx y hy e
    rw [mem_fromkeys] at hx hy
    have := h x hx
    have := h y hy
    omega
  have e : (l.map Int.natAbs).toFinset = ((fromkeys l).map Int.natAbs).toFinset := by
    ext i
    simp [mem_fromkeys]
  rw [e, List.toFinset_card_of_nodup hnd, List.length_map]

/-- C93 (partial): the announcement is right exactly if the variables that occur are 1, …, n for some n, without gaps. What is
missing: it should always be right, but the number announced is the number of the variables that occur, and not the greatest
one; see `C93_violated_header`. -/
theorem C93_header_partial (T : Texts N U) (pool : Pool N S U) {cs : List (List Int)} (h : ∀ c ∈ cs, ∀ l ∈ c, l ≠ 0) {p : Problem}
    (hp : Dimacs.read (dimacsText T pool cs) = some p) :
    p.HeaderOK ↔ ∃ n : Nat, ∀ i : Nat, (∃ c ∈ cs, ∃ l ∈ c, l.natAbs = i) ↔ 1 ≤ i ∧ i ≤ n := by
  rw [read_dimacs T pool h] at hp
  cases hp
  have hcard := fromkeys_card (l := cs.flatMap (fun c => c.map iabs)) (by
    intro x hx
    simp only [List.mem_flatMap, List.mem_map] at hx
    obtain ⟨c, -, l, -, rfl⟩ := hx
    unfold iabs; omega)
  generalize hF : ((cs.flatMap (fun c => c.map iabs)).map Int.natAbs).toFinset = F at hcard
  have hmem : ∀ i, i ∈ F ↔ ∃ c ∈ cs, ∃ l ∈ c, l.natAbs = i := by
    intro i
    rw [← hF]
    simp only [List.mem_toFinset, List.mem_map, List.mem_flatMap]
    constructor
    · rintro ⟨x, ⟨c, hc, l, hl, rfl⟩, rfl⟩
      exact ⟨c, hc, l, hl, by unfold iabs; omega⟩
    · rintro ⟨c, hc, l, hl, rfl⟩
      exact ⟨_, ⟨c, hc, l, hl, rfl⟩, by unfold iabs; omega⟩
  constructor
  · intro hok
    refine ⟨numVars cs, ?_⟩
    have hsub : F ⊆ Finset.Icc 1 (numVars cs) := by
      intro i hi
      obtain ⟨c, hc, l, hl, rfl⟩ := (hmem i).1 hi
      rw [Finset.mem_Icc]
      exact hok.vars c hc l hl
    have heq : F = Finset.Icc 1 (numVars cs) := by
      refine Finset.eq_of_subset_of_card_le hsub ?_
      rw [Nat.card_Icc, ← hcard]
      unfold numVars
      omega
    intro i
    rw [← hmem, heq, Finset.mem_Icc]
  · rintro ⟨n, hn⟩
    have heq : F = Finset.Icc 1 n := by
      ext i
      rw [hmem, hn, Finset.mem_Icc]
    have hv : numVars cs = n := by
      unfold numVars
      rw [hcard, heq, Nat.card_Icc]
      omega
    refine ⟨rfl, ?_⟩
    intro c hc l hl
    show _ ∧ _ ≤ numVars cs
    rw [hv]
    exact (hn _).1 ⟨c, hc, l, hl, rfl⟩

/-! ### the problem -/

section
variable {rs : List (Repository N S U)} {s : DependencySolver N S U} (hs : SolverFor rs s)
include hs

theorem satSolver_ok {o : Orders} {q : Request N U} {sv : Sat.Solver} {reqs : List Nat} (h : s.satSolver o q = .ok (sv, reqs)) :
    ∃ st, createRules s o (s.solvePool q) (convertUpgrade q s.remote s.installed) = .ok st ∧
      SetupSpec rs s (s.solvePool q) (effectiveJobs s q) st ∧ reqs = st.requirementIds ∧
      clauseLists sv = st.clauses.map fromkeys ∧ (∀ c ∈ clauseLists sv, ∀ l ∈ c, l ≠ 0) := by
  unfold DependencySolver.satSolver at h
  split at h
  · simp at h
  · next st hst =>
    split at h
    · simp at h
    · next sv' hsv =>
      simp only [Except.ok.injEq, Prod.mk.injEq] at h
      obtain ⟨rfl, rfl⟩ := h
      have hb := hs.solvePool q
      have hsp := createRules_spec hb hs hst
      have e := fromRules_clauses hsv
      have hne : nonempty (st.gen.rules.map Rule.literals) = st.clauses := by
        unfold nonempty
        refine List.filter_eq_self.2 ?_
        intro c hc
        rw [decide_eq_true_eq]
        exact hsp.hne hb c hc
      rw [hne] at e
      refine ⟨st, hst, hsp, rfl, e, ?_⟩
      intro c hc l hl
      rw [e] at hc
      obtain ⟨d, hd, rfl⟩ := List.mem_map.1 hc
      exact hsp.hnz hb d hd l ((mem_fromkeys _ _).1 hl)

omit hs in
theorem sat_fromkeys {m : Nat → Bool} {F : List (List Int)} : Sat m (F.map fromkeys) ↔ Sat m F := by
  unfold Sat SatC
  constructor
  · intro h c hc
    obtain ⟨l, hl, ht⟩ := h _ (List.mem_map.2 ⟨c, hc, rfl⟩)
    exact ⟨l, (mem_fromkeys _ _).1 hl, ht⟩
  · intro h c hc
    obtain ⟨d, hd, rfl⟩ := List.mem_map.1 hc
    obtain ⟨l, hl, ht⟩ := h d hd
    exact ⟨l, (mem_fromkeys _ _).2 hl, ht⟩

/-- C93: the problem in the file that is written for the SAT solver of a request can be solved exactly if there is a valid
installation for the request. -/
theorem C93_problem (T : Texts N U) {o : Orders} {q : Request N U} {sv : Sat.Solver} {reqs : List Nat}
    (h : s.satSolver o q = .ok (sv, reqs)) :
    ∃ p, Dimacs.read (dimacsText T (s.solvePool q) (clauseLists sv)) = some p ∧ (Satisfiable p.clauses ↔ ∃ I, Solves rs s q I) := by
  obtain ⟨st, hst, -, -, e, hnz⟩ := satSolver_ok hs h
  refine ⟨_, read_dimacs T (s.solvePool q) hnz, ?_⟩
  rw [← clauses_iff hs hst]
  show (∃ m, Sat m (clauseLists sv)) ↔ _
  rw [e]
  simp only [sat_fromkeys]
  exact Iff.rfl

/-- C93: if there is no SAT solver for the request because its rules contradict each other at once, there is no valid
installation; no other error of the SAT solver occurs. -/
theorem C93_contradiction {o : Orders} {q : Request N U} {e : Sat.Err} (h : s.satSolver o q = .error (.sat e)) :
    (∃ u, e = .satisfiability u) ∧ ¬ ∃ I, Solves rs s q I := by
  unfold DependencySolver.satSolver at h
  split at h
  · simp at h
  · next st hst =>
    have hb := hs.solvePool q
    have hsp := createRules_spec hb hs hst
    rw [← clauses_iff hs hst]
    split at h
    · next e' he =>
      simp only [Except.error.injEq, SErr.sat.injEq] at h
      subst h
      rcases fromRules_head (U := varsOf st.clauses) (D := fun _ _ => True) st.clauses (hsp.hnz hb) (fun v hv => hv) with
        ⟨s, h1, -⟩ | ⟨u, h1, h2⟩
      · have h1 : Sat.Solver.fromRules (st.gen.rules.map Rule.literals) = .ok s := h1
        rw [h1] at he; cases he
      · have h1 : Sat.Solver.fromRules (st.gen.rules.map Rule.literals) = .error (.satisfiability u) := h1
        rw [h1] at he; cases he
        refine ⟨⟨u, rfl⟩, ?_⟩
        rintro ⟨m, hm⟩
        exact h2 ⟨m, fun c hc => hm c (List.mem_filter.1 hc).1⟩
    · simp at h

omit hs in
/-- C93: what is written is the problem that `solve` works on: `solve` fails where the SAT solver cannot be made, and otherwise
it searches with this solver. -/
theorem C93_same_solver (o : Orders) (q : Request N U) : s.solve o q =
    match s.satSolver o q with
    | .error e => .error e
    | .ok (sv, reqs) =>
      match createRules s o (s.solvePool q) (convertUpgrade q s.remote s.installed) with
      | .error e => .error (.pkg e)
      | .ok st =>
        match sv.search (Sat.packagePolicy (idVersion (s.solvePool q)) o.policy)
          (searchFuel st.clauses st.prefer st.reqs) (Sat.PolState.start st.prefer st.reqs) with
        | .error (e, _) => .error (.sat e)
        | .ok (_, a) => liftP (finish s o (s.solvePool q) reqs a) := by
  rw [solve_stages]
  unfold DependencySolver.satSolver
  cases createRules s o (s.solvePool q) (convertUpgrade q s.remote s.installed) with
  | error e => rfl
  | ok st =>
    simp only
    have e : search o (s.solvePool q) st = Sat.solveRules (Sat.packagePolicy (idVersion (s.solvePool q)) o.policy)
      (searchFuel st.clauses st.prefer st.reqs) (Sat.PolState.start st.prefer st.reqs) (st.gen.rules.map Rule.literals) := rfl
    rw [e]
    unfold Sat.solveRules
    cases Sat.Solver.fromRules (st.gen.rules.map Rule.literals) with
    | error e => rfl
    | ok sv =>
      simp only
      cases sv.search (Sat.packagePolicy (idVersion (s.solvePool q)) o.policy)
          (searchFuel st.clauses st.prefer st.reqs) (Sat.PolState.start st.prefer st.reqs) with
      | error e => rfl
      | ok a => rfl

/-! ### the answer -/

/-- the assignment that a list of literals stands for -/
def asetOf (L : List Int) : ASet :=
  { ASet.empty with
    data := fun l => if l ∈ L then some true else if -l ∈ L then some false else none
    seen := fromkeys (L.map iabs) }

omit hs in
theorem asetOf_true {L : List Int} (l : Int) : (asetOf L).value l = some true ↔ l ∈ L := by
  show (if l ∈ L then some true else if -l ∈ L then some false else none) = some true ↔ _
  by_cases h : l ∈ L
  · simp [h]
  · by_cases h' : -l ∈ L <;> simp [h, h']

omit hs in
theorem asetOf_false {L : List Int} (hc : ∀ l ∈ L, -l ∉ L) (l : Int) : (asetOf L).value l = some false ↔ -l ∈ L := by
  show (if l ∈ L then some true else if -l ∈ L then some false else none) = some false ↔ _
  by_cases h : l ∈ L
  · simp [h, hc l h]
  · by_cases h' : -l ∈ L <;> simp [h, h']

omit hs in
theorem asetOf_none {L : List Int} (l : Int) : (asetOf L).value l ≠ none ↔ l ∈ L ∨ -l ∈ L := by
  show (if l ∈ L then some true else if -l ∈ L then some false else none) ≠ none ↔ _
  by_cases h : l ∈ L
  · simp [h]
  · by_cases h' : -l ∈ L <;> simp [h, h']

omit hs in
theorem asetOf_ids {L : List Int} (h0 : ∀ l ∈ L, l ≠ 0) (hc : ∀ l ∈ L, -l ∉ L) (l : Int) :
    l ∈ solutionToIds (asetOf L) ↔ l ∈ L := by
  unfold solutionToIds ASet.items
  rw [mem_sortBy, List.mem_map]
  simp only [List.mem_map, isort_mem]
  have hseen : ∀ k, k ∈ (asetOf L).seen ↔ ∃ x ∈ L, iabs x = k := by
    intro k
    show k ∈ fromkeys (L.map iabs) ↔ _
    rw [mem_fromkeys, List.mem_map]
  constructor
  · rintro ⟨_, ⟨k, hk, rfl⟩, rfl⟩
    obtain ⟨x, hx, rfl⟩ := (hseen k).1 hk
    have hd : (asetOf L).data (iabs x) = some true ↔ iabs x ∈ L := asetOf_true (iabs x)
    simp only
    split
    · next h => exact hd.1 h
    · next h =>
      rw [hd] at h
      by_cases hp : x < 0
      · have e : iabs x = -x := by unfold iabs; omega
        rw [e, neg_neg]; exact hx
      · have e : iabs x = x := by unfold iabs; omega
        rw [e] at h
        exact absurd hx h
  · intro hl
    refine ⟨_, ⟨iabs l, (hseen _).2 ⟨l, hl, rfl⟩, rfl⟩, ?_⟩
    have hd : (asetOf L).data (iabs l) = some true ↔ iabs l ∈ L := asetOf_true (iabs l)
    simp only
    have := h0 l hl
    have hn := hc l hl
    by_cases hp : l < 0
    · have e : iabs l = -l := by unfold iabs; omega
      rw [if_neg (by rw [hd, e]; exact hn), e, neg_neg]
    · have e : iabs l = l := by unfold iabs; omega
      rw [if_pos (by rw [hd, e]; exact hl), e]

/-- An answer of a SAT solver to the clauses `cs`: each variable that occurs has one value, and every clause has a true
literal. -/
structure Answer (cs : List (List Int)) (L : List Int) : Prop where
  nonzero : ∀ l ∈ L, l ≠ 0
  consistent : ∀ l ∈ L, -l ∉ L
  total : ∀ c ∈ cs, ∀ l ∈ c, l ∈ L ∨ -l ∈ L
  sat : ∀ c ∈ cs, ∃ l ∈ c, l ∈ L

omit hs in
theorem found_of_answer {rs : List (Repository N S U)} {pool : Pool N S U} {st : Setup N S U} {L : List Int} {m : Option (Modifiers N)} (hb : Built rs m pool)
    (hL : Answer st.clauses L) (hk : ∀ l ∈ L, ∃ q, pool.packageId q = .ok l.natAbs) : FoundSpec rs pool st (asetOf L) := by
  have ids := asetOf_ids hL.nonzero hL.consistent
  have hf := fun l => asetOf_false hL.consistent l
  refine ⟨?_, ?_, ?_, ?_, ?_, ?_, ?_, ?_⟩
  · intro c hc
    obtain ⟨l, hl, hin⟩ := hL.sat c hc
    refine ⟨l, hl, ?_⟩
    have := hL.nonzero l hin
    have hn := hL.consistent l hin
    show decide ((asetOf L).value ((l.natAbs : Nat) : Int) = some true) = decide (0 < l)
    rw [decide_eq_decide, asetOf_true]
    by_cases hp : 0 < l
    · have e : ((l.natAbs : Nat) : Int) = l := by omega
      rw [e]; simp [hp, hin]
    · have e : ((l.natAbs : Nat) : Int) = -l := by omega
      rw [e]; simp [hp, hn]
  · intro v hv
    have : ∃ q, pool.packageId q = .ok v.natAbs := by
      rcases (asetOf_none v).1 hv with h | h
      · exact hk v h
      · obtain ⟨q, hq⟩ := hk _ h
        rw [Int.natAbs_neg] at hq
        exact ⟨q, hq⟩
    obtain ⟨q, hq⟩ := this
    obtain ⟨-, -, p, -, -, h1, h2⟩ := hb.ok.ids.packageId_spec hq
    exact ⟨p, h1, h2⟩
  · intro i; rw [ids, asetOf_true]
  · intro i; rw [ids, hf]
  · intro v hv
    obtain ⟨c, hc, l, hl, rfl⟩ := (mem_varsOf _ _).1 hv
    rw [asetOf_none]
    have := hL.total c hc l hl
    rcases (show iabs l = l ∨ iabs l = -l by unfold iabs; omega) with e | e
    · rw [e]; exact this
    · rw [e, neg_neg]; exact this.symm
  · intro l hl
    rw [ids] at hl
    rw [asetOf_true, hf, neg_neg]
    have := hL.nonzero l hl
    rcases Int.lt_or_gt_of_ne this with h | h
    · exact Or.inr ⟨h, hl⟩
    · exact Or.inl ⟨h, hl⟩
  · unfold solutionToIds
    rw [(sortBy_perm _ _).nodup_iff]
    unfold ASet.items
    rw [List.map_map, List.Nodup, List.pairwise_map]
    have hsnd : (ASet.isort (asetOf L).seen).Nodup := by
      rw [(isort_perm _).nodup_iff]; exact nodup_fromkeys _
    refine List.Pairwise.imp_of_mem ?_ hsnd
    have hpos : ∀ x ∈ (asetOf L).seen, 0 < x := by
      intro x hx
      have hx : x ∈ fromkeys (L.map iabs) := hx
      rw [mem_fromkeys, List.mem_map] at hx
      obtain ⟨l, hl, rfl⟩ := hx
      have := hL.nonzero l hl
      unfold iabs
      omega
    intro x y hx hy hne
    rw [isort_mem] at hx hy
    have hx0 := hpos x hx
    have hy0 := hpos y hy
    simp only [Function.comp]
    split <;> split <;> omega
  · intro l
    show (if -l ∈ L then some true else if - -l ∈ L then some false else none) =
      (if l ∈ L then some true else if -l ∈ L then some false else none).map (!·)
    rw [neg_neg]
    by_cases h : l ∈ L
    · simp [h, hL.consistent l h]
    · by_cases h' : -l ∈ L <;> simp [h, h']

omit hs in
theorem Pruned.congr {pool : Pool N S U} {L L' : List Int} {rootIds : List Nat} {D : List Int} {name : N → Option Int}
    {included : List Int} (h : Pruned pool L rootIds D name included) (he : ∀ l, l ∈ L' ↔ l ∈ L) :
    Pruned pool L' rootIds D name included :=
  ⟨fun n l hn => by rw [he]; exact h.nameSound n l hn, fun l hl => h.nameComplete l ((he l).1 hl), h.roots, h.closed, h.least,
    fun l => by rw [he]; exact h.decided l⟩

theorem answer_completed {o o' : Orders} {q : Request N U} {sv : Sat.Solver} {reqs : List Nat} (h : s.satSolver o q = .ok (sv, reqs))
    {L : List Int} (hL : Answer (clauseLists sv) L) (hk : ∀ l ∈ L, ∃ p, (s.solvePool q).packageId p = .ok l.natAbs)
    {t : Transaction N S U} (ht : fromDimacsSolution o' (s.solvePool q) s.installed reqs L = .ok t) :
    ∃ st inst D, Completed rs { s with usePruning := true } (activeModifiers q.modifiers) (effectiveJobs s q) (s.solvePool q) st
      (asetOf L) inst D ∧ mkTransaction (s.solvePool q) D inst = .ok t := by
  obtain ⟨st, -, hsp, rfl, e, -⟩ := satSolver_ok hs h
  have hb := hs.solvePool q
  have hL' : Answer st.clauses L := by
    rw [e] at hL
    refine ⟨hL.nonzero, hL.consistent, ?_, ?_⟩
    · intro c hc l hl
      exact hL.total _ (List.mem_map.2 ⟨c, hc, rfl⟩) l ((mem_fromkeys _ _).2 hl)
    · intro c hc
      obtain ⟨l, hl, hin⟩ := hL.sat _ (List.mem_map.2 ⟨c, hc, rfl⟩)
      exact ⟨l, (mem_fromkeys _ _).1 hl, hin⟩
  unfold fromDimacsSolution at ht
  simp only [bind_ok] at ht
  obtain ⟨ids, h1, D, h2, h3⟩ := ht
  have hinst : ∀ i, i ∈ o'.installed (fromkeys ids) ↔ ∃ p ∈ s.installed.iter, (s.solvePool q).packageId p = .ok i := by
    intro i
    rw [(o'.installedPerm _).mem_iff, mem_fromkeys, mem_mapE h1]
  obtain ⟨name, included, hp⟩ := connectedPackages_spec h2
  refine ⟨st, _, D, ⟨hb, ⟨hsp.ids, hsp.inst, hsp.known, hsp.gen, hsp.possible, hsp.reqs, hsp.preferNodup, hsp.prefer, hsp.preferSorted⟩,
    found_of_answer hb hL' hk, hinst, ?_⟩, h3⟩
  rw [if_pos rfl]
  refine ⟨supdate (o'.installed (fromkeys ids)) st.requirementIds, name, included,
    fun i => by rw [mem_supdate]; exact or_comm, ?_⟩
  exact Pruned.congr hp (asetOf_ids hL.nonzero hL.consistent)

/-- C93 (partial): every answer of the external solver gives a transaction that leads to a valid installation for the request,
under the conditions of C41. What is missing: see C41, whose counterexamples apply. -/
theorem C93_answer_partial (T : Texts N U) {o o' : Orders} {q : Request N U} {sv : Sat.Solver} {reqs : List Nat}
    (h : s.satSolver o q = .ok (sv, reqs)) {p : Problem} (hp : Dimacs.read (dimacsText T (s.solvePool q) (clauseLists sv)) = some p)
    {L : List Int} (hL : Answer p.clauses L) (hk : ∀ l ∈ L, ∃ p, (s.solvePool q).packageId p = .ok l.natAbs) {t : Transaction N S U}
    (ht : fromDimacsSolution o' (s.solvePool q) s.installed reqs L = .ok t)
    (hE : Exclusive (allPackages rs) (some q.modifiers)) (hT : Tidy (allPackages rs) (InstalledKeys s) (effectiveJobs s q))
    (hM : SameMetadata (allPackages rs) (InstalledKeys s)) : Solves rs s q (Result s t) := by
  obtain ⟨-, -, -, -, -, hnz⟩ := satSolver_ok hs h
  rw [read_dimacs T _ hnz] at hp
  cases hp
  obtain ⟨st, inst, D, hc, ht'⟩ := answer_completed hs h hL hk ht
  rw [← exclusive_active] at hE
  rw [solves_active]
  exact completed_valid hc ht' rfl hE hT hM

/-- C93: whatever the pool, the transaction made of an answer satisfies every job of the request, if packages of the same name
and version have the same metadata. -/
theorem C93_jobs_satisfied (T : Texts N U) {o o' : Orders} {q : Request N U} {sv : Sat.Solver} {reqs : List Nat}
    (h : s.satSolver o q = .ok (sv, reqs)) {p : Problem} (hp : Dimacs.read (dimacsText T (s.solvePool q) (clauseLists sv)) = some p)
    {L : List Int} (hL : Answer p.clauses L) (hk : ∀ l ∈ L, ∃ p, (s.solvePool q).packageId p = .ok l.natAbs) {t : Transaction N S U}
    (ht : fromDimacsSolution o' (s.solvePool q) s.installed reqs L = .ok t)
    (hM : SameMetadata (allPackages rs) (InstalledKeys s)) {j : Job N U} (hj : j ∈ effectiveJobs s q) :
    JobSatisfied (allPackages rs) (InstalledKeys s) (Result s t) j := by
  obtain ⟨-, -, -, -, -, hnz⟩ := satSolver_ok hs h
  rw [read_dimacs T _ hnz] at hp
  cases hp
  obtain ⟨st, inst, D, hc, ht'⟩ := answer_completed hs h hL hk ht
  exact completed_jobs hc ht' hM hj

end

/-! ### the script -/

/-- C93 is violated by the script as a whole: whatever the repositories, `initialize` raises; if they can be entered into a
pool, it is TypeError, about the argument `policy` that `DependencySolver` does not have. -/
theorem C93_violated_initialize (remote : List (Repository N S U)) (installed : Repository N S U) :
    (∃ e, dimacsInitialize remote installed = .error e) ∧
    ((∃ m pool, Built (remote ++ [installed]) m pool) → dimacsInitialize remote installed = .error .typeError) := by
  unfold dimacsInitialize
  cases hp : Pool.addRepositories (remote ++ [installed]) (Pool.empty none) with
  | mk pool x =>
  cases x with
  | some e =>
    refine ⟨⟨e, rfl⟩, ?_⟩
    rintro ⟨m, pool', m0, pool0, hb, -⟩
    have h1 := (C34_versioned_provides_rejected (remote ++ [installed]) (Pool.empty m0)).1 (by rw [hb])
    have h2 := (C34_versioned_provides_rejected (remote ++ [installed]) (Pool.empty none)).2 h1
    rw [hp] at h2
    cases h2
  | none =>
    simp only
    have hb : Built (remote ++ [installed]) pool.modifiers pool := ⟨none, pool, hp, rfl⟩
    obtain ⟨ids, hids⟩ := mapE_ok_of (f := pool.packageId) (xs := installed.iter) (by
      intro p hpi
      exact hb.ok.ids.packageId_ok ⟨p, List.mem_flatMap.2 ⟨installed, by simp, hpi⟩, rfl⟩)
    rw [hids]
    exact ⟨⟨_, rfl⟩, fun _ => rfl⟩

end Verif.Props
