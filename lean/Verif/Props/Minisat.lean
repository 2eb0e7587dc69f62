import Verif.Solve.Minisat
import Verif.Props.Dimacs
import Verif.Props.RulesGen
import Verif.Pkg.Example
/-
C112: rules that are solved by the program minisat.
-/
set_option linter.unusedSectionVars false
namespace Verif.Props
open Verif Verif.Pkg Verif.Rules Verif.Sat Verif.Solve Verif.Dimacs

/-! ### Specification: a correct program -/

/-- `lits` says of some variables up to `n` whether they are true, without contradiction, and makes each clause true -/
structure MinisatAnswer (n : Nat) (clauses : List (List Int)) (lits : List Int) : Prop where
  range : ∀ l ∈ lits, 1 ≤ l.natAbs ∧ l.natAbs ≤ n
  consistent : ∀ l ∈ lits, -l ∉ lits
  holds : ∀ c ∈ clauses, ∃ l ∈ c, l ∈ lits

/-- The program is correct: for a problem in the DIMACS format whose announcement is right it says whether it can be solved, by its
exit code, and in this case writes an answer. -/
structure CorrectMinisat (run : Minisat) : Prop where
  sat : ∀ text p, Dimacs.read text = some p → p.HeaderOK → Satisfiable p.clauses →
    ∃ lits, run text = (10, "SAT\n".toList ++ joinWith [' '] (lits.map intText ++ [['0']]) ++ ['\n']) ∧ MinisatAnswer p.vars p.clauses lits
  unsat : ∀ text p, Dimacs.read text = some p → p.HeaderOK → ¬ Satisfiable p.clauses → ∃ answer, run text = (20, answer)

/-! ### Proofs -/

variable {N S U : Type} [LinearOrder N] [DecidableEq S] [LinearOrder U] [Syntax S U]

/-- the line without its end -/
def ruleText (c : List Int) : List Char := joinWith [' '] (c.map intText) ++ [' ', '0']

theorem joinWith_snoc {sep x : List Char} : ∀ {l : List (List Char)}, l ≠ [] → joinWith sep (l ++ [x]) = joinWith sep l ++ sep ++ x
  | [], h => absurd rfl h
  | [y], _ => by simp [joinWith]
  | y :: z :: l, _ => by
    have := joinWith_snoc (sep := sep) (x := x) (l := z :: l) (by simp)
    rw [List.cons_append, List.cons_append, joinWith, ← List.cons_append, this, joinWith]
    simp

theorem ruleText_eq {c : List Int} (h : c ≠ []) : ruleText c = dimacsClause c := by
  unfold ruleText dimacsClause
  rw [joinWith_snoc (by simpa using h)]
  simp

theorem ruleText_words (c : List Int) : words [ruleText c] = c.map intText ++ [['0']] := by
  by_cases h : c = []
  · subst h; decide
  · rw [ruleText_eq h, clauseWords]

theorem ruleText_chars {c : List Int} {x : Char} (hx : x ∈ ruleText c) : x = ' ' ∨ x = '-' ∨ x.isDigit = true := by
  by_cases h : c = []
  · subst h
    have : x ∈ [' ', '0'] := hx
    simp only [List.mem_cons, List.not_mem_nil, or_false] at this
    rcases this with rfl | rfl
    · exact Or.inl rfl
    · exact Or.inr (Or.inr (by decide))
  · rw [ruleText_eq h] at hx
    exact clause_line hx

theorem ruleText_newline (c : List Int) : '\n' ∉ ruleText c := by
  intro h
  rcases ruleText_chars h with h | h | h <;> exact absurd h (by decide)

theorem ruleText_head (c : List Int) : (ruleText c).head? ≠ some 'c' := by
  intro h
  have : 'c' ∈ ruleText c := by
    cases hd : ruleText c with
    | nil => rw [hd] at h; simp at h
    | cons x xs => rw [hd] at h; simp at h; simp [h]
  rcases ruleText_chars this with h | h | h <;> exact absurd h (by decide)

theorem cut_rules : ∀ rules : List (List Int), cut '\n' (rules.flatMap ruleLine) = rules.map ruleText ++ [[]]
  | [] => rfl
  | c :: rules => by
    have e : (c :: rules).flatMap ruleLine = ruleText c ++ '\n' :: rules.flatMap ruleLine := by
      rw [List.flatMap_cons]
      unfold ruleLine ruleText
      simp
    rw [e, cut_append (ruleText_newline c), cut_rules rules]
    rfl

theorem rules_words : ∀ rules : List (List Int), words (rules.map ruleText) = rules.flatMap (fun c => c.map intText ++ [['0']])
  | [] => rfl
  | c :: cs => by
    rw [List.map_cons, ← List.singleton_append, words_append, ruleText_words, rules_words cs, List.flatMap_cons]

/-- the text is read as it is meant -/
theorem read_rules (pool : Pool N S U) {rules : List (List Int)} (h : ∀ c ∈ rules, ∀ l ∈ c, l ≠ 0) :
    Dimacs.read (rulesToDimacs pool rules) = some ⟨pool.nextId, rules.length, rules⟩ := by
  have hnum : ∀ n : Nat, '\n' ∉ intText (n : Int) := by
    intro n h
    rcases intText_chars h with h | h <;> exact absurd h (by decide)
  have hhead : '\n' ∉ "p cnf ".toList ++ intText pool.nextId ++ ' ' :: intText rules.length := by
    simp only [List.mem_append, List.mem_cons, not_or]
    exact ⟨⟨by decide, hnum _⟩, by decide, hnum _⟩
  have e : rulesToDimacs pool rules = "c written by new_solver".toList ++ '\n' :: (("p cnf ".toList ++ intText pool.nextId ++
      ' ' :: intText rules.length) ++ '\n' :: rules.flatMap ruleLine) := by
    unfold rulesToDimacs
    simp [show "c written by new_solver\n".toList = "c written by new_solver".toList ++ ['\n'] from rfl]
  have hcut : cut '\n' (rulesToDimacs pool rules) = "c written by new_solver".toList ::
      ("p cnf ".toList ++ intText pool.nextId ++ ' ' :: intText rules.length) :: (rules.map ruleText ++ [[]]) := by
    rw [e, cut_append (by decide), cut_append hhead, cut_rules]
  have hf : (cut '\n' (rulesToDimacs pool rules)).filter (fun l => decide (l.head? ≠ some 'c')) =
      ("p cnf ".toList ++ intText pool.nextId ++ ' ' :: intText rules.length) :: (rules.map ruleText ++ [[]]) := by
    rw [hcut, List.filter_cons_of_neg (by decide), List.filter_eq_self]
    intro l hl
    simp only [List.mem_cons, List.mem_append, List.mem_map, List.not_mem_nil, or_false] at hl
    rcases hl with rfl | ⟨c, -, rfl⟩ | rfl
    · show decide (some 'p' ≠ some 'c') = true
      decide
    · rw [decide_eq_true_eq]; exact ruleText_head c
    · decide
  unfold Dimacs.read
  rw [hf]
  simp only
  rw [header_words]
  simp only [and_self, if_true]
  have hw : words (rules.map ruleText ++ [[]]) = rules.flatMap (fun c => c.map intText ++ [['0']]) := by
    rw [words_append, rules_words]
    simp [words, cut]
  rw [readNat_intText, readNat_intText, hw, readNumbers]
  simp only
  rw [readClauses_all h]
  rfl

theorem readLine_eq {s t : List Char} (h : '\n' ∉ s) : readLine (s ++ '\n' :: t) = (s ++ ['\n'], t) := by
  induction s with
  | nil => simp [readLine]
  | cons c s ih =>
    simp only [List.mem_cons, not_or] at h
    rw [List.cons_append, readLine, if_neg (fun e => h.1 e.symm), ih h.2]
    rfl

theorem ints_texts : ∀ l : List Int, ints (l.map intText) = .ok l
  | [] => rfl
  | i :: l => by
    rw [List.map_cons, ints, readInt_intText]
    simp only
    rw [ints_texts l]

theorem readSolution_eq (lits : List Int) :
    readSolution ("SAT\n".toList ++ joinWith [' '] (lits.map intText ++ [['0']]) ++ ['\n']) = .ok lits := by
  have hd : dimacsClause lits = joinWith [' '] (lits.map intText ++ [['0']]) := rfl
  rw [← hd]
  have hch : ∀ x ∈ dimacsClause lits, x = ' ' ∨ x = '-' ∨ x.isDigit = true := fun x hx => clause_line hx
  have hnl : '\n' ∉ dimacsClause lits := by
    intro h
    rcases hch _ h with h | h | h <;> exact absurd h (by decide)
  have e1 : readLine ("SAT\n".toList ++ dimacsClause lits ++ ['\n']) = ("SAT\n".toList, dimacsClause lits ++ ['\n']) :=
    readLine_eq (s := "SAT".toList) (t := dimacsClause lits ++ ['\n']) (by decide)
  unfold readSolution
  rw [e1]
  simp only [if_true]
  have e2 : readLine (dimacsClause lits ++ ['\n']) = (dimacsClause lits ++ ['\n'], []) := readLine_eq hnl
  rw [e2]
  simp only
  have hmap : (dimacsClause lits ++ ['\n']).map
      (fun c => if c ∈ ['\t', '\n', '\r', '\x0b', '\x0c', '\x1c', '\x1d', '\x1e', '\x1f'] then ' ' else c) = dimacsClause lits ++ [' '] := by
    rw [List.map_append]
    congr 1
    conv_rhs => rw [← List.map_id (dimacsClause lits)]
    apply List.map_congr_left
    intro x hx
    have hn : x ∉ ['\t', '\n', '\r', '\x0b', '\x0c', '\x1c', '\x1d', '\x1e', '\x1f'] := by
      intro h
      simp only [List.mem_cons, List.not_mem_nil, or_false] at h
      rcases hch x hx with h' | h' | h' <;> rcases h with rfl | rfl | rfl | rfl | rfl | rfl | rfl | rfl | rfl <;>
        exact absurd h' (by decide)
    rw [if_neg hn]
    rfl
  have hsplit : splitBlank (dimacsClause lits ++ ['\n']) = lits.map intText ++ [['0']] := by
    unfold splitBlank
    rw [hmap]
    have hw := clauseWords lits
    unfold words at hw
    rw [List.flatMap_singleton] at hw
    have hsp : ∀ (c : Char) (s : List Char), (cut c (s ++ [c])).filter (fun w => decide (w ≠ [])) =
        (cut c s).filter (fun w => decide (w ≠ [])) := by
      intro c s
      have : cut c (s ++ [c]) = cut c s ++ [[]] := by
        induction s with
        | nil => simp [cut]
        | cons x s ih =>
          rw [List.cons_append]
          unfold cut
          rw [ih]
          split
          · rfl
          · cases h : cut c s with
            | nil => exact absurd h (cut_ne_nil c s)
            | cons w ws => rfl
      rw [this, List.filter_append]
      simp
    rw [hsp, hw]
  rw [hsplit, List.dropLast_concat, ints_texts]

/-! ### C112 -/

/-- the rules are about packages of the pool: literals are neither zero nor larger than the ids -/
def RulesOf (pool : Pool N S U) (rules : List (List Int)) : Prop := ∀ c ∈ rules, ∀ l ∈ c, 1 ≤ l.natAbs ∧ l.natAbs < pool.nextId

theorem RulesOf.nz {pool : Pool N S U} {rules : List (List Int)} (h : RulesOf pool rules) : ∀ c ∈ rules, ∀ l ∈ c, l ≠ 0 :=
  fun c hc l hl e => by
    have := h c hc l hl
    rw [e] at this
    simp at this

/-- C112: the rules are written in the DIMACS format, all of them and literal by literal, with a right announcement. -/
theorem C112_written {pool : Pool N S U} {rules : List (List Int)} (h : RulesOf pool rules) :
    ∃ p, Dimacs.read (rulesToDimacs pool rules) = some p ∧ p.clauses = rules ∧ p.HeaderOK :=
  ⟨_, read_rules pool h.nz, rfl, rfl, fun c hc l hl => ⟨(h c hc l hl).1, Nat.le_of_lt (h c hc l hl).2⟩⟩

/-- C112: with a correct program, `is_satisfable` returns whether the rules can be satisfied. -/
theorem C112_is_satisfable {run : Minisat} (hrun : CorrectMinisat run) {pool : Pool N S U} {rules : List (List Int)}
    (h : RulesOf pool rules) : ∃ b, isSatisfable run pool rules = .ok b ∧ (b = true ↔ Satisfiable rules) := by
  obtain ⟨p, h1, h2, h3⟩ := C112_written h
  by_cases hs : Satisfiable rules
  · obtain ⟨lits, hr, -⟩ := hrun.sat _ p h1 h3 (by rw [h2]; exact hs)
    refine ⟨true, ?_, by simp [hs]⟩
    simp [isSatisfable, hr]
  · obtain ⟨a, hr⟩ := hrun.unsat _ p h1 h3 (by rw [h2]; exact hs)
    refine ⟨false, ?_, by simp [hs]⟩
    simp [isSatisfable, hr]

theorem MinisatAnswer.sat {n : Nat} {clauses : List (List Int)} {lits : List Int} (h : MinisatAnswer n clauses lits) :
    Sat (fun i => decide ((i : Int) ∈ lits)) clauses := by
  intro c hc
  obtain ⟨l, h1, h2⟩ := h.holds c hc
  refine ⟨l, h1, ?_⟩
  unfold litTrue
  have hr := (h.range l h2).1
  by_cases hl : 0 < l
  · have e : ((l.natAbs : Nat) : Int) = l := by omega
    simp [e, h2, hl]
  · have e : ((l.natAbs : Nat) : Int) = -l := by omega
    have := h.consistent l h2
    simp only [e, decide_eq_decide]
    simp [this, hl]

/-- C112: with a correct program, `solve_sat` returns literals about ids, no two of which contradict each other, and one of which is in
each rule; AssertionError means that the rules cannot be satisfied. -/
theorem C112_solve_sat {run : Minisat} (hrun : CorrectMinisat run) {pool : Pool N S U} {rules : List (List Int)}
    (h : RulesOf pool rules) :
    (∃ lits, solveSat run pool rules = .ok lits ∧ MinisatAnswer pool.nextId rules lits) ∨
    (solveSat run pool rules = .error .assertion ∧ ¬ Satisfiable rules) := by
  have hread := read_rules pool h.nz
  have hok : (⟨pool.nextId, rules.length, rules⟩ : Problem).HeaderOK :=
    ⟨rfl, fun c hc l hl => ⟨(h c hc l hl).1, Nat.le_of_lt (h c hc l hl).2⟩⟩
  by_cases hs : Satisfiable rules
  · obtain ⟨lits, hr, h1⟩ := hrun.sat _ _ hread hok hs
    refine Or.inl ⟨lits, ?_, h1⟩
    unfold solveSat
    rw [hr]
    simp only [if_true]
    exact readSolution_eq lits
  · obtain ⟨a, hr⟩ := hrun.unsat _ _ hread hok hs
    refine Or.inr ⟨?_, hs⟩
    unfold solveSat
    rw [hr]
    simp

section
variable {rs : List (Repository N S U)} {mods : Option (Modifiers N)} {pool : Pool N S U} (hb : Built rs mods pool)
  {jobs : List (Job N U)} {installed : Dict Nat (Package N S U)} {strict : Bool} {g : Gen N U}
include hb

/-- C112: the rules of a request are about packages of the pool, so that the theorems above apply to them. -/
theorem C112_rules_of_request (h : iterRules strict pool jobs installed = .ok g) : RulesOf pool (g.rules.map Rule.literals) := by
  intro c hc l hl
  obtain ⟨rule, hr, rfl⟩ := List.mem_map.1 hc
  obtain ⟨-, p, -, hp⟩ := (C38_literals hb h rule hr).2.2 l hl
  obtain ⟨h1, h2, -⟩ := hb.ok.ids.packageId_spec hp
  have := hb.ok.ids.next
  exact ⟨h1, by omega⟩

/-- C112: for the rules of a request, the packages that the answer says are true, among those whose rules were generated, are a
valid installation; AssertionError means that there is none. -/
theorem C112_installation (hinst : InstalledIds pool installed) (h : iterRules strict pool jobs installed = .ok g)
    {run : Minisat} (hrun : CorrectMinisat run) :
    (∃ lits, solveSat run pool (g.rules.map Rule.literals) = .ok lits ∧
      ValidInstall (allPackages rs) mods (InstalledSet installed) jobs
        (fun k => ∃ p ∈ allPackages rs, p.key = k ∧ ∃ i ∈ g.added, pool.packageId p = .ok i ∧ (i : Int) ∈ lits)) ∨
    (solveSat run pool (g.rules.map Rule.literals) = .error .assertion ∧
      ¬ ∃ I, ValidInstall (allPackages rs) mods (InstalledSet installed) jobs I) := by
  rcases C112_solve_sat hrun (C112_rules_of_request hb h) with ⟨lits, h1, h2⟩ | ⟨h1, h2⟩
  · refine Or.inl ⟨lits, h1, ?_⟩
    have := C37_rules_are_complete hb hinst h _ h2.sat
    simpa only [decide_eq_true_eq] using this
  · exact Or.inr ⟨h1, fun hI => h2 ((C37_satisfiable_iff hb hinst h).2 hI)⟩

end

/-! ### A concrete case -/

section
open Classical

/-- a solution of clauses whose variables are up to `n`, as an answer -/
def answerOf (m : Nat → Bool) (n : Nat) : List Int := (List.range' 1 n).map (fun i => if m i then (i : Int) else -(i : Int))

theorem mem_answerOf {m : Nat → Bool} {n : Nat} {l : Int} : l ∈ answerOf m n ↔ 1 ≤ l.natAbs ∧ l.natAbs ≤ n ∧ litTrue m l := by
  unfold answerOf litTrue
  rw [List.mem_map]
  constructor
  · rintro ⟨i, hi, rfl⟩
    rw [List.mem_range'_1] at hi
    split
    · next h => refine ⟨by omega, by omega, ?_⟩; simp [h]; omega
    · next h =>
      refine ⟨by omega, by omega, ?_⟩
      rw [Int.natAbs_neg, Int.natAbs_natCast, Bool.eq_false_iff.2 h]
      symm; rw [decide_eq_false_iff_not]; omega
  · rintro ⟨h1, h2, h3⟩
    refine ⟨l.natAbs, by rw [List.mem_range'_1]; omega, ?_⟩
    rw [h3]
    by_cases hl : 0 < l
    · simp [hl]; omega
    · simp [hl]; omega

/-- an ideal program -/
noncomputable def idealMinisat : Minisat := fun text =>
  match Dimacs.read text with
  | none => (3, [])
  | some p => if h : Satisfiable p.clauses then
      (10, "SAT\n".toList ++ joinWith [' '] ((answerOf h.choose p.vars).map intText ++ [['0']]) ++ ['\n'])
    else (20, "UNSAT\n".toList)

/-- the hypothesis on the program can be met -/
theorem idealMinisat_correct : CorrectMinisat idealMinisat where
  sat text p h1 h2 h3 := by
    refine ⟨answerOf h3.choose p.vars, by simp [idealMinisat, h1, h3], ?_, ?_, ?_⟩
    · intro l hl
      rw [mem_answerOf] at hl
      exact ⟨hl.1, hl.2.1⟩
    · intro l hl hn
      rw [mem_answerOf] at hl hn
      have e1 := hl.2.2
      have e2 := hn.2.2
      unfold litTrue at e1 e2
      rw [Int.natAbs_neg, e1, decide_eq_decide] at e2
      omega
    · intro c hc
      obtain ⟨l, hl, ht⟩ := h3.choose_spec c hc
      exact ⟨l, hl, mem_answerOf.2 ⟨(h2.2 c hc l hl).1, (h2.2 c hc l hl).2, ht⟩⟩
  unsat text p h1 h2 h3 := ⟨"UNSAT\n".toList, by simp [idealMinisat, h1, h3]⟩

end

namespace MinisatExample
open RulesExample

/-- the text for the rules of a request -/
example : (match iterRules false pool [install 3] installed with
    | .ok g => some (String.ofList (rulesToDimacs pool (g.rules.map Rule.literals)))
    | .error _ => none) = some "c written by new_solver\np cnf 7 5\n-5 0\n5 0\n-4 -3 0\n-6 -3 0\n-6 -4 0\n" := by decide +kernel

/-- a program that answers that 1 and 6 are true -/
def answers : Minisat := fun _ => (10, "SAT\n1 -2 -3 -4 -5 6 0\n".toList)

example : solveSat answers pool [[-1, 3, 4, 6], [-2, -1], [1, 2]] = .ok [1, -2, -3, -4, -5, 6] := by decide +kernel
example : isSatisfable answers pool [[-1, 3, 4, 6], [-2, -1], [1, 2]] = .ok true := by decide +kernel

/-- the answer is one: 1-1 and the installed 2-1 -/
example : MinisatAnswer pool.nextId [[-1, 3, 4, 6], [-2, -1], [-4, -3], [-6, -3], [-6, -4], [-2, 4], [-5, -2], [1, 2]]
    [1, -2, -3, -4, -5, 6] := ⟨by decide +kernel, by decide +kernel, by decide +kernel⟩

/-- a request that can be satisfied: the ideal program's answer is a valid installation -/
example : ∃ g lits, iterRules false pool [install 1] installed = .ok g ∧
    solveSat idealMinisat pool (g.rules.map Rule.literals) = .ok lits ∧
      ValidInstall (allPackages [remote, inst]) none (InstalledSet installed) [install 1]
        (fun k => ∃ p ∈ allPackages [remote, inst], p.key = k ∧ ∃ i ∈ g.added, pool.packageId p = .ok i ∧ (i : Int) ∈ lits) := by
  have hg : ∃ g, iterRules false pool [install 1] installed = .ok g ∧
      g.rules.map Rule.literals = [[-1, 3, 4, 6], [-2, -1], [-4, -3], [-6, -3], [-6, -4], [-2, 4], [-5, -2], [1, 2]] :=
    ⟨_, rfl, by decide +kernel⟩
  obtain ⟨g, h1, h3⟩ := hg
  rcases C112_installation built installedIds h1 idealMinisat_correct with ⟨lits, h4, h5⟩ | ⟨-, h4⟩
  · exact ⟨g, lits, h1, h4, h5⟩
  · refine absurd ((C37_satisfiable_iff built installedIds h1).1 ⟨fun i => i == 1 || i == 6, ?_⟩) h4
    rw [h3]; unfold Sat SatC litTrue; decide +kernel

/-- one that cannot: 3-1 depends on what does not exist -/
example : ∃ g, iterRules false pool [install 3] installed = .ok g ∧
    solveSat idealMinisat pool (g.rules.map Rule.literals) = .error .assertion ∧
    isSatisfable idealMinisat pool (g.rules.map Rule.literals) = .ok false := by
  have hg : ∃ g, iterRules false pool [install 3] installed = .ok g ∧
      g.rules.map Rule.literals = [[-5], [5], [-4, -3], [-6, -3], [-6, -4]] := ⟨_, rfl, by decide +kernel⟩
  obtain ⟨g, h1, h3⟩ := hg
  have hn : ¬ Satisfiable (g.rules.map Rule.literals) := by
    rw [h3]
    rintro ⟨m, hm⟩
    obtain ⟨l, hl, h1⟩ := hm [-5] (by simp)
    obtain ⟨l', hl', h2⟩ := hm [5] (by simp)
    simp only [List.mem_singleton] at hl hl'
    subst hl hl'
    unfold litTrue at h1 h2
    simp at h1 h2
    rw [h1] at h2
    exact absurd h2 (by decide)
  refine ⟨g, h1, ?_, ?_⟩
  · rcases C112_solve_sat idealMinisat_correct (C112_rules_of_request built h1) with ⟨lits, -, h5⟩ | ⟨h4, -⟩
    · exact absurd ⟨_, h5.sat⟩ hn
    · exact h4
  · obtain ⟨b, h4, h5⟩ := C112_is_satisfable idealMinisat_correct (C112_rules_of_request built h1)
    cases b with
    | true => exact absurd (h5.1 rfl) hn
    | false => exact h4

end MinisatExample

end Verif.Props
