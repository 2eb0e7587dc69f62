import Verif.Solve.Dimacs
import Verif.Solve.DimacsSpec
/-
Model of tools/minisat_helpers.py: rules are given to the program minisat, and its answer is read.

The program is a function from the text of the problem to its exit code and the text of its answer; the files between them
are not modelled. Rules are given by their literals.
-/
namespace Verif.Solve
open Verif Verif.Pkg Verif.Dimacs

variable {N S U : Type} [DecidableEq N] [DecidableEq S] [LinearOrder U] [Syntax S U]

/-- `" ".join(str(i) for i in rule.literals) + " 0\n"`; minisat_helpers.py:22 -/
def ruleLine (lits : List Int) : List Char := joinWith [' '] (lits.map intText) ++ [' ', '0', '\n']

/-- `rules_set_to_dimacs(pool, rules, fp)`: the text that is written; minisat_helpers.py:6-22 -/
def rulesToDimacs (pool : Pool N S U) (rules : List (List Int)) : List Char :=
  "c written by new_solver\n".toList ++ ("p cnf ".toList ++ intText pool.nextId ++ ' ' :: intText rules.length ++ ['\n']) ++
    rules.flatMap ruleLine

/-- the exceptions -/
inductive MinisatErr where
  | assertion
  | valueError
deriving DecidableEq

/-- the program: the exit code and the answer for a problem -/
abbrev Minisat := List Char → Nat × List Char

/-- `fp.readline()`: a line with its line feed, and the rest -/
def readLine : List Char → List Char × List Char
  | [] => ([], [])
  | c :: s => if c = '\n' then (['\n'], s) else
    let r := readLine s
    (c :: r.1, r.2)

/-- `str.split()`; the white space of ASCII -/
def splitBlank (s : List Char) : List (List Char) :=
  (cut ' ' (s.map (fun c => if c ∈ ['\t', '\n', '\r', '\x0b', '\x0c', '\x1c', '\x1d', '\x1e', '\x1f'] then ' ' else c))).filter
    (fun w => decide (w ≠ []))

/-- `[int(value) for value in values]`. (Numerals with a plus sign, underscores or foreign digits count as errors here.) -/
def ints : List (List Char) → Except MinisatErr (List Int)
  | [] => .ok []
  | w :: ws => match readInt w with
    | none => .error .valueError
    | some i => match ints ws with
      | .error e => .error e
      | .ok l => .ok (i :: l)

/-- `solution_to_package_strings(fp)`; minisat_helpers.py:40-48 -/
def readSolution (answer : List Char) : Except MinisatErr (List Int) :=
  let header := readLine answer
  if header.1 = "SAT\n".toList then ints (splitBlank (readLine header.2).1).dropLast else .error .assertion

/-- `solve_sat(pool, rules)`; minisat_helpers.py:25-37 -/
def solveSat (run : Minisat) (pool : Pool N S U) (rules : List (List Int)) : Except MinisatErr (List Int) :=
  let r := run (rulesToDimacs pool rules)
  if r.1 = 10 then readSolution r.2 else .error .assertion

/-- `is_satisfable(pool, rules)`; minisat_helpers.py:51-62 -/
def isSatisfable (run : Minisat) (pool : Pool N S U) (rules : List (List Int)) : Except MinisatErr Bool :=
  let r := run (rulesToDimacs pool rules)
  if r.1 = 10 ∨ r.1 = 20 then .ok (decide (r.1 = 10)) else .error .assertion

end Verif.Solve
