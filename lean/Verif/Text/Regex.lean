import Mathlib.Data.List.Basic
/-
The fragment of Python's regular expressions that simplesat uses, with the semantics of the backtracking matcher of the
module `re`: a pattern applied at a position of a string gives the list of the positions where it can end, in the order in
which the matcher tries them. `match` takes the first one; a pattern that comes after it makes the matcher go on with the
next one.
-/
namespace Verif.Text

/-- A Python string -/
abbrev Str := List Char

/-- A position in a string: the characters before it (the nearest first), those after it, and the groups captured so far
(the latest first). -/
structure St where
  pre : Str
  rest : Str
  caps : List (Nat × Str)
deriving DecidableEq

/-- the beginning of a string -/
def St.start (s : Str) : St := ⟨[], s, []⟩

inductive Re where
  | eps
  /-- one character of a class -/
  | cls (p : Char → Bool)
  | seq (a b : Re)
  /-- `a|b` -/
  | alt (a b : Re)
  /-- `a*`, greedy -/
  | star (a : Re)
  /-- `a*?` -/
  | lazyStar (a : Re)
  /-- `(?=a)` -/
  | ahead (a : Re)
  /-- `(?!a)` -/
  | nahead (a : Re)
  /-- `(?<!c)` for one character -/
  | nbehind (p : Char → Bool)
  /-- `$`: the end, or just before a newline at the end -/
  | eos
  /-- a capturing group -/
  | group (i : Nat) (a : Re)

namespace Re

/-- `a?` -/
def opt (a : Re) : Re := .alt a .eps
/-- `a+` -/
def plus (a : Re) : Re := .seq a (.star a)
/-- one given character -/
def chr (c : Char) : Re := .cls (fun x => x == c)
/-- a given text -/
def lit : List Char → Re
  | [] => .eps
  | [c] => chr c
  | c :: cs => .seq (chr c) (lit cs)

/-- `a*` for the matcher `f` of `a`: as many as possible first. An iteration that consumes nothing is not continued (no
pattern of simplesat has one). -/
def starRun (f : St → List St) : Nat → St → List St
  | 0, s => [s]
  | fuel + 1, s => (((f s).filter (fun x => decide (x.rest.length < s.rest.length))).flatMap (starRun f fuel)) ++ [s]

/-- `a*?`: as few as possible first -/
def lazyRun (f : St → List St) : Nat → St → List St
  | 0, s => [s]
  | fuel + 1, s => s :: ((f s).filter (fun x => decide (x.rest.length < s.rest.length))).flatMap (lazyRun f fuel)

/-- All the ways in which the pattern matches at the position, in the order in which they are tried. -/
def run : Re → St → List St
  | .eps, s => [s]
  | .cls p, s => match s.rest with
    | [] => []
    | c :: cs => if p c then [⟨c :: s.pre, cs, s.caps⟩] else []
  | .seq a b, s => (run a s).flatMap (run b)
  | .alt a b, s => run a s ++ run b s
  | .star a, s => starRun (run a) s.rest.length s
  | .lazyStar a, s => lazyRun (run a) s.rest.length s
  | .ahead a, s => if (run a s).isEmpty then [] else [s]
  | .nahead a, s => if (run a s).isEmpty then [s] else []
  | .nbehind p, s => match s.pre with
    | [] => [s]
    | c :: _ => if p c then [] else [s]
  | .eos, s => if s.rest = [] ∨ s.rest = ['\n'] then [s] else []
  | .group i a, s =>
    (run a s).map (fun x => { x with caps := (i, s.rest.take (s.rest.length - x.rest.length)) :: x.caps })

/-- `re.match(r, s)` at the beginning, or `scanner.match()` at the current position -/
def first (r : Re) (s : St) : Option St := (run r s).head?

end Re

/-- `m.group(i)`: the last text captured by the group -/
def St.cap (s : St) (i : Nat) : Option Str := (s.caps.find? (fun kv => kv.1 == i)).map Prod.snd

end Verif.Text
