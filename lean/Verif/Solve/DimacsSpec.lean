import Verif.Sat.Spec
import Mathlib.Data.List.Forall2
/-
The DIMACS format, written down independently of the code: how a solver reads it. And what JSON texts stand for.
-/
namespace Verif.Dimacs

/-- cut a text at every occurrence of a character -/
def cut (c : Char) : List Char → List (List Char)
  | [] => [[]]
  | x :: xs => if x = c then [] :: cut c xs else
    match cut c xs with
    | [] => [[x]]
    | w :: ws => (x :: w) :: ws

/-- a decimal numeral -/
def readNat (s : List Char) : Option Nat :=
  if s ≠ [] ∧ s.all Char.isDigit then some (s.foldl (fun n c => 10 * n + (c.toNat - 48)) 0) else none

/-- a decimal numeral, perhaps with a minus sign -/
def readInt (s : List Char) : Option Int :=
  match s with
  | [] => none
  | c :: rest => if c = '-' then (readNat rest).map (fun n => -(n : Int)) else (readNat (c :: rest)).map (fun n => (n : Int))

/-- the clauses: each one ends with a zero -/
def readClauses : List Int → Option (List (List Int))
  | [] => some []
  | x :: xs => if x = 0 then (readClauses xs).map ([] :: ·) else
    match readClauses xs with
    | some (c :: cs) => some ((x :: c) :: cs)
    | _ => none

/-- A problem in the DIMACS format: the numbers of variables and clauses that are announced, and the clauses -/
structure Problem where
  vars : Nat
  count : Nat
  clauses : List (List Int)
deriving DecidableEq

/-- The words of a text -/
def words (lines : List (List Char)) : List (List Char) := (lines.flatMap (cut ' ')).filter (fun w => decide (w ≠ []))

/-- Reading a file: lines that begin with `c` are comments; the first of the others announces the numbers, after the words
`p` and `cnf`; then come the clauses. -/
def read (text : List Char) : Option Problem :=
  match (cut '\n' text).filter (fun l => decide (l.head? ≠ some 'c')) with
  | [] => none
  | first :: rest =>
    match words [first] with
    | [p, cnf, v, n] =>
      if p = ['p'] ∧ cnf = ['c', 'n', 'f'] then
        match readNat v, readNat n, (words rest).mapM readInt with
        | some v, some n, some numbers => (readClauses numbers).map (fun cs => ⟨v, n, cs⟩)
        | _, _, _ => none
      else none
    | _ => none

/-- The announcement is right: as many clauses as announced, and the variables are among the numbers 1, 2, … up to the
announced one. -/
structure Problem.HeaderOK (p : Problem) : Prop where
  count : p.clauses.length = p.count
  vars : ∀ c ∈ p.clauses, ∀ l ∈ c, 1 ≤ l.natAbs ∧ l.natAbs ≤ p.vars

/-! JSON (RFC 8259, section 7) -/

/-- the value of four hexadecimal digits -/
def HexValue (s : List Char) (n : Nat) : Prop :=
  ∃ a b c d : Nat, a < 16 ∧ b < 16 ∧ c < 16 ∧ d < 16 ∧ s = [a.digitChar, b.digitChar, c.digitChar, d.digitChar] ∧
    n = 4096 * a + 256 * b + 16 * c + d

/-- the part `s` of a JSON string stands for the character `c` -/
inductive StandsFor : List Char → Char → Prop
  | plain (c : Char) : c ≠ '"' → c ≠ '\\' → 32 ≤ c.toNat → StandsFor [c] c
  | quote : StandsFor ['\\', '"'] '"'
  | backslash : StandsFor ['\\', '\\'] '\\'
  | newline : StandsFor ['\\', 'n'] '\n'
  | ret : StandsFor ['\\', 'r'] '\r'
  | tab : StandsFor ['\\', 't'] '\t'
  | feed : StandsFor ['\\', 'f'] '\x0c'
  | back : StandsFor ['\\', 'b'] '\x08'
  | code (s : List Char) (c : Char) : HexValue s c.toNat → StandsFor ('\\' :: 'u' :: s) c
  | pair (s t : List Char) (c : Char) (hi lo : Nat) : HexValue s (0xD800 + hi) → HexValue t (0xDC00 + lo) → hi < 1024 → lo < 1024 →
      c.toNat = 0x10000 + 1024 * hi + lo → StandsFor ('\\' :: 'u' :: s ++ '\\' :: 'u' :: t) c

/-- a JSON string, with its quotes, stands for a text -/
def JsonString (s text : List Char) : Prop :=
  ∃ parts : List (List Char), List.Forall₂ StandsFor parts text ∧ s = '"' :: parts.flatten ++ ['"']

/-- the items of a JSON object: at least a blank or nothing after commas and colons -/
inductive JsonItems : List Char → List (List Char × List Char) → Prop
  | one {k v : List Char} {key value : List Char} : JsonString k key → JsonString v value →
      JsonItems (k ++ ':' :: ' ' :: v) [(key, value)]
  | cons {k v rest : List Char} {key value : List Char} {l : List (List Char × List Char)} : JsonString k key →
      JsonString v value → JsonItems rest l → JsonItems (k ++ ':' :: ' ' :: v ++ ',' :: ' ' :: rest) ((key, value) :: l)

/-- a JSON object whose values are strings -/
inductive JsonObject : List Char → List (List Char × List Char) → Prop
  | empty : JsonObject ['{', '}'] []
  | items {s : List Char} {l : List (List Char × List Char)} : JsonItems s l → JsonObject ('{' :: s ++ ['}']) l

end Verif.Dimacs
