import Verif.Text.Package
import Verif.Text.Spec
/-
What package strings say, written without regular expressions.
-/
namespace Verif.Text
open Verif Verif.Pkg CharTable

variable [CharTable]

/-- A constraint as it is written in a block: a name, blanks, and the constraint string. -/
structure Item where
  dist : Str
  gap : Str
  text : Str

def Item.render (i : Item) : Str := i.dist ++ i.gap ++ i.text

structure Item.OK (i : Item) : Prop where
  dist : ValidName i.dist
  gap : ∀ c ∈ i.gap, c = ' '
  /-- the constraint string has no comma, closing parenthesis or newline, and does not begin with a blank -/
  text : ∀ c ∈ i.text, c ≠ ',' ∧ c ≠ ')' ∧ c ≠ '\n'
  first : ∀ c t, i.text = c :: t → c ≠ ' '
  /-- without blanks, the constraint string does not look like a part of the name -/
  apart : i.gap = [] → ∀ c t, i.text = c :: t → isWord c = false ∧ c ≠ '.'

/-- Items separated by commas; each of the later ones has some blanks before it. -/
def renderItems : Item → List (Str × Item) → Str
  | i, [] => i.render
  | i, (blanks, j) :: rest => i.render ++ ',' :: blanks ++ renderItems j rest

/-- A block: a semicolon, white space, the word for the kind of the constraints, white space, and in parentheses the
constraints. -/
structure Block where
  before : Str
  word : Str
  after : Str
  items : Option (Item × List (Str × Item))

/-- what is in the parentheses -/
def Block.inside (b : Block) : Str :=
  match b.items with
  | none => []
  | some (i, rest) => renderItems i rest

/-- the constraints of the block: names and constraint strings -/
def Block.pairs (b : Block) : List (Str × Str) :=
  match b.items with
  | none => []
  | some (i, rest) => (i.dist, i.text) :: rest.map (fun x => (x.2.dist, x.2.text))

def Block.render (b : Block) : Str := ';' :: b.before ++ b.word ++ b.after ++ '(' :: b.inside ++ [')']

structure Block.OK (b : Block) : Prop where
  before : ∀ c ∈ b.before, isSpace c = true
  word : Word b.word
  after : ∀ c ∈ b.after, isSpace c = true
  items : ∀ i rest, b.items = some (i, rest) → i.OK ∧ ∀ x ∈ rest, x.2.OK ∧ ∀ c ∈ x.1, c = ' '

/-- what the word of a block means -/
def kindOf (w : Str) : Option CKind :=
  if w = "depends".toList ∨ w = "install_requires".toList then some .installRequires
  else if w = "conflicts".toList then some .conflicts
  else if w = "provides".toList then some .provides
  else none

/-- A package string: white space, the name, blanks, the version, blocks, white space. -/
structure PackageText where
  lead : Str
  name : Str
  gap : Str
  version : Str
  blocks : List Block
  trail : Str

def PackageText.render (t : PackageText) : Str :=
  t.lead ++ (t.name ++ t.gap ++ t.version ++ t.blocks.flatMap Block.render) ++ t.trail

structure PackageText.OK (t : PackageText) : Prop where
  lead : ∀ c ∈ t.lead, isSpace c = true
  name : ValidName t.name
  gap : t.gap ≠ [] ∧ ∀ c ∈ t.gap, c = ' '
  version : ValidVersion t.version
  blocks : ∀ b ∈ t.blocks, b.OK
  trail : ∀ c ∈ t.trail, isSpace c = true

/-- the constraint strings for one name, in order -/
def stringsFor (items : List (Str × Str)) (n : Str) : List Str := (items.filter (fun i => decide (i.1 = n))).map Prod.snd

/-- The constraint tuples are those of the items: one for each name, sorted by name, whose only conjunction consists of the
constraint strings for that name. -/
structure Merged {U : Type} (items : List (Str × Str)) (ts : List (CTuple Str (CStr U))) : Prop where
  sorted : ts.Pairwise (fun a b => a.1 < b.1)
  mem : ∀ n disj, (n, disj) ∈ ts ↔ stringsFor items n ≠ [] ∧ disj = [(stringsFor items n).map CStr.mk]

/-- `ts` is what the blocks say about constraints of kind `k`: the last block of this kind counts. -/
def Says {U : Type} (blocks : List Block) (k : CKind) (ts : List (CTuple Str (CStr U))) : Prop :=
  ((∀ b ∈ blocks, kindOf b.word ≠ some k) → ts = []) ∧
  ∀ before b after, blocks = before ++ b :: after → kindOf b.word = some k → (∀ b' ∈ after, kindOf b'.word ≠ some k) →
    Merged b.pairs ts

end Verif.Text
