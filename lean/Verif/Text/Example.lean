import Verif.Text.Spec
import Mathlib.Data.Nat.Basic
/-
A concrete alphabet (ASCII) and concrete versions (upstream versions are numbers), to show that the hypotheses of the
theorems about texts can be met, and for the examples.
-/
namespace Verif.Text.Example
open Verif Verif.Pkg Verif.Text

def asciiSpace (c : Char) : Bool := c == ' ' || c == '\n' || c == '\t' || c == '\r'

/-- `\w`, `\d` and `\s` restricted to ASCII -/
instance : CharTable where
  isWord := asciiWord
  isDigit := Char.isDigit
  isSpace := asciiSpace
  digit_word := by intro c h; simp [asciiWord, Char.isAlphanum, h]
  word_space := by
    intro c h
    unfold asciiSpace
    simp only [Bool.or_eq_false_iff, beq_eq_false_iff_ne, ne_eq]
    refine ⟨⟨⟨?_, ?_⟩, ?_⟩, ?_⟩ <;> (rintro rfl; revert h; decide)
  blank_space := rfl
  newline_space := rfl
  plain := by decide
  ascii_word := by
    intro c h
    rcases h with h | h <;> simp [asciiWord, h]
  ascii_digit := fun _ h => h
  formatFails := fun s => decide (s.count '{' + s.count '}' = 1)
  format_plain := by
    intro s h1 h2
    simp [List.count_eq_zero_of_not_mem h1, List.count_eq_zero_of_not_mem h2]
  format_one_brace := by
    intro s h
    simpa using h

/-- a number in decimal digits -/
def readNat (s : Str) : Option Nat := if s ≠ [] ∧ s.all Char.isDigit = true then some (Nat.ofDigitChars 10 s 0) else none

/-- "12-3" is version 12 with build number 3; "12" has build number 0 -/
def readVersion (s : Str) : Except PErr (Version Nat) :=
  match readNat (s.takeWhile (fun c => c != '-')) with
  | none => .error .valueError
  | some n => match s.dropWhile (fun c => c != '-') with
    | [] => .ok ⟨n, 0⟩
    | _ :: b => match readNat b with
      | none => .error .valueError
      | some b => .ok ⟨n, b⟩

instance : VersionText Nat where
  ofString := readVersion
  toStr := fun v => Nat.toDigits 10 v.upstream ++ '-' :: Nat.toDigits 10 v.build
  upstreamStr := Nat.toDigits 10
  ofString_err := by
    intro s e h
    unfold readVersion at h
    split at h
    · cases h; rfl
    · split at h
      · cases h
      · split at h
        · cases h; rfl
        · cases h

theorem readNat_digits (n : Nat) : readNat (Nat.toDigits 10 n) = some n := by
  unfold readNat
  rw [if_pos ⟨Nat.toDigits_ne_nil, by
    rw [List.all_eq_true]; intro c hc; exact Nat.isDigit_of_mem_toDigits (by decide) (by decide) hc⟩,
    Nat.ofDigitChars_toDigits (by decide) (by decide)]

theorem dash_free (n : Nat) : ∀ c ∈ Nat.toDigits 10 n, (c != '-') = true := by
  intro c hc
  have := Nat.isDigit_of_mem_toDigits (by decide) (by decide) hc
  rw [bne_iff_ne]
  rintro rfl
  revert this
  decide

theorem word_digits (n : Nat) : Word (Nat.toDigits 10 n) := by
  refine ⟨Nat.toDigits_ne_nil, ?_⟩
  intro c hc
  exact CharTable.digit_word c (Nat.isDigit_of_mem_toDigits (by decide) (by decide) hc)

theorem digits_digit (n : Nat) : BeginsWithDigit (Nat.toDigits 10 n) := by
  cases h : Nat.toDigits 10 n with
  | nil => exact absurd h Nat.toDigits_ne_nil
  | cons c t => exact ⟨c, t, rfl, Nat.isDigit_of_mem_toDigits (b := 10) (n := n) (by decide) (by decide) (by rw [h]; simp)⟩

/-- every version can be written and read back -/
theorem printable (v : Version Nat) : Printable v := by
  refine ⟨⟨_, ValidName.word (word_digits v.upstream), digits_digit _, Or.inr ⟨_, word_digits v.build, rfl⟩⟩, ?_⟩
  show readVersion (Nat.toDigits 10 v.upstream ++ '-' :: Nat.toDigits 10 v.build) = _
  unfold readVersion
  rw [List.takeWhile_append_of_pos (dash_free _), List.dropWhile_append_of_pos (dash_free _)]
  simp [readNat_digits]

theorem upstreamPrintable (u : Nat) : UpstreamPrintable u := by
  refine ⟨⟨_, ValidName.word (word_digits u), digits_digit _, Or.inl rfl⟩, ?_⟩
  show readVersion (Nat.toDigits 10 u) = _
  unfold readVersion
  have h1 := List.takeWhile_append_of_pos (dash_free u) (l₂ := [])
  have h2 := List.dropWhile_append_of_pos (dash_free u) (l₂ := [])
  simp only [List.append_nil, List.takeWhile_nil, List.dropWhile_nil] at h1 h2
  rw [h1, h2, readNat_digits]

theorem constraintPrintable (c : Constraint Nat) : ConstraintPrintable c := by
  cases c with
  | any => trivial
  | upstream v => exact upstreamPrintable v.upstream
  | _ v => exact printable v

/-- the characters of a string literal -/
def str (s : String) : Str := s.toList

end Verif.Text.Example
