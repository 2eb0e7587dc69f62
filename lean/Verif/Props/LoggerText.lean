import Verif.Sat.LoggerText
/-
Property C140: the texts of the policy logger.
-/
namespace Verif.Props
open Verif Verif.Sat Verif.Dimacs Verif.Solve

/-! ### Words -/

theorem cut_append_all (c : Char) (s t : List Char) : cut c (s ++ c :: t) = cut c s ++ cut c t := by
  induction s with
  | nil => simp [cut]
  | cons x xs ih =>
    simp only [List.cons_append, cut, ih]
    by_cases h : x = c
    · simp [h]
    · simp only [h, if_false]
      cases hx : cut c xs with
      | nil => exact absurd hx (cut_ne_nil c xs)
      | cons w ws => rfl

theorem words_blank (s t : List Char) : words [s ++ ' ' :: t] = words [s] ++ words [t] := by
  unfold words
  simp only [List.flatMap_singleton, cut_append_all, List.filter_append]

theorem words_one {s : List Char} (h : ' ' ∉ s) (h0 : s ≠ []) : words [s] = [s] := by
  unfold words
  rw [List.flatMap_singleton, cut_none h]
  simp [h0]

theorem words_nil : words [[]] = [] := rfl

theorem words_blanks_left (n : Nat) (s : List Char) : words [List.replicate n ' ' ++ s] = words [s] := by
  induction n with
  | zero => rfl
  | succ n ih =>
    rw [List.replicate_succ, List.cons_append]
    have := words_blank [] (List.replicate n ' ' ++ s)
    rw [List.nil_append, words_nil, List.nil_append] at this
    rw [this, ih]

theorem words_blanks_right (n : Nat) : ∀ (s : List Char), words [s ++ List.replicate n ' '] = words [s] := by
  induction n with
  | zero => intro s; simp
  | succ n ih =>
    intro s
    rw [List.replicate_succ, words_blank]
    have := ih []
    rw [List.nil_append, words_nil] at this
    rw [this, List.append_nil]

theorem words_padLeft (w : Nat) (s : List Char) : words [padLeft w s] = words [s] := words_blanks_left _ s

theorem blank_intText (i : Int) : ' ' ∉ intText i := by
  intro h
  rcases intText_chars h with h | h <;> exact absurd h (by decide)

theorem newline_intText (i : Int) : '\n' ∉ intText i := by
  intro h
  rcases intText_chars h with h | h <;> exact absurd h (by decide)

theorem words_intText (i : Int) : words [intText i] = [intText i] := words_one (blank_intText i) (intText_ne_nil i)

/-- Names and versions that can be told apart in a line: not empty, without blanks and ends of lines. (The name of a repository
may have blanks.) -/
structure PlainShown (p : Shown) : Prop where
  name_ne : p.name ≠ []
  name : ' ' ∉ p.name ∧ '\n' ∉ p.name
  version_ne : p.version ≠ []
  version : ' ' ∉ p.version ∧ '\n' ∉ p.version
  repository : ∀ r, p.repository = some r → '\n' ∉ r

/-! ### C140 -/

/-- C140: the words of `_log_pretty_pkg_id(id)` are the name of the package, its version (perhaps with dots after it), the id,
and the name of the repository, "installed" for a package without one. -/
theorem C140_words (pkg : Int → Shown) (id : Int) (h : PlainShown (pkg id)) :
    ∃ dots, words [prettyPkgId pkg id] =
      (pkg id).name :: ((pkg id).version ++ List.replicate dots '.') :: intText id ::
        words [(pkg id).repository.getD "installed".toList] := by
  have key : ∃ dots, words [padRight (if id % 2 ≠ 0 then '.' else ' ') 30 ((pkg id).name ++ ' ' :: (pkg id).version)] =
      [(pkg id).name, (pkg id).version ++ List.replicate dots '.'] := by
    unfold padRight
    generalize 30 - ((pkg id).name ++ ' ' :: (pkg id).version).length = n
    split
    · refine ⟨n, ?_⟩
      rw [List.append_assoc, List.cons_append, words_blank, words_one h.name.1 h.name_ne, words_one]
      · rfl
      · rw [List.mem_append, not_or]
        exact ⟨h.version.1, fun hm => absurd (List.eq_of_mem_replicate hm) (by decide)⟩
      · simp [h.version_ne]
    · refine ⟨0, ?_⟩
      rw [words_blanks_right, words_blank, words_one h.name.1 h.name_ne, words_one h.version.1 h.version_ne]
      simp
  obtain ⟨dots, hd⟩ := key
  refine ⟨dots, ?_⟩
  unfold prettyPkgId
  simp only
  rw [words_blank, hd, words_blank, words_padLeft, words_intText]
  rfl

/-- C140: the lines of two packages are different (the id can be read in them). -/
theorem C140_lines_differ (pkg : Int → Shown) {i j : Int} (hi : PlainShown (pkg i)) (hj : PlainShown (pkg j))
    (h : prettyPkgId pkg i = prettyPkgId pkg j) : i = j := by
  obtain ⟨d, e⟩ := C140_words pkg i hi
  obtain ⟨d', e'⟩ := C140_words pkg j hj
  rw [h, e'] at e
  injection e with _ e
  injection e with _ e
  injection e with e _
  have h1 := readInt_intText i
  rw [← e, readInt_intText] at h1
  exact (Option.some.inj h1).symm

theorem newline_pretty (pkg : Int → Shown) (id : Int) (h : PlainShown (pkg id)) : '\n' ∉ prettyPkgId pkg id := by
  unfold prettyPkgId padRight padLeft
  simp only [List.mem_append, List.mem_cons, not_or]
  refine ⟨⟨⟨h.name.2, by decide, h.version.2⟩, fun hm => ?_⟩, by decide, ⟨fun hm => ?_, newline_intText id⟩, by decide, ?_⟩
  · have := List.eq_of_mem_replicate hm
    split at this <;> exact absurd this (by decide)
  · exact absurd (List.eq_of_mem_replicate hm) (by decide)
  · cases hr : (pkg id).repository with
    | none => rw [Option.getD_none]; decide
    | some r => rw [Option.getD_some]; exact h.repository r hr

theorem newline_line (pkg : Int → Shown) (kv : Int × Nat) (h : PlainShown (pkg kv.1)) : '\n' ∉ histogramLine pkg kv := by
  unfold histogramLine padLeft
  simp only [List.mem_append, List.mem_cons, not_or]
  exact ⟨⟨fun hm => absurd (List.eq_of_mem_replicate hm) (by decide), newline_pretty pkg kv.1 h⟩, by decide,
    fun hm => absurd (List.eq_of_mem_replicate hm) (by decide), newline_intText _⟩

/-- How a line of the histogram is read: the third word is the id, the last one how often it was decided -/
def readHistogramLine (line : List Char) : Option (Int × Nat) :=
  match (words [line])[2]?, (words [line]).getLast? with
  | some id, some count => match readInt id, readNat count with
    | some i, some n => some (i, n)
    | _, _ => none
  | _, _ => none

theorem readHistogramLine_line (pkg : Int → Shown) (kv : Int × Nat) (h : PlainShown (pkg kv.1)) :
    readHistogramLine (histogramLine pkg kv) = some kv := by
  obtain ⟨d, e⟩ := C140_words pkg kv.1 h
  have hw : words [histogramLine pkg kv] = words [prettyPkgId pkg kv.1] ++ [intText (kv.2 : Int)] := by
    unfold histogramLine
    rw [words_blank, words_padLeft, words_padLeft, words_intText]
  unfold readHistogramLine
  rw [hw, List.getLast?_concat, e]
  simp only [List.cons_append, List.getElem?_cons_succ, List.getElem?_cons_zero, readInt_intText, readNat_intText]

/-- C140: the text of `_log_histogram()` has one line for each decided variable, from which the variable and how often it was
decided can be read; they come in the order of `C73_most_common`. -/
theorem C140_histogram_text (pkg : Int → Shown) (log : Log) (h : ∀ kv ∈ log.mostCommon, PlainShown (pkg kv.1))
    (h0 : log.mostCommon ≠ []) : (cut '\n' (log.histogramText pkg)).map readHistogramLine = log.mostCommon.map some := by
  unfold Log.histogramText
  rw [cut_join (by simpa using h0)]
  · rw [List.map_map]
    exact List.map_congr_left (fun kv hkv => readHistogramLine_line pkg kv (h kv hkv))
  · intro l hl
    obtain ⟨kv, hkv, rfl⟩ := List.mem_map.1 hl
    exact newline_line pkg kv (h kv hkv)

/-- without a decision the text is empty -/
theorem C140_empty (pkg : Int → Shown) (log : Log) (h0 : log.suggestions = []) : log.histogramText pkg = [] := by
  unfold Log.histogramText Log.mostCommon Log.histogram
  rw [h0]; rfl

/-! A name of more than thirty characters, an odd and an even id, a package without a repository -/
namespace LoggerTextEx

def pkg : Int → Shown := fun i =>
  if i = 3 then ⟨['m', 'k', 'l'], ['1', '.', '0'], some ['e', 'p', 'd', ' ', 'x']⟩
  else ⟨List.replicate 33 'a', ['2', '-', '1'], none⟩

example : PlainShown (pkg 3) ∧ PlainShown (pkg 2) :=
  ⟨⟨by decide, by decide, by decide, by decide, fun r hr => by cases hr; decide⟩,
    ⟨by decide, by decide, by decide, by decide, fun r hr => by cases hr⟩⟩

def log : Log := { required := [], suggestions := [2, -3, 3], changes := [] }

example : log.mostCommon = [(3, 2), (2, 1)] := by decide +kernel
example : words [prettyPkgId pkg 3] = [['m', 'k', 'l'], ['1', '.', '0'] ++ List.replicate 23 '.', ['3'], ['e', 'p', 'd'], ['x']] := by
  decide +kernel

end LoggerTextEx

end Verif.Props
