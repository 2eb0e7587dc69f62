import Verif.Sat.ReportText
import Verif.Props.LoggerText
/-
Property C140: the text of the report.
-/
namespace Verif.Props
open Verif Verif.Sat Verif.Dimacs Verif.Solve

/-- the lines of a text that are not empty -/
def fullLines (s : List Char) : List (List Char) := (cut '\n' s).filter (fun l => decide (l ≠ []))

/-- How a line of the report is read: the first word is the number of the suggestion; the letters before the dash are the
marks; the third word after the dash is the id of the package. -/
def readReportLine (line : List Char) : Option Line :=
  if line = ['B', 'A', 'C', 'K', 'T', 'R', 'A', 'C', 'K', 'E', 'D'] then some .backtracked else
  match words [line] with
  | n :: m :: rest =>
    let marks := if m = ['-'] then [] else m
    let after := if m = ['-'] then rest else rest.tail
    match readNat n, after[2]?.bind readInt with
    | some i, some id => some (.suggestion i (decide ('R' ∈ marks)) (decide ('I' ∈ marks)) id [])
    | _, _ => none
  | _ => none

theorem fullLines_append (s t : List Char) : fullLines (s ++ '\n' :: t) = fullLines s ++ fullLines t := by
  unfold fullLines
  rw [cut_append_all, List.filter_append]

theorem fullLines_join : ∀ (ls : List (List Char)), fullLines (joinWith ['\n'] ls) = ls.flatMap fullLines
  | [] => rfl
  | [l] => by simp [joinWith]
  | l :: m :: ls => by
    rw [joinWith, List.append_assoc, List.singleton_append, fullLines_append, fullLines_join (m :: ls)]
    simp only [List.flatMap_cons]

theorem fullLines_one {s : List Char} (h : '\n' ∉ s) (h0 : s ≠ []) : fullLines s = [s] := by
  unfold fullLines
  rw [cut_none h]
  simp [h0]

/-- what a report without assignments consists of -/
inductive Short (ids : List Int) : Line → Prop
  | suggestion (i : Nat) (r ins : Bool) (id : Int) (h : id ∈ ids) : Short ids (.suggestion i r ins id [])
  | backtracked : Short ids .backtracked

section
variable {K M : Type} [LinearOrder K] [DecidableEq M]

theorem reportFrom_short (key : Int → K) (name : Int → M) (log : Log) : ∀ (l : List Int) (i : Nat) (ids : List Int),
    (∀ x ∈ l, x ∈ ids) → ∀ e ∈ reportFrom key name log false i l, Short ids e
  | [], _, _, _, e, he => by simp [reportFrom] at he
  | x :: l, i, ids, h, e, he => by
    unfold reportFrom at he
    rcases List.mem_append.1 he with he | he
    · split at he
      · simp at he
      · simp only [Bool.false_eq_true, if_false, List.mem_cons] at he
        rcases he with rfl | he
        · exact .suggestion _ _ _ _ (h x (List.mem_cons_self ..))
        · split at he
          · rw [List.mem_singleton] at he; subst he; exact .backtracked
          · simp at he
    · exact reportFrom_short key name log l (i + 1) ids (fun y hy => h y (List.mem_cons_of_mem _ hy)) e he

theorem report_short (key : Int → K) (name : Int → M) (log : Log) :
    ∀ e ∈ log.report key name false, Short (log.suggestions.map iabs) e := by
  intro e he
  unfold Log.report at he
  rcases List.mem_append.1 he with he | he
  · split at he
    · next h => exact absurd h (by simp)
    · simp at he
  · exact reportFrom_short key name log _ _ _ (fun x hx => hx) e he

end

theorem words_suggestion (pkg : Int → Shown) (i : Nat) (r ins : Bool) (id : Int) :
    words [lineText pkg (.suggestion i r ins id [])] =
      intText (i : Int) :: ((([(if r then ['R'] else []) ++ (if ins then ['I'] else [])] : List (List Char)).filter
        (fun w => decide (w ≠ []))) ++ ['-'] :: words [prettyPkgId pkg id]) := by
  have h1 : words ['-' :: ' ' :: prettyPkgId pkg id] = ['-'] :: words [prettyPkgId pkg id] := by
    have := words_blank ['-'] (prettyPkgId pkg id)
    rw [List.singleton_append] at this
    rw [this]; rfl
  have h2 : ∀ m : List Char, ' ' ∉ m → m ≠ [] → words [m ++ ' ' :: '-' :: ' ' :: prettyPkgId pkg id] =
      m :: ['-'] :: words [prettyPkgId pkg id] := by
    intro m hm h0
    rw [words_blank, words_one hm h0, h1]; rfl
  have h3 : ∀ t : List Char, words [' ' :: t] = words [t] := by
    intro t
    have := words_blank [] t
    rwa [List.nil_append, words_nil, List.nil_append] at this
  unfold lineText
  rw [words_blank, words_padLeft, words_intText, List.singleton_append]
  congr 1
  cases r <;> cases ins <;> simp only [if_true, if_false, Bool.false_eq_true]
  · rw [h3, h3, h3, h1]; rfl
  · rw [h3]; exact h2 ['I'] (by decide) (by decide)
  · have := h2 ['R'] (by decide) (by decide)
    have e := words_blank ['R'] (' ' :: '-' :: ' ' :: prettyPkgId pkg id)
    rw [List.singleton_append] at e
    rw [e, h3, h1]; rfl
  · exact h2 ['R', 'I'] (by decide) (by decide)

theorem readReportLine_suggestion (pkg : Int → Shown) (i : Nat) (r ins : Bool) (id : Int) (h : PlainShown (pkg id)) :
    readReportLine (lineText pkg (.suggestion i r ins id [])) = some (.suggestion i r ins id []) := by
  obtain ⟨d, e⟩ := C140_words pkg id h
  have hne : lineText pkg (.suggestion i r ins id []) ≠ ['B', 'A', 'C', 'K', 'T', 'R', 'A', 'C', 'K', 'E', 'D'] := by
    intro c
    have hm : ' ' ∈ lineText pkg (.suggestion i r ins id []) := by
      unfold lineText
      exact List.mem_append_right _ (List.mem_cons_self ..)
    rw [c] at hm
    exact absurd hm (by decide)
  unfold readReportLine
  rw [if_neg hne, words_suggestion, e]
  cases r <;> cases ins <;> simp [readNat_intText, readInt_intText]

theorem newline_suggestion (pkg : Int → Shown) (i : Nat) (r ins : Bool) (id : Int) (h : PlainShown (pkg id)) :
    '\n' ∉ lineText pkg (.suggestion i r ins id []) := by
  unfold lineText padLeft
  simp only [List.mem_append, List.mem_cons, not_or]
  refine ⟨⟨fun hm => absurd (List.eq_of_mem_replicate hm) (by decide), newline_intText _⟩, by decide, ?_, ?_, by decide, by decide,
    by decide, newline_pretty pkg id h⟩
  · cases r <;> decide
  · cases ins <;> decide

section
variable {K M : Type} [LinearOrder K] [DecidableEq M]

/-- C140: the text of the report (without assignments) can be read: which packages were suggested, in which order, their marks
R and I, and after which of them the search backtracked, are in its lines. What the parts of the report are is the subject of
C100. -/
theorem C140_report_text (pkg : Int → Shown) (key : Int → K) (name : Int → M) (log : Log)
    (h : ∀ x ∈ log.suggestions, PlainShown (pkg (iabs x))) :
    (fullLines (log.reportText pkg key name)).map readReportLine = (log.report key name false).map some := by
  unfold Log.reportText
  rw [fullLines_join]
  have key : ∀ ls : List Line, (∀ e ∈ ls, Short (log.suggestions.map iabs) e) →
      ((ls.map (lineText pkg)).flatMap fullLines).map readReportLine = ls.map some := by
    intro ls
    induction ls with
    | nil => intro _; rfl
    | cons e ls ih =>
      intro hs
      rw [List.map_cons, List.flatMap_cons, List.map_append, ih (fun e he => hs e (List.mem_cons_of_mem _ he)), List.map_cons]
      have : (fullLines (lineText pkg e)).map readReportLine = [some e] := by
        cases hs e (List.mem_cons_self ..) with
        | suggestion i r ins id hid =>
          obtain ⟨x, hx, rfl⟩ := List.mem_map.1 hid
          have hp := h x hx
          rw [fullLines_one (newline_suggestion pkg i r ins _ hp) (by unfold lineText; simp), List.map_singleton,
            readReportLine_suggestion pkg i r ins _ hp]
        | backtracked => rfl
      rw [this]; rfl
  exact key _ (report_short _ _ log)

end

namespace LoggerTextEx

/-- two suggestions, of which the first leads to a conflict; the line about the last one is missing (C100) -/
def log2 : Log := { required := [3], suggestions := [3, -2, 2], changes := [[], [(3, (some true, none))], [(2, (none, some false))]] }

example : log2.report (fun i => i.toNat) (fun i => i) false =
    [.suggestion 0 true false 3 [], .backtracked, .suggestion 1 false false 2 []] := rfl
example : ∀ x ∈ log2.suggestions, PlainShown (pkg (iabs x)) := by
  intro x hx
  have h3 : PlainShown (pkg 3) := ⟨by decide, by decide, by decide, by decide, fun r hr => by cases hr; decide⟩
  have h2 : PlainShown (pkg 2) := ⟨by decide, by decide, by decide, by decide, fun r hr => by cases hr⟩
  simp only [log2, List.mem_cons, List.not_mem_nil, or_false] at hx
  rcases hx with rfl | rfl | rfl
  · exact h3
  · exact h2
  · exact h2

end LoggerTextEx

end Verif.Props
