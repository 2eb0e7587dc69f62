import Verif.Props.Text
import Verif.Props.Grammar
import Verif.Props.PackageText
/-
Property C101: what package strings can name can be asked for by a requirement string. The scanners of requirement strings
know only the classes of ASCII (`asciiTable`), package strings and full names use those of Unicode (the table of the
theorems).
-/
set_option linter.unusedSectionVars false
set_option linter.style.haveILetI false
namespace Verif.Props
open Verif Verif.Pkg Verif.Text Verif.Text.Re CharTable

variable [CharTable] {U : Type} [LinearOrder U] [VersionText U]

/-! ### which characters a pattern can consume -/

/-- the pattern consumes only characters with `P` -/
def Uses (P : Char → Prop) : Re → Prop
  | .eps => True
  | .cls p => ∀ c, p c = true → P c
  | .seq a b => Uses P a ∧ Uses P b
  | .alt a b => Uses P a ∧ Uses P b
  | .star a => Uses P a
  | .lazyStar a => Uses P a
  | .ahead _ => True
  | .nahead _ => True
  | .nbehind _ => True
  | .eos => True
  | .group _ a => Uses P a

/-- what lies between two positions has only characters with `P` -/
def Took (P : Char → Prop) (s s' : St) : Prop := ∃ x, s.rest = x ++ s'.rest ∧ ∀ c ∈ x, P c

theorem Took.refl {P : Char → Prop} (s : St) : Took P s s := ⟨[], rfl, by simp⟩

theorem Took.trans {P : Char → Prop} {s s' s'' : St} (h : Took P s s') (h' : Took P s' s'') : Took P s s'' := by
  obtain ⟨x, hx, px⟩ := h
  obtain ⟨y, hy, py⟩ := h'
  refine ⟨x ++ y, by rw [hx, hy, List.append_assoc], ?_⟩
  intro c hc
  rcases List.mem_append.1 hc with h | h
  · exact px c h
  · exact py c h

theorem starRun_took {P : Char → Prop} {f : St → List St} (hf : ∀ s, ∀ s' ∈ f s, Took P s s') :
    ∀ (n : Nat) (s : St), ∀ s' ∈ Re.starRun f n s, Took P s s'
  | 0, s, s', h => by simp [Re.starRun] at h; subst h; exact Took.refl _
  | n + 1, s, s', h => by
    simp only [Re.starRun, List.mem_append, List.mem_flatMap, List.mem_filter, List.mem_singleton] at h
    rcases h with ⟨x, hx, h⟩ | rfl
    · exact (hf s x hx.1).trans (starRun_took hf n x s' h)
    · exact Took.refl _

theorem lazyRun_took {P : Char → Prop} {f : St → List St} (hf : ∀ s, ∀ s' ∈ f s, Took P s s') :
    ∀ (n : Nat) (s : St), ∀ s' ∈ Re.lazyRun f n s, Took P s s'
  | 0, s, s', h => by simp [Re.lazyRun] at h; subst h; exact Took.refl _
  | n + 1, s, s', h => by
    simp only [Re.lazyRun, List.mem_cons, List.mem_flatMap, List.mem_filter] at h
    rcases h with rfl | ⟨x, hx, h⟩
    · exact Took.refl _
    · exact (hf s x hx.1).trans (lazyRun_took hf n x s' h)

theorem run_took {P : Char → Prop} (r : Re) (hr : Uses P r) : ∀ (s : St), ∀ s' ∈ r.run s, Took P s s' := by
  induction r with
  | eps => intro s s' h; simp [Re.run] at h; subst h; exact Took.refl _
  | cls p =>
    intro s s' h
    unfold Re.run at h
    split at h
    · cases h
    · next c cs hc =>
      split at h
      · next hp =>
        rw [List.mem_singleton] at h
        subst h
        refine ⟨[c], by rw [hc]; rfl, ?_⟩
        intro d hd
        rw [List.mem_singleton] at hd
        subst hd
        exact hr _ hp
      · cases h
  | seq a b iha ihb =>
    intro s s' h
    simp only [Re.run, List.mem_flatMap] at h
    obtain ⟨x, hx, h⟩ := h
    exact (iha hr.1 s x hx).trans (ihb hr.2 x s' h)
  | alt a b iha ihb =>
    intro s s' h
    simp only [Re.run, List.mem_append] at h
    exact h.elim (iha hr.1 s s') (ihb hr.2 s s')
  | star a ih => intro s s' h; exact starRun_took (ih hr) _ s s' h
  | lazyStar a ih => intro s s' h; exact lazyRun_took (ih hr) _ s s' h
  | ahead a ih =>
    intro s s' h
    simp only [Re.run] at h
    split at h
    · cases h
    · rw [List.mem_singleton] at h; subst h; exact Took.refl _
  | nahead a ih =>
    intro s s' h
    simp only [Re.run] at h
    split at h
    · rw [List.mem_singleton] at h; subst h; exact Took.refl _
    · cases h
  | nbehind p =>
    intro s s' h
    unfold Re.run at h
    split at h
    · rw [List.mem_singleton] at h; subst h; exact Took.refl _
    · split at h
      · cases h
      · rw [List.mem_singleton] at h; subst h; exact Took.refl _
  | eos =>
    intro s s' h
    unfold Re.run at h
    split at h
    · rw [List.mem_singleton] at h; subst h; exact Took.refl _
    · cases h
  | group i a ih =>
    intro s s' h
    simp only [Re.run, List.mem_map] at h
    obtain ⟨x, hx, rfl⟩ := h
    exact ih hr s x hx

theorem scanStep_took {P : Char → Prop} {lex : List (Re × Option Kind)} (hl : ∀ e ∈ lex, Uses P e.1) {s s' : St}
    {k : Option Kind} (h : scanStep lex s = some (k, s')) : Took P s s' := by
  induction lex with
  | nil => cases h
  | cons rk lex ih =>
    obtain ⟨r, k'⟩ := rk
    unfold scanStep at h
    split at h
    · next x hx =>
      cases h
      exact run_took r (hl (r, k) (by simp)) s _ (List.mem_of_mem_head? hx)
    · exact ih (fun e he => hl e (by simp [he])) h

theorem scanLoop_took {P : Char → Prop} {lex : List (Re × Option Kind)} (hl : ∀ e ∈ lex, Uses P e.1) :
    ∀ (n : Nat) (s : St), ∃ x, s.rest = x ++ (scanLoop lex n s).2 ∧ ∀ c ∈ x, P c
  | 0, s => ⟨[], rfl, by simp⟩
  | n + 1, s => by
    unfold scanLoop
    split
    · exact ⟨[], rfl, by simp⟩
    · next k s' hs =>
      split
      · obtain ⟨x, hx, px⟩ := scanStep_took hl hs
        obtain ⟨y, hy, py⟩ := scanLoop_took hl n s'
        have : ∃ z, s.rest = z ++ (scanLoop lex n s').2 ∧ ∀ c ∈ z, P c := by
          refine ⟨x ++ y, by rw [hx, hy]; simp, ?_⟩
          intro c hc
          rcases List.mem_append.1 hc with h | h
          · exact px c h
          · exact py c h
        simp only
        split <;> exact this
      · exact ⟨[], rfl, by simp⟩

/-- the characters of operators, the dot, the dash and the blank -/
def Punctuation (c : Char) : Prop := c ∈ ['.', '-', '=', '<', '>', '!', '^', '*', ' ']

theorem uses_lexicon : ∀ e ∈ requirementsLexicon, Uses (fun c => isWord c = true ∨ Punctuation c) e.1 := by
  have hp : ∀ d, Punctuation d → ∀ c, (c == d) = true → isWord c = true ∨ Punctuation c := by
    intro d hd c hc
    rw [beq_iff_eq] at hc
    subst hc
    exact Or.inr hd
  have hw : ∀ c, isWord c = true → isWord c = true ∨ Punctuation c := fun c h => Or.inl h
  have hd := hp '.' (by simp [Punctuation])
  have hm := hp '-' (by simp [Punctuation])
  have h1 := hp '=' (by simp [Punctuation])
  have h2 := hp '<' (by simp [Punctuation])
  have h3 := hp '>' (by simp [Punctuation])
  have h4 := hp '!' (by simp [Punctuation])
  have h5 := hp '^' (by simp [Punctuation])
  have h6 := hp '*' (by simp [Punctuation])
  have h7 := hp ' ' (by simp [Punctuation])
  have hn : Uses (fun c => isWord c = true ∨ Punctuation c) nameR :=
    ⟨trivial, ⟨⟨⟨hd, trivial⟩, hw, hw⟩, ⟨hd, trivial⟩, hw, hw⟩, trivial⟩
  intro e he
  simp only [requirementsLexicon, operators, List.mem_cons, List.not_mem_nil, or_false] at he
  rcases he with rfl | rfl | rfl | rfl | rfl | rfl | rfl | rfl | rfl | rfl | rfl
  · exact ⟨trivial, hn, ⟨⟨hm, hw, hw⟩, trivial⟩, trivial⟩
  · exact hn
  · exact ⟨h1, h1⟩
  · exact ⟨h3, h1⟩
  · exact h3
  · exact ⟨h2, h1⟩
  · exact h2
  · exact ⟨h4, h1⟩
  · exact ⟨h5, h1⟩
  · exact h6
  · exact ⟨h7, h7⟩

theorem uses_constraints : ∀ e ∈ constraintsLexicon, Uses (fun c => isWord c = true ∨ Punctuation c) e.1 := by
  intro e he
  apply uses_lexicon
  simp only [constraintsLexicon, requirementsLexicon, List.mem_cons] at he ⊢
  rcases he with h | h
  · exact Or.inl h
  · exact Or.inr (Or.inr h)

theorem tokenizeParts_chars {P : Char → Prop} {lex : List (Re × Option Kind)} (hl : ∀ e ∈ lex, Uses P e.1) :
    ∀ (ps : List Str) (ts : List (List Token)), tokenizeParts lex ps = .ok ts →
      ∀ p ∈ ps, ∀ c ∈ p, P c ∨ isSpace c = true
  | [], _, _ => by simp
  | p :: ps, ts, h => by
    unfold tokenizeParts at h
    rcases hs : scan lex (strip p) with ⟨scanned, remaining⟩
    simp only [hs] at h
    split at h
    · cases h
    · next hr =>
      split at h
      · cases h
      · next ts' hts =>
        intro q hq c hc
        rcases List.mem_cons.1 hq with rfl | hq
        · obtain ⟨l, t, e, h1, h2⟩ := strip_spec q
          rw [e] at hc
          rcases List.mem_append.1 hc with hc | hc
          · rcases List.mem_append.1 hc with hc | hc
            · exact Or.inr (h1 c hc)
            · obtain ⟨x, hx, px⟩ := scanLoop_took hl ((strip q).length + 1) (St.start (strip q))
              unfold scan at hs
              rw [hs] at hx
              have hr0 : remaining = [] := by
                cases remaining with
                | nil => rfl
                | cons _ _ => simp at hr
              have hx' : strip q = x ++ remaining := hx
              rw [hr0, List.append_nil] at hx'
              rw [hx'] at hc
              exact Or.inl (px c hc)
          · exact Or.inr (h2 c hc)
        · exact tokenizeParts_chars hl ps ts' hts q hq c hc

theorem splitComma_all {s : Str} {c : Char} (h : c ∈ s) : c = ',' ∨ ∃ p ∈ splitComma s, c ∈ p := by
  induction s with
  | nil => cases h
  | cons d s ih =>
    rcases List.mem_cons.1 h with rfl | h
    · by_cases hc : c = ','
      · exact Or.inl hc
      · obtain ⟨p, ps, _, e⟩ := splitComma_cons hc s
        exact Or.inr ⟨c :: p, by rw [e]; simp, by simp⟩
    · rcases ih h with h | ⟨p, hp, hc⟩
      · exact Or.inl h
      · by_cases hd : d = ','
        · subst hd
          exact Or.inr ⟨p, by simp [splitComma, hp], hc⟩
        · obtain ⟨q, qs, e1, e2⟩ := splitComma_cons hd s
          rw [e1] at hp
          rw [e2]
          rcases List.mem_cons.1 hp with rfl | hp
          · exact Or.inr ⟨d :: p, by simp, by simp [hc]⟩
          · exact Or.inr ⟨p, by simp [hp], hc⟩

/-- A string that can be scanned has only characters of tokens, white space and commas. -/
theorem tokenize_chars {P : Char → Prop} {lex : List (Re × Option Kind)} (hl : ∀ e ∈ lex, Uses P e.1) {s : Str}
    {ts : List (List Token)} (h : tokenize lex s = .ok ts) : ∀ c ∈ s, P c ∨ isSpace c = true ∨ c = ',' := by
  intro c hc
  obtain ⟨l, t, e, h1, h2⟩ := strip_spec s
  rw [e] at hc
  rcases List.mem_append.1 hc with hc | hc
  · rcases List.mem_append.1 hc with hc | hc
    · exact Or.inr (Or.inl (h1 c hc))
    · unfold tokenize at h
      simp only at h
      split at h
      · next h0 => rw [List.length_eq_zero_iff.1 h0] at hc; cases hc
      · rcases splitComma_all hc with h' | ⟨p, hp, hc'⟩
        · exact Or.inr (Or.inr h')
        · exact (tokenizeParts_chars hl _ _ h p hp c hc').imp_right Or.inl
  · exact Or.inr (Or.inl (h2 c hc))

/-! ### C71 and C72: braces -/

theorem brace_alien {c : Char} (h : c = '{' ∨ c = '}') : ¬ (isWord c = true ∨ Punctuation c) ∧ isSpace c = false ∧ c ≠ ',' := by
  have hp := plain c (by simp only [List.mem_cons, List.not_mem_nil, or_false]; tauto)
  refine ⟨?_, hp.2, ?_⟩
  · rintro (k | k)
    · rw [hp.1] at k; cases k
    · rcases h with rfl | rfl <;> simp [Punctuation] at k
  · rcases h with rfl | rfl <;> decide

theorem count_alien {x : Str} {d : Char} (hd : d = '{' ∨ d = '}')
    (h : ∀ c ∈ x, (isWord c = true ∨ Punctuation c) ∨ isSpace c = true) : x.count d = 0 := by
  apply List.count_eq_zero_of_not_mem
  intro hx
  rcases h d hx with k | k
  · exact (brace_alien hd).1 k
  · rw [(brace_alien hd).2.1] at k; cases k

/-- a string without comma that contains exactly one brace makes the composition of the message fail -/
theorem tokenize_brace {lex : List (Re × Option Kind)} (hl : ∀ e ∈ lex, Uses (fun c => isWord c = true ∨ Punctuation c) e.1)
    {s : Str} (hc : ',' ∉ s) (hb : s.count '{' + s.count '}' = 1) : tokenize lex s = .error .formatting := by
  obtain ⟨l, t, e, h1, h2⟩ := strip_spec s
  have hcount : ∀ d, d = '{' ∨ d = '}' → (strip s).count d = s.count d := by
    intro d hd
    conv_rhs => rw [e]
    rw [List.count_append, List.count_append, count_alien hd (fun c hc => Or.inr (h1 c hc)),
      count_alien hd (fun c hc => Or.inr (h2 c hc))]
    simp
  have hb' : (strip s).count '{' + (strip s).count '}' = 1 := by
    rw [hcount _ (Or.inl rfl), hcount _ (Or.inr rfl), hb]
  obtain ⟨x, hx, px⟩ := scanLoop_took hl ((strip s).length + 1) (St.start (strip s))
  have hx : strip s = x ++ (scan lex (strip s)).2 := hx
  have hr : (scan lex (strip s)).2.count '{' + (scan lex (strip s)).2.count '}' = 1 := by
    rw [hx, List.count_append, List.count_append, count_alien (Or.inl rfl) (fun c hc => Or.inl (px c hc)),
      count_alien (Or.inr rfl) (fun c hc => Or.inl (px c hc))] at hb'
    omega
  have hne : strip s ≠ [] := by
    intro h0
    rw [h0] at hb'
    simp at hb'
  unfold tokenize
  simp only [List.length_eq_zero_iff, if_neg hne]
  rw [splitComma_plain (fun h => hc (strip_sub h))]
  unfold tokenizeParts
  have hss : strip (strip s) = strip s := strip_strip s
  rw [hss]
  have hpos : (scan lex (strip s)).2.length > 0 := by
    cases h0 : (scan lex (strip s)).2 with
    | nil => rw [h0] at hr; simp at hr
    | cons _ _ => simp
  simp only [hpos, if_true, unparsedError, format_one_brace _ hr]

/-- C71 is violated: the text that cannot be scanned gets into the template of the message. With one brace in it, formatting
the message fails, and this is what is raised instead of InvalidConstraint. -/
theorem C71_violated_brace {s : Str} (hc : ',' ∉ s) (hb : s.count '{' + s.count '}' = 1) :
    parseConstraints (U := U) s = .error .formatting := by
  unfold parseConstraints
  rw [tokenize_brace uses_constraints hc hb]

/-- C72 is violated in the same way. -/
theorem C72_violated_brace {s : Str} (hc : ',' ∉ s) (hb : s.count '{' + s.count '}' = 1) (cls : ReqClass) :
    fromString (U := U) cls s = .error .formatting := by
  unfold fromString parseRequirement
  rw [tokenize_brace uses_lexicon hc hb]

/-! ### C101 -/

/-- `Requirement._from_string(string)`, as it is in the code: with a scanner -/
def scanRequirement (cls : ReqClass) (s : Str) : Except PErr (Requirement (Option Str) U) :=
  letI := asciiTable; fromString cls s

/-- a letter, digit or underscore that is not one of ASCII -/
def Foreign (c : Char) : Prop := isWord c = true ∧ asciiWord c = false

theorem foreign_not {c : Char} (h : Foreign c) :
    ¬ ((asciiWord c = true ∨ Punctuation c) ∨ isSpace c = true ∨ c = ',') := by
  rintro ((k | k) | k | k)
  · rw [h.2] at k; cases k
  · unfold Punctuation at k
    by_cases e : c = ' '
    · subst e
      have := blank_space
      rw [word_space _ h.1] at this
      cases this
    · have hc : c ∈ ['.', '-', ',', '=', '<', '>', '!', '^', '*', '(', ')', ';', '{', '}'] := by
        simp only [List.mem_cons, List.not_mem_nil, or_false] at k ⊢
        tauto
      have := (plain c hc).1
      rw [h.1] at this
      cases this
  · rw [word_space _ h.1] at k; cases k
  · subst k
    have := (plain ',' (by simp)).1
    rw [h.1] at this
    cases this

/-- **C101**, the part that holds: a name in ASCII that a package string can give can be asked for, alone -/
theorem C101_name_partial {n : Str} (hn : ValidName n) (ha : ∀ c ∈ n, ¬ Foreign c) (cls : ReqClass) :
    scanRequirement cls n = .ok (⟨cls, some n, [.any]⟩ : Requirement (Option Str) U) := by
  have hw : ∀ w, Word w → (∀ c ∈ w, ¬ Foreign c) → @Word asciiTable w := by
    intro w h k
    refine ⟨h.1, fun c hc => ?_⟩
    have := k c hc
    unfold Foreign at this
    cases hx : asciiWord c with
    | true => exact hx
    | false => exact absurd ⟨h.2 c hc, hx⟩ this
  have hv : @ValidName asciiTable n := by
    induction hn with
    | word h => exact @ValidName.word asciiTable _ (hw _ h ha)
    | dotted h _ ih =>
      exact @ValidName.dotted asciiTable _ _ (hw _ h (fun c hc => ha c (by simp [hc]))) (ih (fun c hc => ha c (by simp [hc])))
  unfold scanRequirement
  letI := asciiTable
  exact C55_name hv cls

/-- **C101** is violated: whatever is around it, a letter that is not one of ASCII makes a requirement string invalid, -/
theorem C101_foreign_refused {s : Str} {c : Char} (hc : c ∈ s) (hf : Foreign c) (cls : ReqClass) :
    ∃ e, scanRequirement (U := U) cls s = .error e ∧ (e = .invalidConstraint ∨ (e = .formatting ∧ HasBrace s)) := by
  have h1 : ∀ ts, ¬ (letI := asciiTable; tokenize requirementsLexicon s) = Except.ok ts := by
    intro ts h
    have : (asciiWord c = true ∨ Punctuation c) ∨ isSpace c = true ∨ c = ',' := by
      letI := asciiTable
      exact tokenize_chars uses_lexicon h c hc
    exact foreign_not hf this
  cases h : (letI := asciiTable; tokenize requirementsLexicon s) with
  | ok ts => exact absurd h (h1 ts)
  | error e =>
    refine ⟨e, ?_, ?_⟩
    · simp only [scanRequirement, fromString, parseRequirement, h]
    · letI := asciiTable
      exact tokenize_err h

/-- and the name of a package with such a letter, which package strings and full names accept, is refused. -/
theorem C101_violated {n : Str} (hn : ValidName n) {c : Char} (hc : c ∈ n) (hf : Foreign c) {v : Str} (hv : ValidVersion v)
    (cls : ReqClass) :
    parsePackageFullName (n ++ '-' :: v) = .ok (n, v) ∧
    scanRequirement (U := U) cls n = .error .invalidConstraint := by
  refine ⟨C54_name_version hn hv, ?_⟩
  obtain ⟨e, he, k | ⟨_, k⟩⟩ := C101_foreign_refused (U := U) hc hf cls
  · rw [he, k]
  · exfalso
    have : ∀ d ∈ ['{', '}'], d ∉ n := by
      intro d hd hdn
      have hp := plain d (by simp only [List.mem_cons, List.not_mem_nil, or_false] at hd ⊢; tauto)
      rcases hn.chars d hdn with h | h
      · rw [hp.1] at h; cases h
      · subst h; simp at hd
    rcases k with k | k
    · exact this _ (by simp) k
    · exact this _ (by simp) k

/-! A concrete case: a table with a letter that is not one of ASCII. -/

namespace UnicodeExample
open Verif.Text.Example

def word (c : Char) : Bool := asciiWord c || c == 'ï'

@[reducible] def table : CharTable where
  isWord := word
  isDigit := Char.isDigit
  isSpace := asciiSpace
  digit_word := by intro c h; simp [word, asciiWord, Char.isAlphanum, h]
  word_space := by
    intro c h
    unfold asciiSpace
    simp only [Bool.or_eq_false_iff, beq_eq_false_iff_ne, ne_eq]
    refine ⟨⟨⟨?_, ?_⟩, ?_⟩, ?_⟩ <;> (rintro rfl; revert h; decide)
  blank_space := rfl
  newline_space := rfl
  plain := by decide
  ascii_word := by
    intro c h
    rcases h with h | h <;> simp [word, asciiWord, h]
  ascii_digit := fun _ h => h
  formatFails := fun s => decide (s.count '{' + s.count '}' = 1)
  format_plain := by
    intro s h1 h2
    simp [List.count_eq_zero_of_not_mem h1, List.count_eq_zero_of_not_mem h2]
  format_one_brace := by
    intro s h
    simpa using h

def naive : Str := str "naïve"

example :
    letI := table
    parsePackageFullName (str "naïve-1-1") = .ok (naive, str "1-1") ∧
    scanRequirement (U := Nat) .plain naive = .error .invalidConstraint := by
  letI := table
  refine C101_violated (n := naive) (v := str "1-1") (.word ⟨by decide, by decide⟩) (c := 'ï') (by decide) ⟨by decide, by decide⟩ ?_ .plain
  exact ⟨str "1", .word ⟨by decide, by decide⟩, ⟨'1', [], rfl, by decide⟩, Or.inr ⟨str "1", ⟨by decide, by decide⟩, rfl⟩⟩

example : letI := table; scanRequirement (U := Nat) .plain (str "numpy.core") = .ok ⟨.plain, some (str "numpy.core"), [.any]⟩ := by
  letI := table
  exact C101_name_partial (.dotted (w := str "numpy") (n := str "core") ⟨by decide, by decide⟩ (.word ⟨by decide, by decide⟩))
    (by
      intro c hc h
      have h2 : asciiWord c = false := h.2
      have h1 : word c = true := h.1
      clear h
      revert h1 h2
      revert c
      decide) .plain

end UnicodeExample

end Verif.Props
