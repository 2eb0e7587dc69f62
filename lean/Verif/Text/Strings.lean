import Verif.Text.Scan
/-
`strip` and splitting at commas.
-/
set_option linter.unusedSectionVars false
namespace Verif.Text
open Verif Verif.Pkg CharTable

variable [CharTable]

theorem dropWhile_spaces {a s : Str} (ha : ∀ c ∈ a, isSpace c = true) (hs : ∀ c t, s = c :: t → isSpace c = false) :
    (a ++ s).dropWhile isSpace = s := by
  rw [List.dropWhile_append_of_pos ha, dropWhile_id hs]

theorem strip_around {a s b : Str} (ha : ∀ c ∈ a, isSpace c = true) (hb : ∀ c ∈ b, isSpace c = true)
    (h1 : ∃ c t, s = c :: t ∧ isSpace c = false) (h2 : ∃ c t, s.reverse = c :: t ∧ isSpace c = false) :
    strip (a ++ s ++ b) = s := by
  unfold strip
  obtain ⟨c, t, rfl, hc⟩ := h1
  rw [List.append_assoc, dropWhile_spaces ha (by
    intro d u hd
    simp only [List.cons_append, List.cons.injEq] at hd
    rw [← hd.1]; exact hc)]
  rw [List.reverse_append, dropWhile_spaces (by simpa using hb), List.reverse_reverse]
  intro d u hd
  obtain ⟨e, v, he, hse⟩ := h2
  rw [he] at hd
  simp only [List.cons.injEq] at hd
  rw [← hd.1]; exact hse

theorem strip_spec (s : Str) : ∃ lead trail, s = lead ++ strip s ++ trail ∧ (∀ c ∈ lead, isSpace c = true) ∧
    ∀ c ∈ trail, isSpace c = true := by
  have hw : ∀ l : Str, ∀ c ∈ l.takeWhile isSpace, isSpace c = true := fun l c hc => List.all_eq_true.1 List.all_takeWhile c hc
  refine ⟨s.takeWhile isSpace, ((s.dropWhile isSpace).reverse.takeWhile isSpace).reverse, ?_, hw s, ?_⟩
  · unfold strip
    rw [List.append_assoc, ← List.reverse_append, List.takeWhile_append_dropWhile, List.reverse_reverse,
      List.takeWhile_append_dropWhile]
  · intro c hc
    exact hw _ c (List.mem_reverse.1 hc)

theorem strip_first {s : Str} (h : strip s = s) : ∀ c t, s = c :: t → isSpace c = false := by
  intro c t hs
  by_contra hc
  have hc : isSpace c = true := by simpa using hc
  have hl : (strip s).length ≤ t.length := by
    unfold strip
    rw [List.length_reverse]
    refine Nat.le_trans (List.dropWhile_sublist _).length_le ?_
    rw [List.length_reverse, hs, List.dropWhile_cons_of_pos hc]
    exact (List.dropWhile_sublist _).length_le
  rw [h, hs, List.length_cons] at hl
  omega

theorem dropWhile_length_id {α : Type} {p : α → Bool} {l : List α} (h : (l.dropWhile p).length = l.length) : ∀ c t, l = c :: t → p c = false := by
  rintro c t rfl
  by_contra hc
  have hc : p c = true := by simpa using hc
  rw [List.dropWhile_cons_of_pos hc] at h
  have := (List.dropWhile_sublist (l := t) p).length_le
  rw [List.length_cons] at h
  omega

theorem strip_last {s : Str} (h : strip s = s) : ∀ c t, s.reverse = c :: t → isSpace c = false := by
  have h0 := dropWhile_id (strip_first h)
  unfold strip at h
  rw [h0] at h
  refine dropWhile_length_id ?_
  have := congrArg List.length h
  simpa using this

theorem spaces_dropWhile {s : Str} (h : ∀ c ∈ s, isSpace c = true) : s.dropWhile isSpace = [] := by
  have := dropWhile_spaces (s := []) h (by intro c t e; cases e)
  rwa [List.append_nil] at this

theorem strip_spaces {s : Str} (h : ∀ c ∈ s, isSpace c = true) : strip s = [] := by
  unfold strip
  rw [spaces_dropWhile h]
  rfl

theorem strip_nil_iff {s : Str} : strip s = [] ↔ ∀ c ∈ s, isSpace c = true := by
  refine ⟨?_, strip_spaces⟩
  intro h
  obtain ⟨l, t, e, hl, ht⟩ := strip_spec s
  rw [h, List.append_nil] at e
  rw [e]
  intro c hc
  exact (List.mem_append.1 hc).elim (hl c) (ht c)

theorem strip_lead {a : Str} (ha : ∀ c ∈ a, isSpace c = true) (s : Str) : strip (a ++ s) = strip s := by
  unfold strip
  rw [List.dropWhile_append_of_pos ha]

theorem dropWhile_append_eq {p : Char → Bool} : ∀ (s b : Str), (∃ c ∈ s, p c = false) → (s ++ b).dropWhile p = s.dropWhile p ++ b := by
  intro s
  induction s with
  | nil => rintro b ⟨c, hc, -⟩; cases hc
  | cons d s ih =>
    rintro b ⟨c, hc, hp⟩
    rw [List.cons_append, List.dropWhile_cons, List.dropWhile_cons]
    by_cases hd : p d = true
    · rw [if_pos hd, if_pos hd]
      rw [List.mem_cons] at hc
      rcases hc with rfl | hc
      · rw [hp] at hd; cases hd
      · exact ih b ⟨c, hc, hp⟩
    · rw [if_neg hd, if_neg hd]
      rfl

theorem strip_trail {b : Str} (hb : ∀ c ∈ b, isSpace c = true) (s : Str) : strip (s ++ b) = strip s := by
  by_cases hs : ∀ c ∈ s, isSpace c = true
  · rw [strip_spaces hs, strip_spaces (by intro c hc; exact (List.mem_append.1 hc).elim (hs c) (hb c))]
  · have : ∃ c ∈ s, isSpace c = false := by
      by_contra hc
      push Not at hc
      exact hs (fun c h => by simpa using hc c h)
    unfold strip
    rw [dropWhile_append_eq s b this, List.reverse_append, List.dropWhile_append_of_pos (by simpa using hb)]

theorem strip_strip (s : Str) : strip (strip s) = strip s := by
  obtain ⟨l, t, e, hl, ht⟩ := strip_spec s
  conv_rhs => rw [e, List.append_assoc, strip_lead hl, strip_trail ht]

/-- `[part.strip() for part in s.split(",")]` -/
def pieces (s : Str) : List Str := (splitComma s).map strip

theorem comma_not_space : isSpace ',' = false := (plain_facts ',' (by simp)).2.2

theorem splitComma_cons {c : Char} (hc : c ≠ ',') (s : Str) : ∃ p ps, splitComma s = p :: ps ∧ splitComma (c :: s) = (c :: p) :: ps := by
  cases h : splitComma s with
  | nil => exact absurd h (splitComma_ne_nil s)
  | cons p ps => exact ⟨p, ps, rfl, by rw [splitComma, if_neg hc, h]⟩

theorem splitComma_comma (s : Str) : splitComma (',' :: s) = [] :: splitComma s := by rw [splitComma, if_pos rfl]

theorem pieces_lead {a : Str} (ha : ∀ c ∈ a, isSpace c = true) (s : Str) : pieces (a ++ s) = pieces s := by
  unfold pieces
  induction a with
  | nil => rfl
  | cons c a ih =>
    have hc : c ≠ ',' := by
      rintro rfl
      have := ha ',' (by simp)
      rw [comma_not_space] at this
      cases this
    obtain ⟨p, ps, h1, h2⟩ := splitComma_cons hc (a ++ s)
    rw [List.cons_append, h2, ← ih (fun d hd => ha d (by simp [hd])), h1, List.map_cons, List.map_cons]
    congr 1
    exact strip_lead (a := [c]) (by intro d hd; rw [List.mem_singleton] at hd; rw [hd]; exact ha c (by simp)) p

theorem splitComma_end {b : Str} (hb : ',' ∉ b) : ∀ s : Str, ∃ init last, splitComma s = init ++ [last] ∧ splitComma (s ++ b) = init ++ [last ++ b] := by
  intro s
  induction s with
  | nil => exact ⟨[], [], rfl, by rw [List.nil_append, splitComma_plain hb]; rfl⟩
  | cons c s ih =>
    obtain ⟨init, last, h1, h2⟩ := ih
    by_cases hc : c = ','
    · subst hc
      exact ⟨[] :: init, last, by rw [splitComma_comma, h1]; rfl, by rw [List.cons_append, splitComma_comma, h2]; rfl⟩
    · obtain ⟨p, ps, e1, e2⟩ := splitComma_cons hc s
      obtain ⟨q, qs, e3, e4⟩ := splitComma_cons hc (s ++ b)
      rw [List.cons_append, e2, e4]
      rw [h1] at e1
      rw [h2] at e3
      cases init with
      | nil =>
        simp only [List.nil_append, List.cons.injEq] at e1 e3
        exact ⟨[], c :: last, by rw [← e1.1, ← e1.2]; rfl, by rw [← e3.1, ← e3.2]; rfl⟩
      | cons x init =>
        simp only [List.cons_append, List.cons.injEq] at e1 e3
        exact ⟨(c :: x) :: init, last, by rw [← e1.1, ← e1.2]; rfl, by rw [← e3.1, ← e3.2]; rfl⟩

theorem no_comma_of_space {b : Str} (hb : ∀ c ∈ b, isSpace c = true) : ',' ∉ b := by
  intro h
  have := hb _ h
  rw [comma_not_space] at this
  cases this

theorem pieces_trail {b : Str} (hb : ∀ c ∈ b, isSpace c = true) (s : Str) : pieces (s ++ b) = pieces s := by
  obtain ⟨init, last, h1, h2⟩ := splitComma_end (no_comma_of_space hb) s
  unfold pieces
  rw [h1, h2, List.map_append, List.map_append, List.map_singleton, List.map_singleton, strip_trail hb]

theorem pieces_strip (s : Str) : pieces (strip s) = pieces s := by
  obtain ⟨l, t, e, hl, ht⟩ := strip_spec s
  conv_rhs => rw [e, List.append_assoc, pieces_lead hl, pieces_trail ht]

/-- the tokens of each piece that has some -/
def tokenizePieces (lex : List (Re × Option Kind)) : List Str → Except PErr (List (List Token))
  | [] => .ok []
  | p :: ps =>
    if (scan lex p).2.length > 0 then .error (unparsedError (scan lex p).2)
    else match tokenizePieces lex ps with
      | .error e => .error e
      | .ok ts => .ok (if (scan lex p).1.length > 0 then (scan lex p).1 :: ts else ts)

theorem tokenizeParts_pieces (lex : List (Re × Option Kind)) (ps : List Str) :
    tokenizeParts lex ps = tokenizePieces lex (ps.map strip) := by
  induction ps with
  | nil => rfl
  | cons p ps ih =>
    rw [tokenizeParts, List.map_cons, tokenizePieces, ih]
    cases scan lex (strip p)
    rfl

theorem tokenize_pieces (lex : List (Re × Option Kind)) (s : Str) :
    tokenize lex s = if strip s = [] then .ok [[⟨.any, none⟩]] else tokenizePieces lex (pieces s) := by
  unfold tokenize
  simp only [List.length_eq_zero_iff]
  split
  · rfl
  · rw [tokenizeParts_pieces]
    exact congrArg (tokenizePieces lex) (pieces_strip s)

end Verif.Text
