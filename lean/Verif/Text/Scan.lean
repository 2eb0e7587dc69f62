import Verif.Text.Lemmas
/-
What the scanners and parsers do with the texts that are printed.
-/
set_option linter.unusedSectionVars false
namespace Verif.Text
open Verif Verif.Pkg CharTable Re

variable [CharTable]

/-! ### versions -/

theorem ValidVersion.head {v : Str} (h : ValidVersion v) : ∃ c u, v = c :: u ∧ isDigit c = true := by
  obtain ⟨n, -, ⟨c, t, rfl, hc⟩, rfl | ⟨w, -, rfl⟩⟩ := h
  · exact ⟨c, t, rfl, hc⟩
  · exact ⟨c, t ++ '-' :: w, rfl, hc⟩

theorem ValidVersion.chars {v : Str} (h : ValidVersion v) : ∀ c ∈ v, isWord c = true ∨ c = '.' ∨ c = '-' := by
  obtain ⟨n, hn, -, rfl | ⟨w, hw, rfl⟩⟩ := h
  · intro c hc
    rcases hn.chars c hc with h | h
    · exact Or.inl h
    · exact Or.inr (Or.inl h)
  · intro c hc
    rw [List.mem_append, List.mem_cons] at hc
    rcases hc with hc | hc | hc
    · rcases hn.chars c hc with h | h
      · exact Or.inl h
      · exact Or.inr (Or.inl h)
    · exact Or.inr (Or.inr hc)
    · exact Or.inl (hw.2 c hc)

theorem ValidVersion.last {v : Str} (h : ValidVersion v) : ∃ c u, v.reverse = c :: u ∧ isWord c = true := by
  obtain ⟨n, hn, -, rfl | ⟨w, hw, rfl⟩⟩ := h
  · exact hn.last
  · obtain ⟨c, u, hr, hc⟩ := hw.last
    exact ⟨c, u ++ '-' :: n.reverse, by simp [hr], hc⟩

theorem ValidVersion.no_space {v : Str} (h : ValidVersion v) : ∀ c ∈ v, isSpace c = false := by
  intro c hc
  rcases h.chars c hc with h | rfl | rfl
  · exact CharTable.word_space c h
  · exact (plain_facts '.' (by simp)).2.2
  · exact (plain_facts '-' (by simp)).2.2

theorem ValidName.no_space {n : Str} (h : ValidName n) : ∀ c ∈ n, isSpace c = false := by
  intro c hc
  rcases h.chars c hc with h | rfl
  · exact CharTable.word_space c h
  · exact (plain_facts '.' (by simp)).2.2

/-- `$` -/
def AtEnd (t : Str) : Prop := t = [] ∨ t = ['\n']

open Classical in
/-- `_VERSION_R` matches exactly the texts of versions at the end of the string. -/
theorem mem_version (s s' : St) :
    s' ∈ run versionR s ↔ ∃ v t, ValidVersion v ∧ s.rest = v ++ t ∧ AtEnd t ∧ s' = s.adv v t := by
  have hrec : Rec (.seq nameR (.opt (.seq (.chr '-') (.plus wordR))))
      (fun z => ∃ n, ValidName n ∧ (z = n ∨ ∃ w, Word w ∧ z = n ++ '-' :: w)) := by
    refine (rec_seq rec_name (rec_opt (rec_seq (rec_chr '-') rec_word))).congr ?_
    intro z
    constructor
    · rintro ⟨n, y, rfl, hn, ⟨_, w, rfl, rfl, hw⟩ | rfl⟩
      · exact ⟨n, hn, Or.inr ⟨w, hw, rfl⟩⟩
      · exact ⟨n, hn, Or.inl (by simp)⟩
    · rintro ⟨n, hn, rfl | ⟨w, hw, rfl⟩⟩
      · exact ⟨z, [], by simp, hn, Or.inr rfl⟩
      · exact ⟨n, '-' :: w, rfl, hn, Or.inl ⟨['-'], w, rfl, rfl, hw⟩⟩
  have hdig : run (.ahead (.cls isDigit)) s = if ∃ c t, s.rest = c :: t ∧ isDigit c = true then [s] else [] := by
    obtain ⟨pre, rest, caps⟩ := s
    simp only [run]
    cases rest with
    | nil => simp
    | cons c cs =>
      by_cases h : isDigit c = true
      · have he : ∃ d t, c :: cs = d :: t ∧ isDigit d = true := ⟨c, cs, rfl, h⟩
        simp only [he, h, if_true]
        rfl
      · have he : ¬ ∃ d t, c :: cs = d :: t ∧ isDigit d = true := by
          rintro ⟨d, t, e, hd⟩
          simp only [List.cons.injEq] at e
          rw [← e.1] at hd
          exact h hd
        simp only [he, h, if_false]
        rfl
  have hassoc : run (.seq nameR (.seq (.opt (.seq (.chr '-') (.plus wordR))) .eos)) s =
      (run (.seq nameR (.opt (.seq (.chr '-') (.plus wordR)))) s).flatMap (run .eos) := by
    simp only [run]
    rw [List.flatMap_assoc]
  unfold versionR
  rw [run, hdig]
  constructor
  · intro h
    split at h
    · next hd =>
      simp only [List.flatMap_cons, List.flatMap_nil, List.append_nil] at h
      rw [hassoc, List.mem_flatMap] at h
      obtain ⟨s1, h1, h2⟩ := h
      obtain ⟨z, t, ⟨n, hn, hz⟩, hr, rfl⟩ := (hrec _ _).1 h1
      simp only [run] at h2
      split at h2
      · next he =>
        rw [List.mem_singleton] at h2
        subst h2
        refine ⟨z, t, ⟨n, hn, ?_, hz⟩, hr, he, rfl⟩
        obtain ⟨c, u, hc, hdc⟩ := hd
        obtain ⟨d, v, rfl, hw⟩ := hn.head
        rcases hz with rfl | ⟨w, -, rfl⟩
        · rw [hr] at hc
          simp only [List.cons_append, List.cons.injEq] at hc
          exact ⟨d, v, rfl, by rw [hc.1]; exact hdc⟩
        · rw [hr] at hc
          simp only [List.cons_append, List.cons.injEq] at hc
          exact ⟨d, v, rfl, by rw [hc.1]; exact hdc⟩
      · simp at h2
    · simp at h
  · rintro ⟨v, t, hv, hr, ht, rfl⟩
    have hd : ∃ c t, s.rest = c :: t ∧ isDigit c = true := by
      obtain ⟨c, u, rfl, hc⟩ := hv.head
      exact ⟨c, u ++ t, hr, hc⟩
    rw [if_pos hd]
    simp only [List.flatMap_cons, List.flatMap_nil, List.append_nil]
    rw [hassoc, List.mem_flatMap]
    obtain ⟨n, hn, -, hz⟩ := hv
    refine ⟨s.adv v t, (hrec _ _).2 ⟨v, t, ⟨n, hn, hz⟩, hr, rfl⟩, ?_⟩
    have ht' : (s.adv v t).rest = [] ∨ (s.adv v t).rest = ['\n'] := ht
    simp only [run]
    rw [if_pos ht']
    simp

theorem atEnd_unique {v v' t t' : Str} (hv : ValidVersion v) (hv' : ValidVersion v') (ht : AtEnd t) (ht' : AtEnd t')
    (h : v ++ t = v' ++ t') : v = v' ∧ t = t' := by
  have hn : ∀ {v : Str}, ValidVersion v → '\n' ∉ v := by
    intro v hv hm
    have := hv.no_space _ hm
    rw [CharTable.newline_space] at this
    cases this
  have key : ∀ {v v' : Str}, ValidVersion v → v = v' ++ ['\n'] → False := by
    rintro v v' h1 rfl
    exact hn h1 (by simp)
  rcases ht with rfl | rfl <;> rcases ht' with rfl | rfl
  · simpa using h
  · rw [List.append_nil] at h
    exact (key hv h).elim
  · rw [List.append_nil] at h
    exact (key hv' h.symm).elim
  · rw [List.append_left_inj] at h
    exact ⟨h, rfl⟩

/-- at the end of a string, a version is matched as a whole -/
theorem fst_version {v : Str} (hv : ValidVersion v) {s : St} {t : Str} (h : s.rest = v ++ t) (ht : AtEnd t) :
    Fst versionR s (s.adv v t) := by
  have hm : s.adv v t ∈ run versionR s := (mem_version s _).2 ⟨v, t, hv, h, ht, rfl⟩
  unfold Fst
  cases hr : run versionR s with
  | nil => rw [hr] at hm; simp at hm
  | cons x l =>
    have hx : x ∈ run versionR s := by rw [hr]; simp
    obtain ⟨v', t', hv', h', ht', rfl⟩ := (mem_version s x).1 hx
    obtain ⟨rfl, rfl⟩ := atEnd_unique hv hv' ht ht' (h.symm.trans h')
    rfl

theorem version_none {s : St} (h : ∀ c t, s.rest = c :: t → isDigit c = false) : run versionR s = [] := by
  rw [List.eq_nil_iff_forall_not_mem]
  intro s' hs'
  obtain ⟨v, t, hv, hr, -, -⟩ := (mem_version s s').1 hs'
  obtain ⟨c, u, rfl, hc⟩ := hv.head
  rw [h c _ hr] at hc
  cases hc

/-- no version if there is a blank ahead -/
theorem version_none_blank {s : St} (h : ' ' ∈ s.rest) : run versionR s = [] := by
  rw [List.eq_nil_iff_forall_not_mem]
  intro s' hs'
  obtain ⟨v, t, hv, hr, ht, -⟩ := (mem_version s s').1 hs'
  rw [hr, List.mem_append] at h
  rcases h with h | h
  · have := hv.no_space _ h
    rw [CharTable.blank_space] at this
    cases this
  · rcases ht with rfl | rfl <;> simp at h

theorem name_none {s : St} (h : ∀ c t, s.rest = c :: t → isWord c = false) : run nameR s = [] := by
  refine rec_name.none ?_
  intro x t hx hr
  obtain ⟨c, u, rfl, hc⟩ := hx.head
  rw [h c _ hr] at hc
  cases hc

/-! ### scanning -/

/-- the scanner reads all the rest, as these tokens -/
def Scans (lex : List (Re × Option Kind)) (s : St) (ts : List Token) : Prop :=
  ∀ fuel, s.rest.length < fuel → scanLoop lex fuel s = (ts, [])

theorem scans_end {lex : List (Re × Option Kind)} {s : St} (h : s.rest = []) : Scans lex s [] := by
  intro fuel hf
  cases fuel with
  | zero => omega
  | succ fuel =>
    unfold scanLoop
    cases scanStep lex s with
    | none => simp [h]
    | some r => simp [h]

theorem scans_token {lex : List (Re × Option Kind)} {s : St} {k : Kind} {x t : Str} {ts : List Token}
    (h : scanStep lex s = some (some k, s.adv x t)) (hr : s.rest = x ++ t) (hx : x ≠ []) (ht : Scans lex (s.adv x t) ts) :
    Scans lex s (⟨k, some x⟩ :: ts) := by
  intro fuel hf
  cases fuel with
  | zero => omega
  | succ fuel =>
    have hl : (s.adv x t).rest.length < s.rest.length := by
      show t.length < _
      rw [hr]
      simp only [List.length_append]
      have := List.length_pos_iff.2 hx
      omega
    have htake : s.rest.take (s.rest.length - t.length) = x := by rw [hr]; simp
    unfold scanLoop
    rw [h]
    simp only
    rw [if_pos hl, ht fuel (by omega)]
    simp only [St.adv, htake]

theorem scans_skip {lex : List (Re × Option Kind)} {s : St} {x t : Str} {ts : List Token}
    (h : scanStep lex s = some (none, s.adv x t)) (hr : s.rest = x ++ t) (hx : x ≠ []) (ht : Scans lex (s.adv x t) ts) :
    Scans lex s ts := by
  intro fuel hf
  cases fuel with
  | zero => omega
  | succ fuel =>
    have hl : (s.adv x t).rest.length < s.rest.length := by
      show t.length < _
      rw [hr]
      simp only [List.length_append]
      have := List.length_pos_iff.2 hx
      omega
    unfold scanLoop
    rw [h]
    simp only
    rw [if_pos hl, ht fuel (by omega)]

theorem scanStep_hit {r : Re} {k : Option Kind} {lex : List (Re × Option Kind)} {s s' : St} (h : Fst r s s') :
    scanStep ((r, k) :: lex) s = some (k, s') := by
  have : r.first s = some s' := h
  simp only [scanStep, this]

theorem scanStep_miss {r : Re} {k : Option Kind} {lex : List (Re × Option Kind)} {s : St} (h : run r s = []) :
    scanStep ((r, k) :: lex) s = scanStep lex s := by
  have : r.first s = none := by unfold first; rw [h]; rfl
  simp only [scanStep, this]

/-- The two scanners -/
inductive IsLexicon : List (Re × Option Kind) → Prop where
  | constraints : IsLexicon constraintsLexicon
  | requirements : IsLexicon requirementsLexicon

/-- where neither a version nor a name can begin, both scanners look for an operator -/
theorem scanStep_operators {lex : List (Re × Option Kind)} (hl : IsLexicon lex) {s : St}
    (h : ∀ c t, s.rest = c :: t → isWord c = false) : scanStep lex s = scanStep operators s := by
  have hd : ∀ c t, s.rest = c :: t → isDigit c = false := by
    intro c t hc
    by_contra hdc
    have := CharTable.digit_word c (by simpa using hdc)
    rw [h c t hc] at this
    cases this
  cases hl with
  | constraints => exact scanStep_miss (version_none hd)
  | requirements => exact (scanStep_miss (version_none hd)).trans (scanStep_miss (name_none h))

/-- the text of an operator -/
def opText : Kind → Option Str
  | .equal => some ['=', '=']
  | .geq => some ['>', '=']
  | .gt => some ['>']
  | .leq => some ['<', '=']
  | .lt => some ['<']
  | .not => some ['!', '=']
  | .upstream => some ['^', '=']
  | _ => none

theorem scanStep_op {lex : List (Re × Option Kind)} (hl : IsLexicon lex) {s : St} {k : Kind} {x u : Str}
    (hk : opText k = some x) (h : s.rest = x ++ ' ' :: u) : scanStep lex s = some (some k, s.adv x (' ' :: u)) := by
  have hp : ∀ c ∈ ['=', '>', '<', '!', '^'], isWord c = false := by
    intro c hc
    refine (plain_facts c ?_).1
    simp only [List.mem_cons, List.not_mem_nil, or_false] at hc ⊢
    rcases hc with h | h | h | h | h <;> simp [h]
  obtain ⟨pre, rest, caps⟩ := s
  simp only at h
  subst h
  rw [scanStep_operators hl]
  · cases k <;> simp only [opText, Option.some.injEq, reduceCtorEq] at hk <;> subst hk <;> rfl
  · intro c t hc
    apply hp
    cases k <;> simp only [opText, Option.some.injEq, reduceCtorEq] at hk <;> subst hk <;>
      simp only [List.cons_append, List.cons.injEq] at hc <;> simp [← hc.1]

theorem scanStep_blank {lex : List (Re × Option Kind)} (hl : IsLexicon lex) {s : St} {u : Str}
    (h : s.rest = ' ' :: u) (hu : ∀ c t, u = c :: t → c ≠ ' ') : scanStep lex s = some (none, s.adv [' '] u) := by
  rw [scanStep_operators hl]
  · have hb : Fst (.plus (.chr ' ')) s (s.adv [' '] u) := by
      refine fst_seq (s1 := s.adv [' '] u) (fst_cls h (by simp)) (fst_star_done ((rec_chr ' ').none ?_))
      rintro x t rfl hr
      exact hu ' ' t hr rfl
    have hm : ∀ cs : List Char, (∀ t, cs = ' ' :: t → False) → cs ≠ [] → run (.lit cs) s = [] := by
      intro cs hcs hne
      refine (rec_lit cs).none ?_
      rintro x t rfl hr
      cases x with
      | nil => exact hne rfl
      | cons c x =>
        rw [h] at hr
        simp only [List.cons_append, List.cons.injEq] at hr
        exact hcs x (by rw [hr.1])
    unfold operators
    rw [scanStep_miss (hm _ (by simp) (by simp)), scanStep_miss (hm _ (by simp) (by simp)),
      scanStep_miss (hm _ (by simp) (by simp)), scanStep_miss (hm _ (by simp) (by simp)),
      scanStep_miss (hm _ (by simp) (by simp)), scanStep_miss (hm _ (by simp) (by simp)),
      scanStep_miss (hm _ (by simp) (by simp)), scanStep_miss (hm _ (by simp) (by simp))]
    exact scanStep_hit hb
  · intro c t hc
    rw [h] at hc
    simp only [List.cons.injEq] at hc
    rw [← hc.1]
    exact blank_not_word

theorem scanStep_star {lex : List (Re × Option Kind)} (hl : IsLexicon lex) {s : St} {u : Str}
    (h : s.rest = '*' :: u) : scanStep lex s = some (some .any, s.adv ['*'] u) := by
  obtain ⟨pre, rest, caps⟩ := s
  simp only at h
  subst h
  rw [scanStep_operators hl]
  · rfl
  · intro c t hc
    simp only [List.cons.injEq] at hc
    rw [← hc.1]
    exact (plain_facts '*' (by simp)).1

theorem scanStep_version {lex : List (Re × Option Kind)} (hl : IsLexicon lex) {s : St}
    (h : ValidVersion s.rest) : scanStep lex s = some (some .version, s.adv s.rest []) := by
  have hf := fst_version h (s := s) (t := []) (by simp) (Or.inl rfl)
  cases hl with
  | constraints => exact scanStep_hit hf
  | requirements => exact scanStep_hit hf

/-- an operator, a blank and a version -/
theorem scans_op {lex : List (Re × Option Kind)} (hl : IsLexicon lex) {s : St} {k : Kind} {x v : Str}
    (hk : opText k = some x) (hv : ValidVersion v) (h : s.rest = x ++ ' ' :: v) :
    Scans lex s [⟨k, some x⟩, ⟨.version, some v⟩] := by
  have hx : x ≠ [] := by rintro rfl; cases k <;> simp [opText] at hk
  refine scans_token (scanStep_op hl hk h) h hx ?_
  refine scans_skip (x := [' ']) (t := v) (scanStep_blank hl rfl ?_) rfl (by simp) ?_
  · rintro c t rfl rfl
    obtain ⟨d, u, hd, hdig⟩ := hv.head
    simp only [List.cons.injEq] at hd
    rw [← hd.1] at hdig
    have := CharTable.digit_word _ hdig
    rw [blank_not_word] at this
    cases this
  · refine scans_token (x := v) (t := []) (scanStep_version hl hv) (by simp [St.adv]) ?_ (scans_end rfl)
    obtain ⟨c, u, rfl, -⟩ := hv.head
    simp

/-- a name, an operator and a version -/
theorem scans_requirement {s : St} {k : Kind} {n x v : Str} (hn : ValidName n) (hk : opText k = some x)
    (hv : ValidVersion v) (h : s.rest = n ++ ' ' :: (x ++ ' ' :: v)) :
    Scans requirementsLexicon s [⟨.distribution, some n⟩, ⟨k, some x⟩, ⟨.version, some v⟩] := by
  refine scans_token (t := ' ' :: (x ++ ' ' :: v)) ?_ h hn.ne_nil ?_
  · refine (scanStep_miss (version_none_blank ?_)).trans (scanStep_hit (fst_name hn h ?_))
    · rw [h]; simp
    · intro c u hc
      simp only [List.cons.injEq] at hc
      rw [← hc.1]
      exact ⟨blank_not_word, by decide⟩
  · refine scans_skip (x := [' ']) (t := x ++ ' ' :: v) (scanStep_blank .requirements rfl ?_) rfl (by simp) ?_
    · rintro c t hc rfl
      cases k <;> simp only [opText, Option.some.injEq, reduceCtorEq] at hk <;> subst hk <;> simp at hc
    · exact scans_op .requirements hk hv rfl

/-- a name alone is read as a name or, if it looks like one, as a version -/
theorem scans_name {s : St} {n : Str} (hn : ValidName n) (h : s.rest = n) :
    ∃ k, Scans requirementsLexicon s [⟨k, some n⟩] := by
  subst h
  by_cases hd : BeginsWithDigit s.rest
  · exact ⟨.version, scans_token (x := s.rest) (t := []) (scanStep_version .requirements ⟨_, hn, hd, Or.inl rfl⟩)
      (by simp) hn.ne_nil (scans_end rfl)⟩
  · refine ⟨.distribution, scans_token (x := s.rest) (t := []) ?_ (by simp) hn.ne_nil (scans_end rfl)⟩
    refine (scanStep_miss (version_none ?_)).trans (scanStep_hit (fst_name hn (by simp) stop_nil))
    intro c t hc
    by_contra hdc
    exact hd ⟨c, t, hc, by simpa using hdc⟩

/-! ### strings -/

theorem dropWhile_id {s : Str} (h : ∀ c t, s = c :: t → isSpace c = false) : s.dropWhile isSpace = s := by
  cases s with
  | nil => rfl
  | cons c t => rw [List.dropWhile_cons_of_neg (by rw [h c t rfl]; simp)]

theorem strip_id {s : Str} (h1 : ∀ c t, s = c :: t → isSpace c = false)
    (h2 : ∀ c t, s.reverse = c :: t → isSpace c = false) : strip s = s := by
  unfold strip
  rw [dropWhile_id h1, dropWhile_id h2, List.reverse_reverse]

theorem strip_blank (s : Str) : strip (' ' :: s) = strip s := by
  unfold strip
  rw [List.dropWhile_cons_of_pos (by rw [CharTable.blank_space])]

theorem splitComma_ne_nil (s : Str) : splitComma s ≠ [] := by
  cases s with
  | nil => simp [splitComma]
  | cons c cs =>
    unfold splitComma
    split
    · simp
    · split <;> simp

theorem splitComma_append {a : Str} (ha : ',' ∉ a) : ∀ b : Str,
    splitComma (a ++ ',' :: b) = a :: splitComma b := by
  intro b
  induction a with
  | nil => simp [splitComma]
  | cons c a ih =>
    simp only [List.mem_cons, not_or] at ha
    rw [List.cons_append, splitComma, if_neg (fun h => ha.1 h.symm), ih ha.2]

theorem splitComma_plain {a : Str} (ha : ',' ∉ a) : splitComma a = [a] := by
  induction a with
  | nil => rfl
  | cons c a ih =>
    simp only [List.mem_cons, not_or] at ha
    rw [splitComma, if_neg (fun h => ha.1 h.symm), ih ha.2]

theorem scan_of_scans {lex : List (Re × Option Kind)} {s : Str} {ts : List Token} (h : Scans lex (St.start s) ts) :
    scan lex s = (ts, []) := h _ (Nat.lt_succ_self _)

/-- one block -/
theorem tokenize_one {lex : List (Re × Option Kind)} {s : Str} {ts : List Token} (hne : s ≠ []) (hs : strip s = s)
    (hc : ',' ∉ s) (h : Scans lex (St.start s) ts) (hts : ts ≠ []) : tokenize lex s = .ok [ts] := by
  unfold tokenize
  simp only [hs]
  rw [if_neg (by simpa using hne), splitComma_plain hc]
  simp only [tokenizeParts, hs, scan_of_scans h]
  simp [hts, List.length_pos_iff]

/-! ### constraints -/

variable {U : Type} [LinearOrder U] [VersionText U]

/-- the operator and the text of the version of a printed constraint -/
def printed : Constraint U → Option (Kind × Str × Str)
  | .any => none
  | .equal v => some (.equal, ['=', '='], VersionText.toStr v)
  | .not v => some (.not, ['!', '='], VersionText.toStr v)
  | .geq v => some (.geq, ['>', '='], VersionText.toStr v)
  | .gt v => some (.gt, ['>'], VersionText.toStr v)
  | .leq v => some (.leq, ['<', '='], VersionText.toStr v)
  | .lt v => some (.lt, ['<'], VersionText.toStr v)
  | .upstream v => some (.upstream, ['^', '='], VersionText.upstreamStr v.upstream)

/-- what is read when a constraint has been printed: `^=` loses the build number -/
def reread : Constraint U → Constraint U
  | .upstream v => .upstream ⟨v.upstream, 0⟩
  | c => c

theorem printed_facts {c : Constraint U} (hp : ConstraintPrintable c) {k : Kind} {x t : Str}
    (h : printed c = some (k, x, t)) :
    constraintPart c = x ++ ' ' :: t ∧ opText k = some x ∧ ValidVersion t ∧
      ∀ tok : Token, tok.kind = k → operatorFactory tok ⟨.version, some t⟩ = .ok (reread c) := by
  cases c with
  | any => cases h
  | upstream v =>
    simp only [printed, Option.some.injEq, Prod.mk.injEq] at h
    obtain ⟨rfl, rfl, rfl⟩ := h
    refine ⟨by simp [constraintPart, constraintStr], rfl, hp.valid, ?_⟩
    intro tok ht
    unfold operatorFactory
    rw [ht]
    simp only [specFactory, hp.back, reread]
  | _ v =>
    simp only [printed, Option.some.injEq, Prod.mk.injEq] at h
    obtain ⟨rfl, rfl, rfl⟩ := h
    have hp' : Printable v := hp
    refine ⟨by simp [constraintPart, constraintStr], rfl, hp'.valid, ?_⟩
    intro tok ht
    unfold operatorFactory
    rw [ht]
    simp only [specFactory, hp'.back, reread]

theorem printed_none {c : Constraint U} : printed c = none ↔ c = .any := by cases c <;> simp [printed]

theorem op_chars {k : Kind} {x : Str} (hk : opText k = some x) : ∃ c u, x = c :: u ∧ isSpace c = false ∧ ',' ∉ x := by
  have hp : ∀ c ∈ ['=', '>', '<', '!', '^'], isSpace c = false := by
    intro c hc
    refine (plain_facts c ?_).2.2
    simp only [List.mem_cons, List.not_mem_nil, or_false] at hc ⊢
    rcases hc with h | h | h | h | h <;> simp [h]
  cases k <;> simp only [opText, Option.some.injEq, reduceCtorEq] at hk <;> subst hk <;>
    exact ⟨_, _, rfl, hp _ (by simp), by decide⟩

theorem no_comma {v : Str} (h : ValidVersion v) : ',' ∉ v := by
  intro hm
  rcases h.chars _ hm with h | h | h
  · rw [comma_not_word] at h; cases h
  · exact absurd h (by decide)
  · exact absurd h (by decide)

theorem name_no_comma {n : Str} (h : ValidName n) : ',' ∉ n := by
  intro hm
  rcases h.chars _ hm with h | h
  · rw [comma_not_word] at h; cases h
  · exact absurd h (by decide)

/-- the text "operator version" is not changed by `strip` and contains no comma -/
theorem op_text {k : Kind} {x v : Str} (hk : opText k = some x) (hv : ValidVersion v) (n : Str)
    (hn : ∀ c t, n = c :: t → isSpace c = false) :
    strip (n ++ x ++ ' ' :: v) = n ++ x ++ ' ' :: v ∧ ',' ∉ x ++ ' ' :: v := by
  obtain ⟨c, u, rfl, hc, hcom⟩ := op_chars hk
  obtain ⟨d, w, hr, hd⟩ := hv.last
  refine ⟨strip_id ?_ ?_, ?_⟩
  · intro e t he
    cases n with
    | nil =>
      simp only [List.nil_append, List.cons_append, List.cons.injEq] at he
      rw [← he.1]; exact hc
    | cons a n =>
      simp only [List.cons_append, List.cons.injEq] at he
      rw [← he.1]; exact hn a n rfl
  · intro e t he
    have : (n ++ (c :: u) ++ ' ' :: v).reverse = d :: (w ++ ' ' :: (n ++ (c :: u)).reverse) := by
      rw [List.reverse_append, List.reverse_cons, hr]
      simp
    rw [this] at he
    simp only [List.cons.injEq] at he
    rw [← he.1]
    exact CharTable.word_space d hd
  · intro hm
    rcases List.mem_append.1 hm with h | h
    · exact hcom h
    rcases List.mem_cons.1 h with h | h
    · exact absurd h (by decide)
    · exact no_comma hv h

/-- A printed constraint is read back (but `^=` loses its build number). -/
theorem parse_part {c : Constraint U} (hp : ConstraintPrintable c) :
    parseConstraints (constraintPart c) = .ok [reread c] := by
  cases hpr : printed c with
  | none =>
    rw [printed_none] at hpr
    subst hpr
    have : tokenize constraintsLexicon ['*'] = .ok [[⟨.any, some ['*']⟩]] := by
      refine tokenize_one (by simp) (strip_id ?_ ?_) (by decide)
        (scans_token (x := ['*']) (t := []) (scanStep_star .constraints rfl) rfl (by simp) (scans_end rfl)) (by simp)
      · intro c t h
        simp only [List.cons.injEq] at h
        rw [← h.1]; exact (plain_facts '*' (by simp)).2.2
      · intro c t h
        simp only [List.reverse_singleton, List.cons.injEq] at h
        rw [← h.1]; exact (plain_facts '*' (by simp)).2.2
    have hpart : constraintPart (.any : Constraint U) = ['*'] := by simp [constraintPart]
    unfold parseConstraints
    rw [hpart, this]
    simp [computeAll, computeConstraint, reread]
  | some r =>
    obtain ⟨k, x, t⟩ := r
    obtain ⟨h1, h2, h3, h4⟩ := printed_facts hp hpr
    obtain ⟨hs, hc⟩ := op_text h2 h3 [] (by simp)
    rw [List.nil_append] at hs
    have htok := tokenize_one (lex := constraintsLexicon) (by simp) hs hc (scans_op .constraints h2 h3 rfl) (by simp)
    unfold parseConstraints
    rw [h1, htok]
    simp only [computeAll, computeConstraint, h4 ⟨k, some x⟩ rfl]

end Verif.Text
