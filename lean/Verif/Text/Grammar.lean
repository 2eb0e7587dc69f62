import Verif.Text.GrammarSpec
import Verif.Text.Strings
import Verif.Text.PackageLemmas
/-
What the scanners do with constraint and requirement strings.
-/
set_option linter.unusedSectionVars false
namespace Verif.Text
open Verif Verif.Pkg CharTable Re

variable [CharTable]

def Op.kind : Op → Kind
  | .equal => .equal
  | .not => .not
  | .geq => .geq
  | .gt => .gt
  | .leq => .leq
  | .lt => .lt
  | .upstream => .upstream

theorem opText_iff {k : Kind} {x : Str} : opText k = some x ↔ ∃ o : Op, o.kind = k ∧ o.text = x := by
  constructor
  · intro h
    cases k <;> simp only [opText, Option.some.injEq, reduceCtorEq] at h
    · exact ⟨.equal, rfl, h⟩
    · exact ⟨.geq, rfl, h⟩
    · exact ⟨.gt, rfl, h⟩
    · exact ⟨.leq, rfl, h⟩
    · exact ⟨.lt, rfl, h⟩
    · exact ⟨.not, rfl, h⟩
    · exact ⟨.upstream, rfl, h⟩
  · rintro ⟨o, rfl, rfl⟩
    cases o <;> rfl

theorem Op.ne_nil (o : Op) : o.text ≠ [] := by cases o <;> simp [Op.text]

theorem Op.chars (o : Op) : ∀ c ∈ o.text, c ∈ ['=', '<', '>', '!', '^'] := by cases o <;> simp [Op.text]

theorem op_char_facts {c : Char} (h : c ∈ ['=', '<', '>', '!', '^']) : isWord c = false ∧ isSpace c = false ∧ c ≠ ',' ∧ c ≠ '.' ∧ c ≠ '-' ∧ c ≠ ' ' ∧ c ≠ '\n' := by
  have := plain_facts c (by
    simp only [List.mem_cons, List.not_mem_nil, or_false] at h ⊢
    rcases h with h | h | h | h | h <;> simp [h])
  refine ⟨this.1, this.2.2, ?_⟩
  simp only [List.mem_cons, List.not_mem_nil, or_false] at h
  rcases h with rfl | rfl | rfl | rfl | rfl <;> decide

theorem Op.head (o : Op) : ∃ c t, o.text = c :: t ∧ c ∈ ['=', '<', '>', '!', '^'] := by
  cases o <;> exact ⟨_, _, rfl, by simp⟩

/-! ### what the scanners accept -/

/-- the texts of the tokens of a class -/
def TokText (k : Kind) (x : Str) : Prop :=
  (k = .version ∧ ValidVersion x) ∨ (k = .distribution ∧ ValidName x) ∨ (k = .any ∧ x = ['*']) ∨ ∃ o : Op, o.kind = k ∧ o.text = x

theorem TokText.ne_nil {k : Kind} {x : Str} (h : TokText k x) : x ≠ [] := by
  rcases h with ⟨-, h⟩ | ⟨-, h⟩ | ⟨-, rfl⟩ | ⟨o, -, rfl⟩
  · obtain ⟨c, u, rfl, -⟩ := h.head; simp
  · exact h.ne_nil
  · simp
  · exact o.ne_nil

theorem TokText.head {k : Kind} {x : Str} (h : TokText k x) : ∃ c t, x = c :: t ∧ isSpace c = false := by
  rcases h with ⟨-, h⟩ | ⟨-, h⟩ | ⟨-, rfl⟩ | ⟨o, -, rfl⟩
  · obtain ⟨c, u, rfl, hc⟩ := h.head; exact ⟨c, u, rfl, CharTable.word_space c (CharTable.digit_word c hc)⟩
  · obtain ⟨c, u, rfl, hc⟩ := h.head; exact ⟨c, u, rfl, CharTable.word_space c hc⟩
  · exact ⟨'*', [], rfl, (plain_facts '*' (by simp)).2.2⟩
  · obtain ⟨c, t, e, hc⟩ := o.head
    exact ⟨c, t, e, (op_char_facts hc).2.1⟩

/-- the string consists of the texts of the tokens, with blanks around them -/
inductive Lexed : List Token → Str → Prop where
  | nil : Lexed [] []
  | skip {g ts s} : Blanks g → Lexed ts s → Lexed ts (g ++ s)
  | tok {k x ts s} : TokText k x → (k = .version → ∀ c ∈ s, c = '\n') → Lexed ts s → Lexed (⟨k, some x⟩ :: ts) (x ++ s)

/-- the matches of an entry of a lexicon, with what follows -/
def EntryText (k : Option Kind) (x t : Str) : Prop :=
  match k with
  | none => Blanks x
  | some k => TokText k x ∧ (k = .version → ∀ c ∈ t, c = '\n')

theorem entry_lit {cs : List Char} {s s' : St} (h : s' ∈ run (.lit cs) s) : ∃ t, s.rest = cs ++ t ∧ s' = s.adv cs t := by
  obtain ⟨x, t, rfl, h1, h2⟩ := (rec_lit cs _ _).1 h
  exact ⟨t, h1, h2⟩

theorem entry_op (o : Op) {s s' : St} (h : s' ∈ run (.lit o.text) s) :
    ∃ x t, s.rest = x ++ t ∧ s' = s.adv x t ∧ EntryText (some o.kind) x t := by
  obtain ⟨t, h1, h2⟩ := entry_lit h
  exact ⟨_, t, h1, h2, Or.inr (Or.inr (Or.inr ⟨o, rfl, rfl⟩)), by cases o <;> intro h <;> cases h⟩

theorem rep_blank {x : Str} (h : Rep (fun x => x = [' ']) x) : Blanks x := by
  induction h with
  | nil => intro c hc; cases hc
  | cons hx _ _ ih =>
    intro c hc
    rw [List.mem_append] at hc
    rcases hc with hc | hc
    · rw [hx] at hc; exact List.mem_singleton.1 hc
    · exact ih c hc

theorem entry_lexicon {lex : List (Re × Option Kind)} (hl : IsLexicon lex) {r : Re} {k : Option Kind} (hr : (r, k) ∈ lex) {s s' : St}
    (h : s' ∈ run r s) : ∃ x t, s.rest = x ++ t ∧ s' = s.adv x t ∧ EntryText k x t := by
  have hops : (r, k) ∈ operators → ∃ x t, s.rest = x ++ t ∧ s' = s.adv x t ∧ EntryText k x t := by
    intro hm
    simp only [operators, List.mem_cons, List.not_mem_nil, or_false, Prod.mk.injEq] at hm
    rcases hm with ⟨rfl, rfl⟩ | ⟨rfl, rfl⟩ | ⟨rfl, rfl⟩ | ⟨rfl, rfl⟩ | ⟨rfl, rfl⟩ | ⟨rfl, rfl⟩ | ⟨rfl, rfl⟩ | ⟨rfl, rfl⟩ | ⟨rfl, rfl⟩
    · exact entry_op .equal h
    · exact entry_op .geq h
    · exact entry_op .gt h
    · exact entry_op .leq h
    · exact entry_op .lt h
    · exact entry_op .not h
    · exact entry_op .upstream h
    · obtain ⟨t, h1, h2⟩ := entry_lit h
      exact ⟨_, t, h1, h2, Or.inr (Or.inr (Or.inl ⟨rfl, rfl⟩)), by intro h; cases h⟩
    · obtain ⟨x, t, ⟨a, b, rfl, rfl, hb⟩, h1, h2⟩ := (rec_plus (rec_chr ' ') _ _).1 h
      refine ⟨_, t, h1, h2, ?_⟩
      intro c hc
      rw [List.mem_append, List.mem_singleton] at hc
      exact hc.elim id (rep_blank hb c)
  have hver : (r, k) = (versionR, some .version) → ∃ x t, s.rest = x ++ t ∧ s' = s.adv x t ∧ EntryText k x t := by
    intro e
    simp only [Prod.mk.injEq] at e
    obtain ⟨rfl, rfl⟩ := e
    obtain ⟨v, t, hv, h1, ht, h2⟩ := (mem_version _ _).1 h
    refine ⟨v, t, h1, h2, Or.inl ⟨rfl, hv⟩, ?_⟩
    intro _ c hc
    rcases ht with rfl | rfl
    · cases hc
    · exact List.mem_singleton.1 hc
  cases hl with
  | constraints =>
    rw [constraintsLexicon, List.mem_cons] at hr
    exact hr.elim hver hops
  | requirements =>
    rw [requirementsLexicon, List.mem_cons, List.mem_cons] at hr
    rcases hr with hr | hr | hr
    · exact hver hr
    · simp only [Prod.mk.injEq] at hr
      obtain ⟨rfl, rfl⟩ := hr
      obtain ⟨n, t, hn, h1, h2⟩ := (rec_name _ _).1 h
      exact ⟨n, t, h1, h2, Or.inr (Or.inl ⟨rfl, hn⟩), by intro h; cases h⟩
    · exact hops hr

theorem scanStep_mem : ∀ {lex : List (Re × Option Kind)} {s s' : St} {k : Option Kind}, scanStep lex s = some (k, s') →
    ∃ r, (r, k) ∈ lex ∧ s' ∈ run r s := by
  intro lex
  induction lex with
  | nil => intro s s' k h; cases h
  | cons e lex ih =>
    obtain ⟨r, k'⟩ := e
    intro s s' k h
    rw [scanStep] at h
    split at h
    · next s1 h1 =>
      simp only [Option.some.injEq, Prod.mk.injEq] at h
      obtain ⟨rfl, rfl⟩ := h
      exact ⟨r, by simp, List.mem_of_mem_head? (by
        have : (run r s).head? = some s1 := h1
        rw [this]; simp)⟩
    · obtain ⟨r', h1, h2⟩ := ih h
      exact ⟨r', by simp [h1], h2⟩

theorem scanLoop_lexed {lex : List (Re × Option Kind)} (hl : IsLexicon lex) : ∀ (fuel : Nat) (s : St) (ts : List Token),
    scanLoop lex fuel s = (ts, []) → Lexed ts s.rest := by
  intro fuel
  induction fuel with
  | zero =>
    intro s ts h
    simp only [scanLoop, Prod.mk.injEq] at h
    obtain ⟨rfl, h⟩ := h
    rw [h]
    exact .nil
  | succ fuel ih =>
    intro s ts h
    unfold scanLoop at h
    split at h
    · simp only [Prod.mk.injEq] at h
      obtain ⟨rfl, h⟩ := h
      rw [h]
      exact .nil
    · next k s' hstep =>
      split at h
      · obtain ⟨r, hr, hm⟩ := scanStep_mem hstep
        obtain ⟨x, t, h1, rfl, hx⟩ := entry_lexicon hl hr hm
        have htake : s.rest.take (s.rest.length - t.length) = x := by rw [h1]; simp
        rw [h1]
        simp only [St.adv] at h
        rw [htake] at h
        split at h
        · exact .skip hx (ih _ ts h)
        · next k =>
          cases ts with
          | nil => simp at h
          | cons tk ts =>
            simp only [Prod.mk.injEq, List.cons.injEq] at h
            obtain ⟨⟨rfl, e1⟩, e2⟩ := h
            exact .tok hx.1 hx.2 (ih _ ts (Prod.ext e1 e2))
      · simp only [Prod.mk.injEq] at h
        obtain ⟨rfl, h⟩ := h
        rw [h]
        exact .nil

theorem scan_lexed {lex : List (Re × Option Kind)} (hl : IsLexicon lex) {s : Str} (h : (scan lex s).2.length = 0) :
    Lexed (scan lex s).1 s :=
  scanLoop_lexed hl _ (St.start s) _ (Prod.ext rfl (List.length_eq_zero_iff.1 h))

theorem Blanks.append {a b : Str} (ha : Blanks a) (hb : Blanks b) : Blanks (a ++ b) := by
  intro c hc
  exact (List.mem_append.1 hc).elim (ha c) (hb c)

theorem Blanks.spaces {a : Str} (ha : Blanks a) : Spaces a := by
  intro c hc
  rw [ha c hc]
  exact CharTable.blank_space

theorem Lexed.none {s : Str} {l : List Token} (h : Lexed l s) (e : l = []) : Blanks s := by
  induction h with
  | nil => intro c hc; cases hc
  | skip hg _ ih => exact hg.append (ih e)
  | tok _ _ _ _ => cases e

theorem Lexed.cons {s : Str} {l : List Token} (h : Lexed l s) {t : Token} {ts : List Token} (e : l = t :: ts) :
    ∃ g x u, s = g ++ (x ++ u) ∧ Blanks g ∧ t.value = some x ∧ TokText t.kind x ∧ Lexed ts u ∧
      (t.kind = .version → ∀ c ∈ u, c = '\n') := by
  induction h with
  | nil => cases e
  | skip hg _ ih =>
    obtain ⟨g', x, u, rfl, h1, h2⟩ := ih e
    exact ⟨_ ++ g', x, u, by simp, hg.append h1, h2⟩
  | tok hx hu hs _ =>
    cases e
    exact ⟨[], _, _, rfl, by simp [Blanks], rfl, hx, hs, hu⟩

/-! ### what the scanners make of a text -/

/-- no version if a character ahead cannot be in one -/
theorem version_none_char {s : St} {c : Char} (h : c ∈ s.rest) (h1 : isWord c = false) (h2 : c ≠ '.') (h3 : c ≠ '-') (h4 : c ≠ '\n') :
    run versionR s = [] := by
  rw [List.eq_nil_iff_forall_not_mem]
  intro s' hs'
  obtain ⟨v, t, hv, hr, ht, -⟩ := (mem_version s s').1 hs'
  rw [hr, List.mem_append] at h
  rcases h with h | h
  · rcases hv.chars _ h with e | e | e
    · rw [h1] at e; cases e
    · exact h2 e
    · exact h3 e
  · rcases ht with rfl | rfl
    · cases h
    · exact h4 (List.mem_singleton.1 h)

theorem lit_none {cs : Str} {s : St} (h : ∀ t, s.rest ≠ cs ++ t) : run (.lit cs) s = [] :=
  (rec_lit cs).none (by rintro x t rfl; exact h t)

theorem lit_fst {cs t : Str} {s : St} (h : s.rest = cs ++ t) : Fst (.lit cs) s (s.adv cs t) := by
  have hm : s.adv cs t ∈ run (.lit cs) s := (rec_lit cs _ _).2 ⟨cs, t, rfl, h, rfl⟩
  unfold Fst
  cases hr : run (.lit cs) s with
  | nil => rw [hr] at hm; cases hm
  | cons a l =>
    have ha : a ∈ run (.lit cs) s := by rw [hr]; simp
    obtain ⟨x, t', rfl, h1, rfl⟩ := (rec_lit cs _ _).1 ha
    rw [h] at h1
    rw [List.append_cancel_left h1]
    rfl

theorem scanStep_op' {lex : List (Re × Option Kind)} (hl : IsLexicon lex) {s : St} (o : Op) {u : Str}
    (h : s.rest = o.text ++ u) (hu : o = .gt ∨ o = .lt → ∀ t, u ≠ '=' :: t) : scanStep lex s = some (some o.kind, s.adv o.text u) := by
  rw [scanStep_operators hl]
  · unfold operators
    cases o <;> simp only [Op.text, List.cons_append, List.nil_append] at h
    · rw [scanStep_hit (lit_fst (t := u) h)]; rfl
    · rw [scanStep_miss (lit_none (by intro t; rw [h]; simp)), scanStep_miss (lit_none (by intro t; rw [h]; simp)),
        scanStep_miss (lit_none (by intro t; rw [h]; simp)), scanStep_miss (lit_none (by intro t; rw [h]; simp)),
        scanStep_miss (lit_none (by intro t; rw [h]; simp)), scanStep_hit (lit_fst (t := u) h)]; rfl
    · rw [scanStep_miss (lit_none (by intro t; rw [h]; simp)), scanStep_hit (lit_fst (t := u) h)]; rfl
    · rw [scanStep_miss (lit_none (by intro t; rw [h]; simp)), scanStep_miss (lit_none (by intro t; rw [h]; simpa using hu (Or.inl rfl) t)),
        scanStep_hit (lit_fst (t := u) h)]; rfl
    · rw [scanStep_miss (lit_none (by intro t; rw [h]; simp)), scanStep_miss (lit_none (by intro t; rw [h]; simp)),
        scanStep_miss (lit_none (by intro t; rw [h]; simp)), scanStep_hit (lit_fst (t := u) h)]; rfl
    · rw [scanStep_miss (lit_none (by intro t; rw [h]; simp)), scanStep_miss (lit_none (by intro t; rw [h]; simp)),
        scanStep_miss (lit_none (by intro t; rw [h]; simp)), scanStep_miss (lit_none (by intro t; rw [h]; simpa using hu (Or.inr rfl) t)),
        scanStep_hit (lit_fst (t := u) h)]; rfl
    · rw [scanStep_miss (lit_none (by intro t; rw [h]; simp)), scanStep_miss (lit_none (by intro t; rw [h]; simp)),
        scanStep_miss (lit_none (by intro t; rw [h]; simp)), scanStep_miss (lit_none (by intro t; rw [h]; simp)),
        scanStep_miss (lit_none (by intro t; rw [h]; simp)), scanStep_miss (lit_none (by intro t; rw [h]; simp)),
        scanStep_hit (lit_fst (t := u) h)]; rfl
  · intro c t hc
    obtain ⟨d, t', e, hd⟩ := o.head
    rw [h, e] at hc
    simp only [List.cons_append, List.cons.injEq] at hc
    rw [← hc.1]
    exact (op_char_facts hd).1

theorem scanStep_blanks {lex : List (Re × Option Kind)} (hl : IsLexicon lex) {s : St} {g u : Str} (hg : Blanks g) (hne : g ≠ [])
    (h : s.rest = g ++ u) (hu : ∀ c t, u = c :: t → c ≠ ' ') : scanStep lex s = some (none, s.adv g u) := by
  obtain ⟨b, g', rfl⟩ : ∃ b g', g = b :: g' := by
    cases g with
    | nil => exact absurd rfl hne
    | cons b g' => exact ⟨b, g', rfl⟩
  have hb := hg b (by simp)
  subst hb
  rw [scanStep_operators hl]
  · have hf : Fst (.plus (.chr ' ')) s (s.adv (' ' :: g') u) := by
      have e1 : Fst (.chr ' ') s (s.adv [' '] (g' ++ u)) := fst_cls h (by simp)
      have e2 := fst_star_cls (p := fun x => x == ' ') (t := u) (by
        intro c t e
        rw [beq_eq_false_iff_ne]
        exact hu c t e) g' (s.adv [' '] (g' ++ u)) rfl (by intro d hd; rw [hg d (by simp [hd])]; rfl)
      rw [St.adv_adv] at e2
      exact fst_seq e1 e2
    unfold operators
    rw [scanStep_miss (lit_none (by intro t; rw [h]; simp)), scanStep_miss (lit_none (by intro t; rw [h]; simp)),
      scanStep_miss (lit_none (by intro t; rw [h]; simp)), scanStep_miss (lit_none (by intro t; rw [h]; simp)),
      scanStep_miss (lit_none (by intro t; rw [h]; simp)), scanStep_miss (lit_none (by intro t; rw [h]; simp)),
      scanStep_miss (lit_none (by intro t; rw [h]; simp)), scanStep_miss (lit_none (by intro t; rw [h]; simp))]
    exact scanStep_hit hf
  · intro c t hc
    rw [h] at hc
    simp only [List.cons_append, List.cons.injEq] at hc
    rw [← hc.1]
    exact blank_not_word

theorem scans_blanks {lex : List (Re × Option Kind)} (hl : IsLexicon lex) {s : St} {g u : Str} {ts : List Token} (hg : Blanks g)
    (h : s.rest = g ++ u) (hu : ∀ c t, u = c :: t → c ≠ ' ') (ht : Scans lex (s.adv g u) ts) : Scans lex s ts := by
  by_cases hne : g = []
  · subst hne
    rw [List.nil_append] at h
    subst h
    exact ht
  · exact scans_skip (scanStep_blanks hl hg hne h hu) h hne ht

theorem version_head_ne {v : Str} (hv : ValidVersion v) : ∀ c t, v = c :: t → isWord c = true := by
  intro c t h
  obtain ⟨d, u, hd, hdig⟩ := hv.head
  rw [hd] at h
  simp only [List.cons.injEq] at h
  rw [← h.1]
  exact CharTable.digit_word _ hdig

theorem word_ne {c d : Char} (hc : isWord c = true) (hd : isWord d = false) : c ≠ d := by
  rintro rfl
  rw [hc] at hd
  cases hd

/-- an operator, blanks and a version -/
theorem scans_op' {lex : List (Re × Option Kind)} (hl : IsLexicon lex) {s : St} (o : Op) {g v : Str} (hg : Blanks g)
    (hv : ValidVersion v) (h : s.rest = o.text ++ (g ++ v)) :
    Scans lex s [⟨o.kind, some o.text⟩, ⟨.version, some v⟩] := by
  have hv0 : v ≠ [] := by obtain ⟨c, u, rfl, -⟩ := hv.head; simp
  refine scans_token (scanStep_op' hl o h ?_) h o.ne_nil ?_
  · intro _ t e
    cases g with
    | nil =>
      have := version_head_ne hv '=' t (by simpa using e)
      rw [(op_char_facts (by simp : '=' ∈ _)).1] at this
      cases this
    | cons b g =>
      simp only [List.cons_append, List.cons.injEq] at e
      have := hg b (by simp)
      rw [e.1] at this
      revert this; decide
  · refine scans_blanks hl hg rfl (fun c t e => word_ne (version_head_ne hv c t e) blank_not_word) ?_
    exact scans_token (x := v) (t := []) (scanStep_version hl hv) (by simp [St.adv]) hv0 (scans_end rfl)

/-- a name, then blanks and something that is not part of a name -/
theorem scans_name_then {s : St} {n g u : Str} {ts : List Token} (hn : ValidName n) (hg : Blanks g) (h : s.rest = n ++ (g ++ u))
    {c : Char} {t : Str} (hu : u = c :: t) (h1 : isWord c = false) (h2 : c ≠ '.') (h3 : c ≠ '-') (h4 : c ≠ '\n') (h5 : c ≠ ' ')
    (ht : Scans requirementsLexicon ((s.adv n (g ++ u)).adv g u) ts) :
    Scans requirementsLexicon s (⟨.distribution, some n⟩ :: ts) := by
  refine scans_token (t := g ++ u) ?_ h hn.ne_nil ?_
  · refine (scanStep_miss (version_none_char (c := c) ?_ h1 h2 h3 h4)).trans (scanStep_hit (fst_name hn h ?_))
    · rw [h, hu]; simp
    · intro d w hd
      cases g with
      | nil =>
        rw [hu] at hd
        simp only [List.nil_append, List.cons.injEq] at hd
        rw [← hd.1]
        exact ⟨h1, h2⟩
      | cons b g =>
        simp only [List.cons_append, List.cons.injEq] at hd
        rw [← hd.1, hg b (by simp)]
        exact ⟨blank_not_word, by decide⟩
  · refine scans_blanks .requirements hg rfl ?_ ht
    intro d w hd
    rw [hu] at hd
    simp only [List.cons.injEq] at hd
    rw [← hd.1]
    exact h5

/-- a name, an operator and a version -/
theorem scans_requirement' {s : St} {n g g' v : Str} (o : Op) (hn : ValidName n) (hg : Blanks g) (hg' : Blanks g')
    (hv : ValidVersion v) (h : s.rest = n ++ (g ++ (o.text ++ (g' ++ v)))) :
    Scans requirementsLexicon s [⟨.distribution, some n⟩, ⟨o.kind, some o.text⟩, ⟨.version, some v⟩] := by
  obtain ⟨c, t, e, hc⟩ := o.head
  have hf := op_char_facts hc
  refine scans_name_then hn hg h (c := c) (t := t ++ (g' ++ v)) (by rw [e]; rfl) hf.1 hf.2.2.2.1 hf.2.2.2.2.1 hf.2.2.2.2.2.2
    hf.2.2.2.2.2.1 ?_
  exact scans_op' .requirements o hg' hv rfl

theorem scans_star {lex : List (Re × Option Kind)} (hl : IsLexicon lex) {s : St} (h : s.rest = ['*']) :
    Scans lex s [⟨.any, some ['*']⟩] :=
  scans_token (x := ['*']) (t := []) (scanStep_star hl h) h (by simp) (scans_end rfl)

/-- a name and a star -/
theorem scans_name_star {s : St} {n g : Str} (hn : ValidName n) (hg : Blanks g) (h : s.rest = n ++ (g ++ ['*'])) :
    Scans requirementsLexicon s [⟨.distribution, some n⟩, ⟨.any, some ['*']⟩] :=
  scans_name_then hn hg h rfl (plain_facts '*' (by simp)).1 (by decide) (by decide) (by decide) (by decide) (scans_star .requirements rfl)

/-- an operator alone -/
theorem scans_op_alone {lex : List (Re × Option Kind)} (hl : IsLexicon lex) {s : St} (o : Op) (h : s.rest = o.text) :
    Scans lex s [⟨o.kind, some o.text⟩] :=
  scans_token (x := o.text) (t := []) (scanStep_op' hl o (by simp [h]) (by simp)) (by simp [h]) o.ne_nil (scans_end rfl)

/-- an operator or a star before a star -/
theorem scans_op_star {lex : List (Re × Option Kind)} (hl : IsLexicon lex) {s : St} (o : Op) {g : Str} (hg : Blanks g)
    (h : s.rest = o.text ++ (g ++ ['*'])) : Scans lex s [⟨o.kind, some o.text⟩, ⟨.any, some ['*']⟩] := by
  refine scans_token (scanStep_op' hl o h ?_) h o.ne_nil ?_
  · intro _ t e
    cases g with
    | nil => simp at e
    | cons b g =>
      simp only [List.cons_append, List.cons.injEq] at e
      have := hg b (by simp)
      rw [e.1] at this
      revert this; decide
  · exact scans_blanks hl hg rfl (by intro c t e; simp only [List.cons.injEq] at e; rw [← e.1]; decide) (scans_star hl rfl)

/-- an operator before an operator -/
theorem scans_op_op {lex : List (Re × Option Kind)} (hl : IsLexicon lex) {s : St} (o o' : Op) {g : Str} (hg : Blanks g)
    (hne : (o = .gt ∨ o = .lt) → o' = .equal → g ≠ [])
    (h : s.rest = o.text ++ (g ++ o'.text)) : Scans lex s [⟨o.kind, some o.text⟩, ⟨o'.kind, some o'.text⟩] := by
  refine scans_token (scanStep_op' hl o h ?_) h o.ne_nil ?_
  · intro ho t e
    cases g with
    | nil =>
      cases o' <;> simp only [List.nil_append, Op.text, List.cons.injEq] at e
      · exact hne ho rfl rfl
      all_goals exact absurd e.1 (by decide)
    | cons b g =>
      simp only [List.cons_append, List.cons.injEq] at e
      have := hg b (by simp)
      rw [e.1] at this
      revert this; decide
  · refine scans_blanks hl hg rfl ?_ (scans_op_alone hl o' rfl)
    intro c t e
    obtain ⟨d, t', e', hd⟩ := o'.head
    rw [e'] at e
    simp only [List.cons.injEq] at e
    rw [← e.1]
    exact (op_char_facts hd).2.2.2.2.2.1

/-- without blanks, `>` and `<` run into a following `=` -/
theorem scan_run_on {lex : List (Re × Option Kind)} (hl : IsLexicon lex) {o : Op} (ho : o = .gt ∨ o = .lt) {u : Str} {t : Token} {ts : List Token}
    {r : Str} (h : scan lex (o.text ++ '=' :: u) = (t :: ts, r)) : t.kind ≠ o.kind := by
  have key : ∀ o' : Op, o'.text = o.text ++ ['='] → o' ≠ .gt → o' ≠ .lt → o'.kind ≠ o.kind → t.kind ≠ o.kind := by
    intro o' h1 h2 h3 h4
    have hs := scanStep_op' hl (s := St.start (o.text ++ '=' :: u)) o' (u := u) (by rw [h1]; simp [St.start])
      (by rintro (h | h) <;> contradiction)
    unfold scan scanLoop at h
    rw [hs] at h
    simp only at h
    split at h
    · simp only [Prod.mk.injEq, List.cons.injEq] at h
      rw [← h.1.1]
      exact h4
    · simp at h
  rcases ho with rfl | rfl
  · exact key .geq rfl (by decide) (by decide) (by decide)
  · exact key .leq rfl (by decide) (by decide) (by decide)

theorem scans_star_star {lex : List (Re × Option Kind)} (hl : IsLexicon lex) {s : St} {g : Str} (hg : Blanks g)
    (h : s.rest = ['*'] ++ (g ++ ['*'])) : Scans lex s [⟨.any, some ['*']⟩, ⟨.any, some ['*']⟩] := by
  refine scans_token (x := ['*']) (scanStep_star hl h) h (by simp) ?_
  exact scans_blanks hl hg rfl (by intro c t e; simp only [List.cons.injEq] at e; rw [← e.1]; decide) (scans_star hl rfl)

end Verif.Text
