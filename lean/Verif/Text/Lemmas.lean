import Verif.Text.Spec
/-
What the regular expressions match.
-/
set_option linter.unusedSectionVars false
namespace Verif.Text
open Verif Verif.Pkg CharTable

/-- the position after `x`, when `x ++ t` is what comes next -/
def St.adv (s : St) (x t : Str) : St := ⟨x.reverse ++ s.pre, t, s.caps⟩

theorem St.adv_nil (s : St) : s.adv [] s.rest = s := rfl

theorem St.adv_adv (s : St) (x y u t : Str) : (s.adv x u).adv y t = s.adv (x ++ y) t := by
  simp [St.adv]

namespace Re

/-! ### all the matches -/

theorem starRun_fuel (f : St → List St) : ∀ (n m : Nat) (s : St), s.rest.length ≤ n → s.rest.length ≤ m →
    starRun f n s = starRun f m s := by
  have key : ∀ s : St, s.rest.length ≤ 0 → (f s).filter (fun x => decide (x.rest.length < s.rest.length)) = [] := by
    intro s hs
    rw [List.filter_eq_nil_iff]
    intro a _
    simp; omega
  intro n
  induction n with
  | zero =>
    intro m s hn hm
    cases m with
    | zero => rfl
    | succ m => simp [starRun, key s hn]
  | succ n ih =>
    intro m s hn hm
    cases m with
    | zero => simp [starRun, key s hm]
    | succ m =>
      simp only [starRun]
      congr 1
      refine List.flatMap_congr ?_
      intro x hx
      rw [List.mem_filter, decide_eq_true_iff] at hx
      exact ih m x (by omega) (by omega)

theorem run_star (a : Re) (s : St) :
    run (.star a) s =
      ((run a s).filter (fun x => decide (x.rest.length < s.rest.length))).flatMap (run (.star a)) ++ [s] := by
  have h : run (.star a) s = starRun (run a) (s.rest.length + 1) s := starRun_fuel _ _ _ _ (Nat.le_refl _) (Nat.le_succ _)
  rw [h]
  simp only [starRun]
  congr 1
  refine List.flatMap_congr ?_
  intro x hx
  rw [List.mem_filter, decide_eq_true_iff] at hx
  exact starRun_fuel _ _ _ _ (by omega) (Nat.le_refl _)

/-- `r` matches exactly the texts of `L`, whatever comes before and after them, and captures nothing -/
def Rec (r : Re) (L : Str → Prop) : Prop :=
  ∀ s s', s' ∈ run r s ↔ ∃ x t, L x ∧ s.rest = x ++ t ∧ s' = s.adv x t

/-- repetitions of non-empty texts of `L` -/
inductive Rep (L : Str → Prop) : Str → Prop where
  | nil : Rep L []
  | cons {x y : Str} : L x → x ≠ [] → Rep L y → Rep L (x ++ y)

theorem rec_eps : Rec .eps (fun x => x = []) := by
  intro s s'
  simp only [run, List.mem_singleton]
  constructor
  · rintro rfl; exact ⟨[], s'.rest, rfl, rfl, rfl⟩
  · rintro ⟨x, t, rfl, h1, rfl⟩
    rw [List.nil_append] at h1
    rw [← h1]; rfl

theorem rec_cls (p : Char → Bool) : Rec (.cls p) (fun x => ∃ c, x = [c] ∧ p c = true) := by
  intro s s'
  obtain ⟨pre, rest, caps⟩ := s
  cases rest with
  | nil =>
    simp only [run, List.not_mem_nil, false_iff]
    rintro ⟨x, t, ⟨c, rfl, -⟩, h, -⟩
    simp at h
  | cons c cs =>
    simp only [run]
    constructor
    · intro h
      split at h
      · next hp =>
        rw [List.mem_singleton] at h
        exact ⟨[c], cs, ⟨c, rfl, hp⟩, rfl, h⟩
      · simp at h
    · rintro ⟨x, t, ⟨d, rfl, hp⟩, h, rfl⟩
      simp only [List.cons_append, List.nil_append, List.cons.injEq] at h
      obtain ⟨rfl, rfl⟩ := h
      rw [if_pos hp]
      exact List.mem_singleton.2 rfl

theorem rec_seq {a b : Re} {L M : Str → Prop} (ha : Rec a L) (hb : Rec b M) :
    Rec (.seq a b) (fun z => ∃ x y, z = x ++ y ∧ L x ∧ M y) := by
  intro s s'
  simp only [run, List.mem_flatMap]
  constructor
  · rintro ⟨s1, h1, h2⟩
    obtain ⟨x, u, hx, hu, rfl⟩ := (ha _ _).1 h1
    obtain ⟨y, t, hy, ht, rfl⟩ := (hb _ _).1 h2
    simp only [St.adv] at ht
    exact ⟨x ++ y, t, ⟨x, y, rfl, hx, hy⟩, by rw [hu, ht, List.append_assoc], St.adv_adv s x y u t⟩
  · rintro ⟨z, t, ⟨x, y, rfl, hx, hy⟩, h, rfl⟩
    rw [List.append_assoc] at h
    exact ⟨s.adv x (y ++ t), (ha _ _).2 ⟨x, y ++ t, hx, h, rfl⟩,
      (hb _ _).2 ⟨y, t, hy, rfl, (St.adv_adv s x y (y ++ t) t).symm⟩⟩

theorem rec_alt {a b : Re} {L M : Str → Prop} (ha : Rec a L) (hb : Rec b M) : Rec (.alt a b) (fun z => L z ∨ M z) := by
  intro s s'
  simp only [run, List.mem_append]
  rw [ha, hb]
  constructor
  · rintro (⟨x, t, h, h'⟩ | ⟨x, t, h, h'⟩)
    · exact ⟨x, t, Or.inl h, h'⟩
    · exact ⟨x, t, Or.inr h, h'⟩
  · rintro ⟨x, t, h | h, h'⟩
    · exact Or.inl ⟨x, t, h, h'⟩
    · exact Or.inr ⟨x, t, h, h'⟩

theorem rec_star {a : Re} {L : Str → Prop} (ha : Rec a L) : Rec (.star a) (Rep L) := by
  intro s
  induction hn : s.rest.length using Nat.strongRecOn generalizing s with
  | _ n ih =>
    intro s'
    rw [run_star]
    simp only [List.mem_append, List.mem_flatMap, List.mem_filter, decide_eq_true_iff, List.mem_singleton]
    constructor
    · rintro (⟨s1, ⟨h1, hl⟩, h2⟩ | rfl)
      · obtain ⟨x, u, hx, hu, rfl⟩ := (ha _ _).1 h1
        obtain ⟨y, t, hy, ht, rfl⟩ := (ih _ (by rw [← hn]; exact hl) _ rfl _).1 h2
        simp only [St.adv] at ht hl
        refine ⟨x ++ y, t, Rep.cons hx ?_ hy, by rw [hu, ht, List.append_assoc], St.adv_adv s x y u t⟩
        rintro rfl
        rw [hu] at hl
        simp at hl
      · exact ⟨[], s'.rest, Rep.nil, rfl, rfl⟩
    · rintro ⟨z, t, hz, h, rfl⟩
      cases hz with
      | nil =>
        rw [List.nil_append] at h
        right; rw [← h]; rfl
      | @cons x y hx hne hy =>
        rw [List.append_assoc] at h
        left
        have hl : (y ++ t).length < s.rest.length := by
          rw [h]
          simp only [List.length_append]
          have := List.length_pos_iff.2 hne
          omega
        refine ⟨s.adv x (y ++ t), ⟨(ha _ _).2 ⟨x, y ++ t, hx, h, rfl⟩, hl⟩, ?_⟩
        exact (ih _ (by rw [← hn]; exact hl) _ rfl _).2 ⟨y, t, hy, rfl, (St.adv_adv s x y (y ++ t) t).symm⟩

theorem Rec.congr {a : Re} {L M : Str → Prop} (h : Rec a L) (hM : ∀ x, L x ↔ M x) : Rec a M := by
  intro s s'
  rw [h]
  simp only [hM]

theorem rec_opt {a : Re} {L : Str → Prop} (ha : Rec a L) : Rec (.opt a) (fun z => L z ∨ z = []) := rec_alt ha rec_eps

theorem rec_plus {a : Re} {L : Str → Prop} (ha : Rec a L) : Rec (.plus a) (fun z => ∃ x y, z = x ++ y ∧ L x ∧ Rep L y) :=
  rec_seq ha (rec_star ha)

theorem rec_chr (c : Char) : Rec (.chr c) (fun x => x = [c]) := by
  refine (rec_cls _).congr ?_
  intro x
  simp

theorem rec_lit : ∀ cs : List Char, Rec (.lit cs) (fun x => x = cs)
  | [] => rec_eps
  | [c] => rec_chr c
  | c :: d :: cs => by
    refine (rec_seq (rec_chr c) (rec_lit (d :: cs))).congr ?_
    intro x
    constructor
    · rintro ⟨x, y, rfl, rfl, rfl⟩; rfl
    · rintro rfl; exact ⟨[c], d :: cs, rfl, rfl, rfl⟩

/-! ### the first match -/

theorem Rec.none {a : Re} {L : Str → Prop} (h : Rec a L) {s : St} (hs : ∀ x t, L x → s.rest ≠ x ++ t) : run a s = [] := by
  rw [List.eq_nil_iff_forall_not_mem]
  intro s' hs'
  obtain ⟨x, t, hx, e, -⟩ := (h _ _).1 hs'
  exact hs x t hx e

/-- the first match of `r` at `s` ends at `s'` -/
def Fst (r : Re) (s s' : St) : Prop := (run r s).head? = some s'

theorem Fst.cons {r : Re} {s s' : St} (h : Fst r s s') : ∃ l, run r s = s' :: l := by
  unfold Fst at h
  cases hr : run r s with
  | nil => rw [hr] at h; cases h
  | cons x l => rw [hr] at h; cases h; exact ⟨l, rfl⟩

theorem Fst.of_cons {r : Re} {s s' : St} {l : List St} (h : run r s = s' :: l) : Fst r s s' := by
  unfold Fst; rw [h]; rfl

theorem fst_seq {a b : Re} {s s1 s2 : St} (ha : Fst a s s1) (hb : Fst b s1 s2) : Fst (.seq a b) s s2 := by
  obtain ⟨l, hl⟩ := ha.cons
  obtain ⟨l', hl'⟩ := hb.cons
  exact Fst.of_cons (l := l' ++ l.flatMap (run b)) (by simp only [run]; rw [hl, List.flatMap_cons, hl']; rfl)

theorem fst_alt_left {a b : Re} {s s1 : St} (ha : Fst a s s1) : Fst (.alt a b) s s1 := by
  obtain ⟨l, hl⟩ := ha.cons
  exact Fst.of_cons (l := l ++ run b s) (by simp only [run]; rw [hl]; rfl)

theorem fst_alt_right {a b : Re} {s s1 : St} (ha : run a s = []) (hb : Fst b s s1) : Fst (.alt a b) s s1 := by
  unfold Fst at *
  simp only [run]
  rw [ha]
  exact hb

theorem fst_star_more {a : Re} {s s1 s2 : St} (ha : Fst a s s1) (hl : s1.rest.length < s.rest.length)
    (hb : Fst (.star a) s1 s2) : Fst (.star a) s s2 := by
  obtain ⟨l, h1⟩ := ha.cons
  obtain ⟨l', h2⟩ := hb.cons
  unfold Fst
  rw [run_star, h1, List.filter_cons_of_pos (by simpa using hl), List.flatMap_cons, h2]
  rfl

theorem fst_star_done {a : Re} {s : St} (ha : run a s = []) : Fst (.star a) s s := by
  unfold Fst
  rw [run_star, ha]
  rfl

theorem fst_cls {p : Char → Bool} {s : St} {c : Char} {t : Str} (h : s.rest = c :: t) (hp : p c = true) :
    Fst (.cls p) s (s.adv [c] t) := by
  unfold Fst
  simp only [run]
  rw [h]
  simp [hp, St.adv]

end Re

open Re

variable [CharTable]

/-! ### characters -/

theorem plain_facts (c : Char) (h : c ∈ ['.', '-', ',', '=', '<', '>', '!', '^', '*', '(', ')', ';', '{', '}']) :
    isWord c = false ∧ isDigit c = false ∧ isSpace c = false := by
  have := CharTable.plain c h
  refine ⟨this.1, ?_, this.2⟩
  by_contra hd
  have := CharTable.digit_word c (by simpa using hd)
  simp_all

theorem dot_not_word : isWord '.' = false := (plain_facts '.' (by simp)).1
theorem dash_not_word : isWord '-' = false := (plain_facts '-' (by simp)).1
theorem comma_not_word : isWord ',' = false := (plain_facts ',' (by simp)).1

theorem space_not_word {c : Char} (h : isSpace c = true) : isWord c = false := by
  by_contra hw
  have := CharTable.word_space c (by simpa using hw)
  simp_all

theorem blank_not_word : isWord ' ' = false := space_not_word CharTable.blank_space

/-- the text does not go on with a character of a name -/
def Stop (t : Str) : Prop := ∀ c u, t = c :: u → isWord c = false ∧ c ≠ '.'

theorem stop_nil : Stop [] := by intro c u h; cases h

/-! ### words and names -/

theorem rep_word {x : Str} : Rep (fun x => ∃ c, x = [c] ∧ isWord c = true) x ↔ ∀ c ∈ x, isWord c = true := by
  constructor
  · intro h
    induction h with
    | nil => simp
    | cons hx _ _ ih =>
      obtain ⟨c, rfl, hc⟩ := hx
      intro d hd
      rw [List.mem_append, List.mem_singleton] at hd
      rcases hd with rfl | hd
      · exact hc
      · exact ih d hd
  · induction x with
    | nil => intro _; exact Rep.nil
    | cons c x ih =>
      intro h
      exact Rep.cons (x := [c]) ⟨c, rfl, h c (by simp)⟩ (by simp) (ih (fun d hd => h d (by simp [hd])))

theorem rec_word : Rec (.plus wordR) Word := by
  refine (rec_plus (rec_cls isWord)).congr ?_
  intro z
  constructor
  · rintro ⟨x, y, rfl, ⟨c, rfl, hc⟩, hy⟩
    refine ⟨by simp, ?_⟩
    intro d hd
    rw [List.mem_append, List.mem_singleton] at hd
    rcases hd with rfl | hd
    · exact hc
    · exact rep_word.1 hy d hd
  · rintro ⟨hne, h⟩
    cases z with
    | nil => exact absurd rfl hne
    | cons c z => exact ⟨[c], z, rfl, ⟨c, rfl, h c (by simp)⟩, rep_word.2 (fun d hd => h d (by simp [hd]))⟩

/-- a word, possibly after a dot -/
def Body (b : Str) : Prop := ∃ w, Word w ∧ (b = w ∨ b = '.' :: w)

theorem rec_body : Rec bodyR Body := by
  refine (rec_seq (rec_opt (rec_chr '.')) rec_word).congr ?_
  intro z
  constructor
  · rintro ⟨x, y, rfl, rfl | rfl, hy⟩
    · exact ⟨y, hy, Or.inr rfl⟩
    · exact ⟨y, hy, Or.inl rfl⟩
  · rintro ⟨w, hw, rfl | rfl⟩
    · exact ⟨[], z, rfl, Or.inr rfl, hw⟩
    · exact ⟨['.'], w, rfl, Or.inl rfl, hw⟩

theorem Word.append {w w' : Str} (h : Word w) (h' : ∀ c ∈ w', isWord c = true) : Word (w ++ w') := by
  refine ⟨by simp [h.1], ?_⟩
  intro c hc
  rw [List.mem_append] at hc
  rcases hc with hc | hc
  · exact h.2 c hc
  · exact h' c hc

theorem ValidName.body {n b : Str} (hn : ValidName n) (hb : Body b) : ValidName (n ++ b) := by
  induction hn with
  | word hw =>
    obtain ⟨w', hw', rfl | rfl⟩ := hb
    · exact ValidName.word (hw.append hw'.2)
    · exact ValidName.dotted hw (ValidName.word hw')
  | dotted hw _ ih =>
    rw [List.append_assoc]
    exact ValidName.dotted hw ih

theorem ValidName.rep {n z : Str} (hn : ValidName n) (hz : Rep Body z) : ValidName (n ++ z) := by
  induction hz generalizing n with
  | nil => rwa [List.append_nil]
  | cons hx _ _ ih =>
    rw [← List.append_assoc]
    exact ih (hn.body hx)

theorem rep_dot {n : Str} (hn : ValidName n) : Rep Body ('.' :: n) := by
  induction hn with
  | @word w hw =>
    have := Rep.cons (L := Body) (x := '.' :: w) (y := []) ⟨w, hw, Or.inr rfl⟩ (by simp) Rep.nil
    rwa [List.append_nil] at this
  | @dotted w n hw _ ih =>
    exact Rep.cons (L := Body) (x := '.' :: w) (y := '.' :: n) ⟨w, hw, Or.inr rfl⟩ (by simp) ih

theorem Word.head {w : Str} (h : Word w) : ∃ c u, w = c :: u ∧ isWord c = true := by
  cases w with
  | nil => exact absurd rfl h.1
  | cons c u => exact ⟨c, u, rfl, h.2 c (by simp)⟩

theorem ValidName.head {n : Str} (h : ValidName n) : ∃ c u, n = c :: u ∧ isWord c = true := by
  cases h with
  | word hw => exact hw.head
  | dotted hw _ =>
    obtain ⟨c, u, rfl, hc⟩ := hw.head
    exact ⟨c, u ++ _, rfl, hc⟩

theorem Word.last {w : Str} (h : Word w) : ∃ c u, w.reverse = c :: u ∧ isWord c = true := by
  cases hr : w.reverse with
  | nil => exact absurd (List.reverse_eq_nil_iff.1 hr) h.1
  | cons c u =>
    exact ⟨c, u, rfl, h.2 c (by rw [← List.mem_reverse, hr]; simp)⟩

theorem ValidName.last {n : Str} (h : ValidName n) : ∃ c u, n.reverse = c :: u ∧ isWord c = true := by
  induction h with
  | word hw => exact hw.last
  | @dotted w n _ _ ih =>
    obtain ⟨c, u, hr, hc⟩ := ih
    exact ⟨c, u ++ '.' :: w.reverse, by simp [hr], hc⟩

theorem ValidName.ne_nil {n : Str} (h : ValidName n) : n ≠ [] := by
  obtain ⟨c, u, rfl, -⟩ := h.head
  simp

/-- the characters of a name -/
theorem ValidName.chars {n : Str} (h : ValidName n) : ∀ c ∈ n, isWord c = true ∨ c = '.' := by
  induction h with
  | word hw => exact fun c hc => Or.inl (hw.2 c hc)
  | dotted hw _ ih =>
    intro c hc
    rw [List.mem_append, List.mem_cons] at hc
    rcases hc with hc | hc | hc
    · exact Or.inl (hw.2 c hc)
    · exact Or.inr hc
    · exact ih c hc

/-- `(?:\.?\w+)+` and no dot at the beginning -/
theorem plus_body_iff {z : Str} :
    ((∃ x y, z = x ++ y ∧ Body x ∧ Rep Body y) ∧ z.head? ≠ some '.') ↔ ValidName z := by
  constructor
  · rintro ⟨⟨x, y, rfl, ⟨w, hw, rfl | rfl⟩, hy⟩, hd⟩
    · exact (ValidName.word hw).rep hy
    · simp at hd
  · intro h
    refine ⟨?_, ?_⟩
    · cases h with
      | word hw => exact ⟨z, [], by simp, ⟨z, hw, Or.inl rfl⟩, Rep.nil⟩
      | @dotted w n hw hn => exact ⟨w, '.' :: n, rfl, ⟨w, hw, Or.inl rfl⟩, rep_dot hn⟩
    · obtain ⟨c, u, rfl, hc⟩ := h.head
      intro h
      simp only [List.head?_cons, Option.some.injEq] at h
      subst h
      rw [dot_not_word] at hc
      cases hc

/-- `_DISTRIBUTION_NAME_R` matches exactly the names. -/
theorem rec_name : Rec nameR ValidName := by
  intro s s'
  have hdot : run (.nahead (.chr '.')) s = if s.rest.head? = some '.' then [] else [s] := by
    simp only [run, chr]
    cases s.rest with
    | nil => simp
    | cons c cs =>
      by_cases h : c = '.'
      · simp [h]
      · simp [h]
  unfold nameR
  rw [run, hdot]
  have hplus := rec_plus rec_body
  constructor
  · intro h
    split at h
    · simp at h
    · next hd =>
      simp only [List.flatMap_cons, List.flatMap_nil, List.append_nil] at h
      rw [run, List.mem_flatMap] at h
      obtain ⟨s1, h1, h2⟩ := h
      have e : s' = s1 := by
        simp only [run] at h2
        split at h2
        · simpa using h2
        · split at h2 <;> simp at h2
          exact h2
      subst e
      obtain ⟨x, t, hx, hr, rfl⟩ := (hplus _ _).1 h1
      refine ⟨x, t, plus_body_iff.1 ⟨hx, ?_⟩, hr, rfl⟩
      intro hc
      apply hd
      rw [hr]
      cases x with
      | nil => simp at hc
      | cons c x => simpa using hc
  · rintro ⟨x, t, hx, hr, rfl⟩
    obtain ⟨h1, h2⟩ := plus_body_iff.2 hx
    have hd : s.rest.head? ≠ some '.' := by
      rw [hr]
      cases x with
      | nil => exact absurd rfl hx.ne_nil
      | cons c x => simpa using h2
    rw [if_neg hd]
    simp only [List.flatMap_cons, List.flatMap_nil, List.append_nil]
    rw [run, List.mem_flatMap]
    refine ⟨s.adv x t, (hplus _ _).2 ⟨x, t, h1, hr, rfl⟩, ?_⟩
    obtain ⟨c, u, hl, hc⟩ := hx.last
    simp only [run, St.adv, hl, List.cons_append]
    have : ¬ (c == '.') = true := by
      intro h
      have := eq_of_beq h
      subst this
      rw [dot_not_word] at hc
      cases hc
    rw [if_neg this]
    simp

/-! ### the longest name is tried first -/

theorem fst_word {w : Str} {s : St} {t : Str} (h : s.rest = w ++ t) (hw : Word w)
    (ht : ∀ c u, t = c :: u → isWord c = false) : Fst (.plus wordR) s (s.adv w t) := by
  obtain ⟨c, u, rfl, hc⟩ := hw.head
  have key : ∀ (w : Str) (s : St), s.rest = w ++ t → (∀ c ∈ w, isWord c = true) → Fst (.star wordR) s (s.adv w t) := by
    intro w
    induction w with
    | nil =>
      intro s h _
      have e : s.adv [] t = s := by rw [List.nil_append] at h; rw [← h]; rfl
      rw [e]
      refine fst_star_done ((rec_cls isWord).none ?_)
      rintro x u ⟨c, rfl, hc⟩ hr
      rw [h] at hr
      have := ht c u hr
      rw [hc] at this
      cases this
    | cons c w ih =>
      intro s h hw
      have h1 : Fst wordR s (s.adv [c] (w ++ t)) := fst_cls h (hw c (by simp))
      have h2 := ih (s.adv [c] (w ++ t)) rfl (fun d hd => hw d (by simp [hd]))
      rw [St.adv_adv] at h2
      refine fst_star_more h1 ?_ h2
      rw [h]
      simp [St.adv]
  have h1 : Fst wordR s (s.adv [c] (u ++ t)) := fst_cls h hc
  have h2 := key u (s.adv [c] (u ++ t)) rfl (fun d hd => hw.2 d (by simp [hd]))
  rw [St.adv_adv] at h2
  exact fst_seq h1 h2

theorem fst_body_word {w : Str} {s : St} {t : Str} (h : s.rest = w ++ t) (hw : Word w)
    (ht : ∀ c u, t = c :: u → isWord c = false) : Fst bodyR s (s.adv w t) := by
  have h0 : run (.chr '.') s = [] := by
    refine (rec_chr '.').none ?_
    rintro x u rfl hr
    obtain ⟨c, v, rfl, hc⟩ := hw.head
    rw [h] at hr
    simp only [List.cons_append, List.nil_append, List.cons.injEq] at hr
    rw [hr.1, dot_not_word] at hc
    cases hc
  exact fst_seq (fst_alt_right h0 rfl) (fst_word h hw ht)

theorem fst_body_dot {w : Str} {s : St} {t : Str} (h : s.rest = '.' :: w ++ t) (hw : Word w)
    (ht : ∀ c u, t = c :: u → isWord c = false) : Fst bodyR s (s.adv ('.' :: w) t) := by
  have h1 : Fst (.chr '.') s (s.adv ['.'] (w ++ t)) := fst_cls h (by simp)
  have h2 := fst_word (s := s.adv ['.'] (w ++ t)) rfl hw ht
  rw [St.adv_adv] at h2
  exact fst_seq (fst_alt_left h1) h2

theorem body_none {s : St} (ht : Stop s.rest) : run bodyR s = [] := by
  refine rec_body.none ?_
  rintro x u ⟨w, hw, rfl | rfl⟩ hr
  · obtain ⟨c, v, rfl, hc⟩ := hw.head
    rw [(ht _ _ hr).1] at hc
    cases hc
  · exact (ht _ _ hr).2 rfl

theorem fst_star_dot {n : Str} (hn : ValidName n) : ∀ (s : St) (t : Str), s.rest = '.' :: n ++ t → Stop t →
    Fst (.star bodyR) s (s.adv ('.' :: n) t) := by
  induction hn with
  | @word w hw =>
    intro s t h ht
    refine fst_star_more (fst_body_dot h hw (fun c u hc => (ht c u hc).1)) ?_ (fst_star_done (body_none ht))
    rw [h]
    simp only [St.adv, List.length_append, List.length_cons]
    omega
  | @dotted w n hw _ ih =>
    intro s t h ht
    have h' : s.rest = '.' :: w ++ ('.' :: n ++ t) := by rw [h]; simp
    have h1 : Fst bodyR s (s.adv ('.' :: w) ('.' :: n ++ t)) := by
      refine fst_body_dot h' hw ?_
      intro c u hc
      simp only [List.cons_append, List.cons.injEq] at hc
      rw [← hc.1]
      exact dot_not_word
    have h2 := ih (s.adv ('.' :: w) ('.' :: n ++ t)) t rfl ht
    rw [St.adv_adv] at h2
    refine fst_star_more h1 ?_ h2
    rw [h']
    simp only [St.adv, List.length_append, List.length_cons]
    omega

/-- The first match of `_DISTRIBUTION_NAME_R` is the whole name. -/
theorem fst_name {n : Str} (hn : ValidName n) {s : St} {t : Str} (h : s.rest = n ++ t) (ht : Stop t) :
    Fst nameR s (s.adv n t) := by
  have h0 : Fst (.nahead (.chr '.')) s s := by
    have : run (.chr '.') s = [] := by
      refine (rec_chr '.').none ?_
      rintro x u rfl hr
      obtain ⟨c, v, rfl, hc⟩ := hn.head
      rw [h] at hr
      simp only [List.cons_append, List.nil_append, List.cons.injEq] at hr
      rw [hr.1, dot_not_word] at hc
      cases hc
    unfold Fst
    simp only [run]
    rw [this]
    rfl
  have h1 : Fst (.plus bodyR) s (s.adv n t) := by
    cases hn with
    | word hw =>
      exact fst_seq (fst_body_word h hw (fun c u hc => (ht c u hc).1)) (fst_star_done (body_none ht))
    | @dotted w m hw hm =>
      have h' : s.rest = w ++ ('.' :: m ++ t) := by rw [h]; simp
      have h1 : Fst bodyR s (s.adv w ('.' :: m ++ t)) := by
        refine fst_body_word h' hw ?_
        intro c u hc
        simp only [List.cons_append, List.cons.injEq] at hc
        rw [← hc.1]
        exact dot_not_word
      have h2 := fst_star_dot hm (s.adv w ('.' :: m ++ t)) t rfl ht
      rw [St.adv_adv] at h2
      exact fst_seq h1 h2
  have h2 : Fst (.nbehind (fun c => c == '.')) (s.adv n t) (s.adv n t) := by
    obtain ⟨c, u, hl, hc⟩ := hn.last
    unfold Fst
    simp only [run, St.adv, hl, List.cons_append]
    have : ¬ (c == '.') = true := by
      intro h
      have := eq_of_beq h
      subst this
      rw [dot_not_word] at hc
      cases hc
    rw [if_neg this]
    rfl
  exact fst_seq h0 (fst_seq h1 h2)

end Verif.Text
