import Verif.Text.Grammar
/-
Constraint and requirement strings, part by part.
-/
set_option linter.unusedSectionVars false
namespace Verif.Text
open Verif Verif.Pkg CharTable Re

variable [CharTable]

/-! ### commas -/

theorem joined_cons {p : Str} {ps : List Str} (h : ps ≠ []) : joined (p :: ps) = p ++ ',' :: joined ps := by
  cases ps with
  | nil => exact absurd rfl h
  | cons q ps => rfl

theorem joined_splitComma (s : Str) : joined (splitComma s) = s := by
  induction s with
  | nil => rfl
  | cons c s ih =>
    by_cases hc : c = ','
    · subst hc
      rw [splitComma_comma, joined_cons (splitComma_ne_nil s), ih]
      rfl
    · obtain ⟨p, ps, h1, h2⟩ := splitComma_cons hc s
      rw [h2]
      rw [h1] at ih
      cases ps with
      | nil =>
        simp only [joined] at ih ⊢
        rw [ih]
      | cons q ps =>
        simp only [joined] at ih ⊢
        rw [List.cons_append, ih]

theorem splitComma_joined : ∀ ps : List Str, ps ≠ [] → (∀ p ∈ ps, ',' ∉ p) → splitComma (joined ps) = ps := by
  intro ps
  induction ps with
  | nil => intro h; exact absurd rfl h
  | cons p ps ih =>
    intro _ h
    cases ps with
    | nil => exact splitComma_plain (h p (by simp))
    | cons q ps =>
      rw [joined_cons (by simp), splitComma_append (h p (by simp)), ih (by simp) (fun x hx => h x (by simp [hx]))]

/-! ### the shapes of stripped texts -/

theorem stripped_lead {g u : Str} (hg : Blanks g) (h : strip (g ++ u) = g ++ u) : g = [] := by
  cases g with
  | nil => rfl
  | cons b g =>
    have := strip_first h b (g ++ u) rfl
    rw [hg b (by simp), CharTable.blank_space] at this
    cases this

theorem stripped_trail {g u : Str} (hg : Blanks g) (h : strip (u ++ g) = u ++ g) : g = [] := by
  rcases List.eq_nil_or_concat g with rfl | ⟨g', b, rfl⟩
  · rfl
  · rw [List.concat_eq_append] at h hg ⊢
    have := strip_last h b (g'.reverse ++ u.reverse) (by simp)
    rw [hg b (by simp), CharTable.blank_space] at this
    cases this

theorem lexed0 {p : Str} (hp : strip p = p) (h : Lexed [] p) : p = [] := by
  have := h.none rfl
  exact stripped_lead (u := []) (g := p) this (by simpa using hp)

theorem lexed1 {p : Str} (hp : strip p = p) {a : Token} (h : Lexed [a] p) : a.value = some p ∧ TokText a.kind p := by
  obtain ⟨g, x, u, rfl, hg, hv, hx, hu, hlast⟩ := h.cons rfl
  have hg0 := stripped_lead hg hp
  subst hg0
  rw [List.nil_append] at hp ⊢
  have hu0 := stripped_trail (hu.none rfl) hp
  subst hu0
  rw [List.append_nil]
  exact ⟨hv, hx⟩

theorem lexed2 {p : Str} (hp : strip p = p) {a b : Token} (h : Lexed [a, b] p) :
    ∃ x g y, p = x ++ (g ++ y) ∧ Blanks g ∧ a.value = some x ∧ TokText a.kind x ∧ b.value = some y ∧ TokText b.kind y ∧
      (a.kind = .version → ∀ c ∈ y, c = '\n') := by
  obtain ⟨g, x, u, rfl, hg, hv, hx, hu, hlast⟩ := h.cons rfl
  obtain ⟨g1, y, u1, rfl, hg1, hv1, hy, hu1, hlast1⟩ := hu.cons rfl
  have hg0 := stripped_lead hg hp
  subst hg0
  rw [List.nil_append] at hp ⊢
  have hu0 := stripped_trail (u := x ++ (g1 ++ y)) (hu1.none rfl) (by simpa using hp)
  subst hu0
  exact ⟨x, g1, y, by simp, hg1, hv, hx, hv1, hy, fun e c hc => hlast e c (by simp [hc])⟩

theorem lexed3 {p : Str} (hp : strip p = p) {a b c : Token} (h : Lexed [a, b, c] p) :
    ∃ x g y g' z, p = x ++ (g ++ (y ++ (g' ++ z))) ∧ Blanks g ∧ Blanks g' ∧ a.value = some x ∧ TokText a.kind x ∧
      b.value = some y ∧ TokText b.kind y ∧ c.value = some z ∧ TokText c.kind z := by
  obtain ⟨g, x, u, rfl, hg, hv, hx, hu, hlast⟩ := h.cons rfl
  obtain ⟨g1, y, u1, rfl, hg1, hv1, hy, hu1, hlast1⟩ := hu.cons rfl
  obtain ⟨g2, z, u2, rfl, hg2, hv2, hz, hu2, -⟩ := hu1.cons rfl
  have hg0 := stripped_lead hg hp
  subst hg0
  rw [List.nil_append] at hp ⊢
  have hu0 := stripped_trail (u := x ++ (g1 ++ (y ++ (g2 ++ z)))) (hu2.none rfl) (by simpa using hp)
  subst hu0
  exact ⟨x, g1, y, g2, z, by simp, hg1, hg2, hv, hx, hv1, hy, hv2, hz⟩

/-! ### piece by piece -/

/-- each piece without tokens is skipped, each other one gives a value -/
inductive PiecesRead {α : Type} (lex : List (Re × Option Kind)) (f : List Token → Except PErr α) : List Str → List α → Prop where
  | nil : PiecesRead lex f [] []
  | skip {p ps cs} : scan lex p = ([], []) → PiecesRead lex f ps cs → PiecesRead lex f (p :: ps) cs
  | one {p t ts a ps cs} : scan lex p = (t :: ts, []) → f (t :: ts) = .ok a → PiecesRead lex f ps cs →
      PiecesRead lex f (p :: ps) (a :: cs)

theorem piecesRead_iff {α : Type} (lex : List (Re × Option Kind)) (f : List Token → Except PErr α) : ∀ (ps : List Str) (cs : List α),
    PiecesRead lex f ps cs ↔ ∃ ts, tokenizePieces lex ps = .ok ts ∧ computeAll f ts = .ok cs := by
  intro ps
  induction ps with
  | nil =>
    intro cs
    constructor
    · intro h
      cases h
      exact ⟨[], rfl, rfl⟩
    · rintro ⟨ts, h1, h2⟩
      cases h1
      cases h2
      exact .nil
  | cons p ps ih =>
    intro cs
    constructor
    · intro h
      cases h with
      | skip hs hr =>
        obtain ⟨ts, h1, h2⟩ := (ih _).1 hr
        refine ⟨ts, ?_, h2⟩
        rw [tokenizePieces, hs, h1]
        rfl
      | @one _ t tl _ _ _ hs hf hr =>
        obtain ⟨ts, h1, h2⟩ := (ih _).1 hr
        refine ⟨(t :: tl) :: ts, ?_, ?_⟩
        · rw [tokenizePieces, hs, h1]
          rfl
        · rw [computeAll, hf, h2]
    · rintro ⟨ts, h1, h2⟩
      rw [tokenizePieces] at h1
      split at h1
      · cases h1
      · next hrem =>
        have hrem : (scan lex p).2 = [] := by
          rw [← List.length_eq_zero_iff]; omega
        split at h1
        · cases h1
        · next ts' hts' =>
          cases h1
          cases hsc : (scan lex p).1 with
          | nil =>
            rw [hsc] at h2
            exact .skip (Prod.ext hsc hrem) ((ih cs).2 ⟨ts', hts', by simpa using h2⟩)
          | cons t tl =>
            rw [hsc] at h2
            simp only [List.length_cons, gt_iff_lt, Nat.zero_lt_succ, if_true] at h2
            rw [computeAll] at h2
            split at h2
            · cases h2
            · next a ha =>
              split at h2
              · cases h2
              · next as has =>
                cases h2
                exact .one (Prod.ext hsc hrem) ha ((ih as).2 ⟨ts', hts', has⟩)

variable {U : Type} [LinearOrder U] [VersionText U]

theorem specFactory_kind (o : Op) : specFactory (U := U) o.kind = some o.con := by cases o <;> rfl

theorem specFactory_some {k : Kind} {f : Version U → Constraint U} (h : specFactory k = some f) : ∃ o : Op, o.kind = k ∧ f = o.con := by
  cases k <;> simp only [specFactory, Option.some.injEq, reduceCtorEq] at h <;> subst h
  · exact ⟨.equal, rfl, rfl⟩
  · exact ⟨.geq, rfl, rfl⟩
  · exact ⟨.gt, rfl, rfl⟩
  · exact ⟨.leq, rfl, rfl⟩
  · exact ⟨.lt, rfl, rfl⟩
  · exact ⟨.not, rfl, rfl⟩
  · exact ⟨.upstream, rfl, rfl⟩

theorem tokText_op {o : Op} {x : Str} (h : TokText o.kind x) : x = o.text := by
  rcases h with ⟨h, -⟩ | ⟨h, -⟩ | ⟨h, -⟩ | ⟨o', h, rfl⟩
  · cases o <;> cases h
  · cases o <;> cases h
  · cases o <;> cases h
  · cases o <;> cases o' <;> first | rfl | cases h

theorem operatorFactory_ok {a b : Token} {c : Constraint U} {x y : Str} (ha : TokText a.kind x) (hb : b.value = some y)
    (h : operatorFactory a b = .ok c) : ∃ (o : Op) (v : Version U), a.kind = o.kind ∧ x = o.text ∧ VersionText.ofString y = .ok v ∧ c = o.con v := by
  unfold operatorFactory at h
  split at h
  · cases h
  · next f hf =>
    rw [hb] at h
    simp only at h
    split at h
    · cases h
    · next v hv =>
      cases h
      obtain ⟨o, ho, rfl⟩ := specFactory_some hf
      refine ⟨o, v, ho.symm, ?_, hv, rfl⟩
      rw [← ho] at ha
      exact tokText_op ha

end Verif.Text
