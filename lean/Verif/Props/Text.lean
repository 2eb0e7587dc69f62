import Verif.Text.Scan
import Verif.Text.Example
/-
Properties C29, C54 and C55: the texts of requirements.
-/
set_option linter.unusedSectionVars false
namespace Verif.Props
open Verif Verif.Pkg Verif.Text Verif.Text.Re CharTable

variable [CharTable] {U : Type} [LinearOrder U] [VersionText U]

/-! ### the syntax of constraint strings -/

theorem scanLoop_values (lex : List (Re × Option Kind)) : ∀ (fuel : Nat) (s : St),
    ∀ t ∈ (scanLoop lex fuel s).1, t.value ≠ none
  | 0, s => by intro t ht; cases ht
  | fuel + 1, s => by
    have ih := scanLoop_values lex fuel
    intro t ht
    unfold scanLoop at ht
    split at ht
    · cases ht
    · split at ht
      · split at ht
        · exact ih _ t ht
        · rcases List.mem_cons.1 ht with rfl | h
          · simp
          · exact ih _ t h
      · cases ht

/-- a match never goes back -/
theorem starRun_suffix {f : St → List St} (hf : ∀ s, ∀ s' ∈ f s, s'.rest <:+ s.rest) :
    ∀ (n : Nat) (s : St), ∀ s' ∈ Re.starRun f n s, s'.rest <:+ s.rest
  | 0, s, s', h => by simp [Re.starRun] at h; subst h; exact List.suffix_rfl
  | n + 1, s, s', h => by
    simp only [Re.starRun, List.mem_append, List.mem_flatMap, List.mem_filter, List.mem_singleton] at h
    rcases h with ⟨x, hx, h⟩ | rfl
    · exact (starRun_suffix hf n x s' h).trans (hf s x hx.1)
    · exact List.suffix_rfl

theorem lazyRun_suffix {f : St → List St} (hf : ∀ s, ∀ s' ∈ f s, s'.rest <:+ s.rest) :
    ∀ (n : Nat) (s : St), ∀ s' ∈ Re.lazyRun f n s, s'.rest <:+ s.rest
  | 0, s, s', h => by simp [Re.lazyRun] at h; subst h; exact List.suffix_rfl
  | n + 1, s, s', h => by
    simp only [Re.lazyRun, List.mem_cons, List.mem_flatMap, List.mem_filter] at h
    rcases h with rfl | ⟨x, hx, h⟩
    · exact List.suffix_rfl
    · exact (lazyRun_suffix hf n x s' h).trans (hf s x hx.1)

theorem run_suffix (r : Re) : ∀ (s : St), ∀ s' ∈ r.run s, s'.rest <:+ s.rest := by
  induction r with
  | eps => intro s s' h; simp [Re.run] at h; subst h; exact List.suffix_rfl
  | cls p =>
    intro s s' h
    unfold Re.run at h
    split at h
    · cases h
    · next c cs hc =>
      split at h
      · rw [List.mem_singleton] at h
        subst h
        rw [hc]
        exact List.suffix_cons c cs
      · cases h
  | seq a b iha ihb =>
    intro s s' h
    simp only [Re.run, List.mem_flatMap] at h
    obtain ⟨x, hx, h⟩ := h
    exact (ihb x s' h).trans (iha s x hx)
  | alt a b iha ihb =>
    intro s s' h
    simp only [Re.run, List.mem_append] at h
    exact h.elim (iha s s') (ihb s s')
  | star a ih => intro s s' h; exact starRun_suffix ih _ s s' h
  | lazyStar a ih => intro s s' h; exact lazyRun_suffix ih _ s s' h
  | ahead a ih =>
    intro s s' h
    simp only [Re.run] at h
    split at h
    · cases h
    · rw [List.mem_singleton] at h; subst h; exact List.suffix_rfl
  | nahead a ih =>
    intro s s' h
    simp only [Re.run] at h
    split at h
    · rw [List.mem_singleton] at h; subst h; exact List.suffix_rfl
    · cases h
  | nbehind p =>
    intro s s' h
    unfold Re.run at h
    split at h
    · rw [List.mem_singleton] at h; subst h; exact List.suffix_rfl
    · split at h
      · cases h
      · rw [List.mem_singleton] at h; subst h; exact List.suffix_rfl
  | eos =>
    intro s s' h
    unfold Re.run at h
    split at h
    · rw [List.mem_singleton] at h; subst h; exact List.suffix_rfl
    · cases h
  | group i a ih =>
    intro s s' h
    simp only [Re.run, List.mem_map] at h
    obtain ⟨x, hx, rfl⟩ := h
    exact ih s x hx

theorem scanStep_suffix {lex : List (Re × Option Kind)} {s s' : St} {k : Option Kind} (h : scanStep lex s = some (k, s')) :
    s'.rest <:+ s.rest := by
  induction lex with
  | nil => cases h
  | cons rk lex ih =>
    obtain ⟨r, k'⟩ := rk
    unfold scanStep at h
    split at h
    · next x hx =>
      cases h
      exact run_suffix r s _ (List.mem_of_mem_head? hx)
    · exact ih h

/-- what remains is an end of the string -/
theorem scanLoop_suffix (lex : List (Re × Option Kind)) : ∀ (n : Nat) (s : St), (scanLoop lex n s).2 <:+ s.rest
  | 0, s => List.suffix_rfl
  | n + 1, s => by
    unfold scanLoop
    split
    · exact List.suffix_rfl
    · next k s' hs =>
      split
      · have := (scanLoop_suffix lex n s').trans (scanStep_suffix hs)
        simp only
        split <;> exact this
      · exact List.suffix_rfl

theorem strip_sub {s : Str} {c : Char} (h : c ∈ strip s) : c ∈ s := by
  unfold strip at h
  have h := (List.dropWhile_suffix _).subset (List.mem_reverse.1 h)
  exact (List.dropWhile_suffix _).subset (List.mem_reverse.1 h)

theorem splitComma_sub {s p : Str} {c : Char} (hp : p ∈ splitComma s) (h : c ∈ p) : c ∈ s := by
  induction s generalizing p with
  | nil => simp [splitComma] at hp; subst hp; cases h
  | cons d s ih =>
    unfold splitComma at hp
    split at hp
    · rcases List.mem_cons.1 hp with rfl | hp
      · cases h
      · exact List.mem_cons_of_mem _ (ih hp h)
    · split at hp
      · rw [List.mem_singleton] at hp
        subst hp
        simp only [List.mem_singleton] at h
        simp [h]
      · next q qs hq =>
        rcases List.mem_cons.1 hp with rfl | hp
        · rcases List.mem_cons.1 h with rfl | h
          · simp
          · exact List.mem_cons_of_mem _ (ih (by rw [hq]; simp) h)
        · exact List.mem_cons_of_mem _ (ih (by rw [hq]; simp [hp]) h)

/-- the string contains a brace -/
def HasBrace (s : Str) : Prop := '{' ∈ s ∨ '}' ∈ s

theorem unparsed_brace {s : Str} (h : ¬ HasBrace s) : unparsedError s = .invalidConstraint := by
  unfold unparsedError
  rw [CharTable.format_plain s (fun k => h (Or.inl k)) (fun k => h (Or.inr k))]
  rfl

theorem tokenizeParts_spec (lex : List (Re × Option Kind)) (ps : List Str) :
    (∀ e, tokenizeParts lex ps = .error e → e = .invalidConstraint ∨ (e = .formatting ∧ ∃ p ∈ ps, HasBrace p)) ∧
    (∀ bs, tokenizeParts lex ps = .ok bs → ∀ b ∈ bs, ∀ t ∈ b, t.value ≠ none) := by
  induction ps with
  | nil => exact ⟨(fun e h => by cases h), (fun bs h b hb => by cases h; cases hb)⟩
  | cons p ps ih =>
    rw [tokenizeParts]
    rcases hs : scan lex (strip p) with ⟨scanned, remaining⟩
    simp only
    split
    · refine ⟨fun e h => ?_, (fun bs h => by cases h)⟩
      cases h
      by_cases hb : HasBrace remaining
      · unfold unparsedError
        split
        · refine Or.inr ⟨rfl, p, by simp, ?_⟩
          have h2 := scanLoop_suffix lex ((strip p).length + 1) (St.start (strip p))
          unfold scan at hs
          rw [hs] at h2
          exact hb.imp (fun k => strip_sub (h2.subset k)) (fun k => strip_sub (h2.subset k))
        · exact Or.inl rfl
      · exact Or.inl (unparsed_brace hb)
    · split
      · next e' he => exact ⟨(fun e h => by
          cases h
          exact (ih.1 _ he).imp_right (fun ⟨k, q, hq, hb⟩ => ⟨k, q, by simp [hq], hb⟩)), (fun bs h => by cases h)⟩
      · next ts hts =>
        refine ⟨fun e h => (by cases h), fun bs h => ?_⟩
        cases h
        have h1 : ∀ t ∈ scanned, t.value ≠ none := by
          have := scanLoop_values lex ((strip p).length + 1) (St.start (strip p))
          unfold scan at hs
          rw [hs] at this
          exact this
        split
        · intro b hb
          rcases List.mem_cons.1 hb with rfl | hb
          · exact h1
          · exact ih.2 ts hts b hb
        · exact ih.2 ts hts

theorem computeConstraint_err {b : List Token} (hb : (∀ t ∈ b, t.value ≠ none) ∨ b = [⟨.any, none⟩]) {e : PErr}
    (h : computeConstraint (U := U) b = .error e) : e = .invalidConstraint ∨ e = .valueError ∨ e = .assertion := by
  unfold computeConstraint at h
  split at h
  · next op ver =>
    unfold operatorFactory at h
    split at h
    · cases h; exact Or.inl rfl
    · split at h
      · next hv =>
        rcases hb with hb | hb
        · exact absurd hv (hb ver (by simp))
        · cases hb
      · split at h
        · next e' he =>
          cases h
          exact Or.inr (Or.inl (VersionText.ofString_err _ _ he))
        · cases h
  · split at h
    · cases h
    · cases h; exact Or.inr (Or.inr rfl)
  · cases h; exact Or.inl rfl

theorem computeAll_err {bs : List (List Token)} (hb : ∀ b ∈ bs, (∀ t ∈ b, t.value ≠ none) ∨ b = [⟨.any, none⟩]) {e : PErr}
    (h : computeAll (computeConstraint (U := U)) bs = .error e) :
    e = .invalidConstraint ∨ e = .valueError ∨ e = .assertion := by
  induction bs with
  | nil => cases h
  | cons b bs ih =>
    rw [computeAll] at h
    split at h
    · next e' he => cases h; exact computeConstraint_err (hb b (by simp)) he
    · split at h
      · next e' he => cases h; exact ih (fun b hb' => hb b (by simp [hb'])) he
      · cases h

theorem tokenize_err {lex : List (Re × Option Kind)} {s : Str} {e : PErr} (h : tokenize lex s = .error e) :
    e = .invalidConstraint ∨ (e = .formatting ∧ HasBrace s) := by
  unfold tokenize at h
  simp only at h
  split at h
  · cases h
  · refine ((tokenizeParts_spec _ _).1 _ h).imp_right (fun ⟨k, q, hq, hb⟩ => ⟨k, ?_⟩)
    exact hb.imp (fun k => strip_sub (splitComma_sub hq k)) (fun k => strip_sub (splitComma_sub hq k))

/-- the exceptions of `_RawConstraintsParser().parse` -/
theorem parseConstraints_err {s : Str} {e : PErr} (h : parseConstraints (U := U) s = .error e) :
    e = .invalidConstraint ∨ e = .valueError ∨ e = .assertion ∨ (e = .formatting ∧ HasBrace s) := by
  unfold parseConstraints at h
  split at h
  · next e' he =>
    cases h
    rcases tokenize_err he with k | k
    · exact Or.inl k
    · exact Or.inr (Or.inr (Or.inr k))
  · next bs hbs =>
    have : e = .invalidConstraint ∨ e = .valueError ∨ e = .assertion := by
      refine computeAll_err ?_ h
      unfold tokenize at hbs
      simp only at hbs
      split at hbs
      · cases hbs
        intro b hb
        rw [List.mem_singleton] at hb
        exact Or.inr hb
      · intro b hb
        exact Or.inl ((tokenizeParts_spec _ _).2 _ hbs b hb)
    rcases this with k | k | k <;> simp [k]

/-- The constraint strings of packages are read by `_RawConstraintsParser`, with the classes of ASCII, as its scanner has
them: with this, the results of the other layers hold for actual strings. -/
instance textSyntax : Syntax (CStr U) U where
  parse := fun s => letI := asciiTable; parseConstraints s.text
  star := ⟨['*']⟩
  parse_star := by
    let _ := asciiTable
    have := parse_part (U := U) (c := .any) trivial
    simpa [constraintPart, reread] using this
  parse_err := fun s e h => by
    let _ := asciiTable
    rcases parseConstraints_err h with k | k | k | k <;> simp [k]

/-- The version of the constraint, if it has one, can be written in ASCII and read back. -/
def AsciiPrintable (c : Constraint U) : Prop := letI := asciiTable; ConstraintPrintable c

/-! ### C29 -/

theorem reread_matches (c : Constraint U) (v : Version U) : (reread c).matches v = c.matches v := by
  cases c <;> rfl

theorem reread_eq {c : Constraint U} : reread c = c ↔ NoBuild c := by
  cases c with
  | upstream v =>
    obtain ⟨u, b⟩ := v
    simp only [reread, NoBuild, Constraint.upstream.injEq, Version.mk.injEq, true_and]
    exact eq_comm
  | _ => simp [reread, NoBuild]

theorem parseAll_parts : ∀ (cs : List (Constraint U)), (∀ c ∈ cs, AsciiPrintable c) →
    parseAll (cs.map (fun c => (⟨constraintPart c⟩ : CStr U))) = .ok (cs.map reread)
  | [], _ => rfl
  | c :: cs, h => by
    have h1 : Syntax.parse (⟨constraintPart c⟩ : CStr U) = .ok [reread c] :=
      letI := asciiTable; parse_part (h c (by simp))
    have h2 := parseAll_parts cs (fun d hd => h d (by simp [hd]))
    simp only [List.map_cons, parseAll, h1, h2]
    rfl

/-- what `from_constraints(r.to_constraints())` is -/
theorem from_to_constraints (cls : ReqClass) (r : Requirement Str U) (hp : ∀ c ∈ r.constraints, AsciiPrintable c) :
    fromConstraints cls (toConstraints r) =
      .ok ⟨cls, r.name, if r.constraints = [] then [.any] else r.constraints.map reread⟩ := by
  unfold fromConstraints toConstraints
  simp only [List.length_singleton, gt_iff_lt, Nat.lt_irrefl, if_false, List.flatMap_cons, List.flatMap_nil,
    List.append_nil]
  cases hc : r.constraints with
  | nil =>
    have : parseAll (insertStar ([] : List (CStr U))) = (.ok [.any] : Except PErr (List (Constraint U))) := by
      simp only [insertStar, List.length_nil, Nat.lt_irrefl, gt_iff_lt, if_false, parseAll, Syntax.parse_star]
      rfl
    simp only [List.map_nil, this, if_true]
  | cons c cs =>
    have h1 := parseAll_parts (c :: cs) (by rw [← hc]; exact hp)
    have h2 : insertStar ((c :: cs).map (fun c => (⟨constraintPart c⟩ : CStr U))) =
        (c :: cs).map (fun c => ⟨constraintPart c⟩) := by
      simp [insertStar]
    rw [h2, h1]
    simp

/-- C29: `from_constraints(r.to_constraints())` succeeds, with the name of `r`, and accepts the same versions. -/
theorem C29_same_versions (cls : ReqClass) (r : Requirement Str U) (hp : ∀ c ∈ r.constraints, AsciiPrintable c) :
    ∃ r', fromConstraints cls (toConstraints r) = .ok r' ∧ r'.cls = cls ∧ r'.name = r.name ∧
      ∀ v, r'.matches v = r.matches v := by
  refine ⟨_, from_to_constraints cls r hp, rfl, rfl, ?_⟩
  intro v
  unfold Requirement.matches
  split
  · next h => rw [h]; rfl
  · simp only
    induction r.constraints with
    | nil => rfl
    | cons c cs ih =>
      simp only [List.map_cons, multiMatches, reread_matches, ih]

/-- C29: the requirement that is read back is equal to `r` exactly if `r` has a constraint and no `^=` constraint of `r`
has a build number. -/
theorem C29_equal_partial (r : Requirement Str U) (hp : ∀ c ∈ r.constraints, AsciiPrintable c) :
    fromConstraints r.cls (toConstraints r) = .ok r ↔ r.constraints ≠ [] ∧ ∀ c ∈ r.constraints, NoBuild c := by
  rw [from_to_constraints r.cls r hp]
  obtain ⟨cls, name, cs⟩ := r
  simp only [Except.ok.injEq, Requirement.mk.injEq, true_and]
  constructor
  · intro h
    split at h
    · next hc => rw [hc] at h; cases h
    · next hc =>
      refine ⟨hc, fun c hm => ?_⟩
      rw [← reread_eq]
      have := List.map_inj_left.1 (h.trans (List.map_id cs).symm) c hm
      exact this
  · rintro ⟨h1, h2⟩
    rw [if_neg h1]
    have : cs.map reread = cs.map id := List.map_inj_left.2 (fun c hc => reread_eq.2 (h2 c hc))
    rw [this, List.map_id]

/-! ### C54 -/

/-- what may separate the name and the version -/
def Separator (sep : Str) : Prop := sep = ['-'] ∨ (sep ≠ [] ∧ ∀ c ∈ sep, isSpace c = true)

theorem rec_separator : Rec (.alt (.chr '-') (.plus (.cls isSpace))) Separator := by
  refine (rec_alt (rec_chr '-') (rec_plus (rec_cls isSpace))).congr ?_
  intro z
  refine or_congr Iff.rfl ?_
  constructor
  · rintro ⟨x, y, rfl, ⟨c, rfl, hc⟩, hy⟩
    refine ⟨by simp, ?_⟩
    have : ∀ d ∈ y, isSpace d = true := by
      induction hy with
      | nil => simp
      | cons hx _ _ ih =>
        obtain ⟨d, rfl, hd⟩ := hx
        intro e he
        rw [List.mem_append, List.mem_singleton] at he
        rcases he with rfl | he
        · exact hd
        · exact ih e he
    intro d hd
    rw [List.mem_append, List.mem_singleton] at hd
    rcases hd with rfl | hd
    · exact hc
    · exact this d hd
  · rintro ⟨hne, h⟩
    have key : ∀ y : Str, (∀ d ∈ y, isSpace d = true) → Rep (fun x => ∃ c, x = [c] ∧ isSpace c = true) y := by
      intro y
      induction y with
      | nil => intro _; exact Rep.nil
      | cons c y ih =>
        intro h
        exact Rep.cons (x := [c]) ⟨c, rfl, h c (by simp)⟩ (by simp) (ih (fun d hd => h d (by simp [hd])))
    cases z with
    | nil => exact absurd rfl hne
    | cons c z => exact ⟨[c], z, rfl, ⟨c, rfl, h c (by simp)⟩, key z (fun d hd => h d (by simp [hd]))⟩

theorem mem_group {i : Nat} {a : Re} {s s' : St} :
    s' ∈ run (.group i a) s ↔
      ∃ x ∈ run a s, s' = { x with caps := (i, s.rest.take (s.rest.length - x.rest.length)) :: x.caps } := by
  simp only [run, List.mem_map, eq_comm]

/-- the matches of `_FULL_PACKAGE_RC` -/
theorem mem_fullPackage (s m : St) :
    m ∈ run fullPackageR s ↔ ∃ n sep v t, ValidName n ∧ Separator sep ∧ ValidVersion v ∧ AtEnd t ∧
      s.rest = n ++ (sep ++ (v ++ t)) ∧
      m = ⟨v.reverse ++ (sep.reverse ++ (n.reverse ++ s.pre)), t, (2, v) :: (1, n) :: s.caps⟩ := by
  have take_eq : ∀ x y : Str, (x ++ y).take ((x ++ y).length - y.length) = x := by intro x y; simp
  unfold fullPackageR
  constructor
  · intro h
    rw [run, List.mem_flatMap] at h
    obtain ⟨s1, h1, h⟩ := h
    rw [run, List.mem_flatMap] at h
    obtain ⟨s2, h2, h⟩ := h
    rw [run, List.mem_flatMap] at h
    obtain ⟨s3, h3, h4⟩ := h
    obtain ⟨x1, hx1, rfl⟩ := mem_group.1 h1
    obtain ⟨n, u1, hn, hr1, rfl⟩ := (rec_name _ _).1 hx1
    obtain ⟨sep, u2, hsep, hr2, rfl⟩ := (rec_separator _ _).1 h2
    obtain ⟨x3, hx3, rfl⟩ := mem_group.1 h3
    obtain ⟨v, t, hv, hr3, ht, rfl⟩ := (mem_version _ _).1 hx3
    simp only [St.adv] at hr2 hr3
    subst hr3 hr2
    refine ⟨n, sep, v, t, hn, hsep, hv, ht, hr1, ?_⟩
    simp only [run] at h4
    split at h4
    · rw [List.mem_singleton] at h4
      rw [h4]
      simp only [St.adv, hr1, take_eq]
    · cases h4
  · rintro ⟨n, sep, v, t, hn, hsep, hv, ht, hr, rfl⟩
    rw [run, List.mem_flatMap]
    refine ⟨_, mem_group.2 ⟨s.adv n (sep ++ (v ++ t)), (rec_name _ _).2 ⟨n, _, hn, hr, rfl⟩, rfl⟩, ?_⟩
    rw [run, List.mem_flatMap]
    refine ⟨_, (rec_separator _ _).2 ⟨sep, v ++ t, hsep, rfl, rfl⟩, ?_⟩
    rw [run, List.mem_flatMap]
    refine ⟨_, mem_group.2 ⟨_, (mem_version _ _).2 ⟨v, t, hv, rfl, ht, rfl⟩, rfl⟩, ?_⟩
    have ht' : t = [] ∨ t = ['\n'] := ht
    simp only [run, St.adv, if_pos ht', hr, take_eq, List.mem_singleton]

theorem takeWhile_unique {p : Char → Bool} {a b a' b' : Str} (ha : ∀ c ∈ a, p c = true) (ha' : ∀ c ∈ a', p c = true)
    (hb : ∀ c t, b = c :: t → p c = false) (hb' : ∀ c t, b' = c :: t → p c = false) (h : a ++ b = a' ++ b') :
    a = a' ∧ b = b' := by
  have key : ∀ {a b : Str}, (∀ c ∈ a, p c = true) → (∀ c t, b = c :: t → p c = false) → (a ++ b).takeWhile p = a := by
    intro a b ha hb
    rw [List.takeWhile_append_of_pos ha]
    cases b with
    | nil => simp
    | cons c t => rw [List.takeWhile_cons_of_neg (by rw [hb c t rfl]; simp), List.append_nil]
  have e : a = a' := by rw [← key ha hb, ← key ha' hb', h]
  subst e
  exact ⟨rfl, List.append_cancel_left h⟩

/-- the name, the separator and the version are determined by the string -/
theorem fullName_unique {n sep v t n' sep' v' t' : Str} (hn : ValidName n) (hsep : Separator sep) (hv : ValidVersion v)
    (ht : AtEnd t) (hn' : ValidName n') (hsep' : Separator sep') (hv' : ValidVersion v') (ht' : AtEnd t')
    (h : n ++ (sep ++ (v ++ t)) = n' ++ (sep' ++ (v' ++ t'))) : n = n' ∧ sep = sep' ∧ v = v' ∧ t = t' := by
  have hname : ∀ {n : Str}, ValidName n → ∀ c ∈ n, (isWord c || c == '.') = true := by
    intro n hn c hc
    rcases hn.chars c hc with h | h <;> simp [h]
  have hstop : ∀ {sep u : Str}, Separator sep → ∀ c t, sep ++ u = c :: t → (isWord c || c == '.') = false := by
    intro sep u hs c t hc
    rcases hs with rfl | ⟨hne, hsp⟩
    · simp only [List.cons_append, List.cons.injEq] at hc
      rw [← hc.1, dash_not_word]
      rfl
    · cases sep with
      | nil => exact absurd rfl hne
      | cons d sep =>
        simp only [List.cons_append, List.cons.injEq] at hc
        have hs := hsp d (by simp)
        rw [hc.1] at hs
        rw [space_not_word hs]
        simp only [Bool.false_or, beq_eq_false_iff_ne, ne_eq]
        rintro rfl
        rw [(plain_facts '.' (by simp)).2.2] at hs
        cases hs
  obtain ⟨rfl, g⟩ := takeWhile_unique (hname hn) (hname hn') (hstop hsep) (hstop hsep') h
  have hvs : ∀ {v u : Str}, ValidVersion v → ∀ c t, v ++ u = c :: t → isSpace c = false := by
    intro v u hv c t hc
    obtain ⟨d, w, rfl, hd⟩ := hv.head
    simp only [List.cons_append, List.cons.injEq] at hc
    rw [← hc.1]
    exact CharTable.word_space _ (CharTable.digit_word _ hd)
  have hdash : isSpace '-' = false := (plain_facts '-' (by simp)).2.2
  have key : sep = sep' ∧ v ++ t = v' ++ t' := by
    rcases hsep with rfl | ⟨hne, hsp⟩ <;> rcases hsep' with rfl | ⟨hne', hsp'⟩
    · exact ⟨rfl, List.append_cancel_left g⟩
    · cases sep' with
      | nil => exact absurd rfl hne'
      | cons c sep' =>
        simp only [List.cons_append, List.cons.injEq] at g
        rw [g.1, hsp' c (by simp)] at hdash
        cases hdash
    · cases sep with
      | nil => exact absurd rfl hne
      | cons c sep =>
        simp only [List.cons_append, List.cons.injEq] at g
        rw [← g.1, hsp c (by simp)] at hdash
        cases hdash
    · exact takeWhile_unique hsp hsp' (hvs hv) (hvs hv') g
  obtain ⟨rfl, rfl⟩ := atEnd_unique hv hv' ht ht' key.2
  exact ⟨rfl, key.1, rfl, rfl⟩

/-- C54: `parse_package_full_name` returns (n, v) exactly for the strings that consist of the name `n`, a dash or some
white space, and the version `v`, possibly followed by a newline. -/
theorem C54_exact (s n v : Str) :
    parsePackageFullName s = .ok (n, v) ↔
      ValidName n ∧ ValidVersion v ∧ ∃ sep tail, s = n ++ sep ++ v ++ tail ∧
        (sep = ['-'] ∨ (sep ≠ [] ∧ ∀ c ∈ sep, isSpace c = true)) ∧ (tail = [] ∨ tail = ['\n']) := by
  have hfirst : ∀ m, fullPackageR.first (St.start s) = some m → m ∈ run fullPackageR (St.start s) := by
    intro m hm
    exact List.mem_of_mem_head? hm
  constructor
  · intro h
    unfold parsePackageFullName at h
    split at h
    · cases h
    · next m hm =>
      obtain ⟨n', sep, v', t, hn, hsep, hv, ht, hr, rfl⟩ := (mem_fullPackage _ _).1 (hfirst m hm)
      have h' : (Except.ok (n', v') : Except PErr (Str × Str)) = .ok (n, v) := h
      cases h'
      exact ⟨hn, hv, sep, t, by simpa [St.start] using hr, hsep, ht⟩
  · rintro ⟨hn, hv, sep, t, rfl, hsep, ht⟩
    have hmem := (mem_fullPackage (St.start (n ++ sep ++ v ++ t)) _).2
      ⟨n, sep, v, t, hn, hsep, hv, ht, by simp [St.start], rfl⟩
    unfold parsePackageFullName
    cases hf : fullPackageR.first (St.start (n ++ sep ++ v ++ t)) with
    | none =>
      unfold Re.first at hf
      rw [List.head?_eq_none_iff] at hf
      rw [hf] at hmem
      cases hmem
    | some m =>
      obtain ⟨n', sep', v', t', hn', hsep', hv', ht', hr, rfl⟩ := (mem_fullPackage _ _).1 (hfirst m hf)
      obtain ⟨rfl, rfl, rfl, rfl⟩ := fullName_unique hn hsep hv ht hn' hsep' hv' ht' (by simpa [St.start] using hr)
      rfl

/-- C54: the name and the version of '<name>-<version>' are returned, whatever they are. -/
theorem C54_name_version {n v : Str} (hn : ValidName n) (hv : ValidVersion v) :
    parsePackageFullName (n ++ '-' :: v) = .ok (n, v) :=
  (C54_exact _ _ _).2 ⟨hn, hv, ['-'], [], by simp, Or.inl rfl, Or.inl rfl⟩

/-- C54: a string that is not accepted raises SolverException, nothing else. -/
theorem C54_refuses (s : Str) : (∃ nv, parsePackageFullName s = .ok nv) ∨ parsePackageFullName s = .error .solverException := by
  unfold parsePackageFullName
  cases hf : fullPackageR.first (St.start s) with
  | none => exact Or.inr rfl
  | some m =>
    obtain ⟨n', sep', v', t', hn', hsep', hv', ht', hr, rfl⟩ := (mem_fullPackage _ _).1 (List.mem_of_mem_head? hf)
    exact Or.inl ⟨(n', v'), rfl⟩

/-- C54: a string that is accepted and does not end in a newline is a name, a dash or white space, and a version. -/
theorem C54_accepts_partial {s n v : Str} (h : parsePackageFullName s = .ok (n, v)) (hnl : s.getLast? ≠ some '\n') :
    ValidName n ∧ ValidVersion v ∧ ∃ sep, s = n ++ sep ++ v ∧ (sep = ['-'] ∨ (sep ≠ [] ∧ ∀ c ∈ sep, isSpace c = true)) := by
  obtain ⟨hn, hv, sep, t, rfl, hsep, rfl | rfl⟩ := (C54_exact _ _ _).1 h
  · exact ⟨hn, hv, sep, by simp, hsep⟩
  · simp at hnl

/-- C54: `from_package_string("<name>-<version>")` is the requirement `name == version`. -/
theorem C54_from_package_string {n : Str} (hn : ValidName n) {v : Version U} (hv : Printable v) (cls : ReqClass) :
    fromPackageString cls (n ++ '-' :: VersionText.toStr v) = .ok (Requirement.exactly cls n v) := by
  unfold fromPackageString
  rw [C54_name_version hn hv.valid]
  simp only [hv.back]
  rfl

/-! ### C55 -/

theorem tokenize_requirement {k : Kind} {n x v : Str} (hn : ValidName n) (hk : opText k = some x) (hv : ValidVersion v) :
    scan requirementsLexicon (strip (n ++ ' ' :: (x ++ ' ' :: v))) =
      ([⟨.distribution, some n⟩, ⟨k, some x⟩, ⟨.version, some v⟩], []) := by
  have h := (op_text hk hv (n ++ [' ']) (by
    intro c t hc
    obtain ⟨d, u, rfl, hd⟩ := hn.head
    simp only [List.cons_append, List.cons.injEq] at hc
    rw [← hc.1]
    exact CharTable.word_space _ hd)).1
  have e : n ++ [' '] ++ x ++ ' ' :: v = n ++ ' ' :: (x ++ ' ' :: v) := by simp
  rw [e] at h
  rw [h]
  exact scan_of_scans (scans_requirement hn hk hv rfl)

/-- the constraints of a requirement that are printed -/
def printedOnes (r : Requirement Str U) : List (Constraint U) := r.constraints.filter (fun c => decide (c ≠ .any))

theorem part_star {c : Constraint U} : constraintPart c = ['*'] ↔ c = .any := by
  cases c <;> simp [constraintPart, constraintStr]

theorem requirementStr_eq (r : Requirement Str U) :
    requirementStr r = if printedOnes r = [] then r.name
      else r.name ++ ' ' :: joinComma ((printedOnes r).map constraintPart) := by
  have h : ((toConstraints r).2.flatten.map CStr.text).filter (fun s => decide (s ≠ ['*'])) =
      (printedOnes r).map constraintPart := by
    unfold toConstraints printedOnes
    simp only [List.flatten_cons, List.flatten_nil, List.append_nil, List.map_map]
    rw [List.filter_map]
    congr 1
    refine List.filter_congr ?_
    intro c _
    simp [part_star]
  unfold requirementStr
  simp only [h]
  simp

theorem matches_printedOnes (r : Requirement Str U) (v : Version U) : r.matches v = multiMatches (printedOnes r) v := by
  unfold Requirement.matches printedOnes
  induction r.constraints with
  | nil => rfl
  | cons c cs ih =>
    by_cases hc : c = .any
    · subst hc
      simp only [multiMatches, Constraint.matches, ne_eq, not_true_eq_false, decide_false, Bool.false_eq_true,
        not_false_eq_true, List.filter_cons_of_neg]
      exact ih
    · rw [List.filter_cons_of_pos (by simpa using hc)]
      simp only [multiMatches, ih]

/-- C55: a distribution name alone is read as a requirement for that name without version constraint. -/
theorem C55_name {n : Str} (hn : ValidName n) (cls : ReqClass) :
    fromString cls n = .ok (⟨cls, some n, [.any]⟩ : Requirement (Option Str) U) := by
  obtain ⟨k, hk⟩ := scans_name (s := St.start n) hn rfl
  have hs : strip n = n := by
    refine strip_id ?_ ?_
    · intro c t hc
      exact hn.no_space c (by rw [hc]; simp)
    · intro c t hc
      exact hn.no_space c (by rw [← List.mem_reverse, hc]; simp)
  have htok := tokenize_one hn.ne_nil hs (name_no_comma hn) hk (by simp)
  unfold fromString parseRequirement
  rw [htok]
  rfl

/-- a requirement with one printed constraint -/
theorem fromString_one {n : Str} (hn : ValidName n) {c : Constraint U} (hc : c ≠ .any) (hp : ConstraintPrintable c)
    (cls : ReqClass) : fromString cls (n ++ ' ' :: constraintPart c) = .ok ⟨cls, some n, [reread c]⟩ := by
  cases hpr : printed c with
  | none => exact absurd (printed_none.1 hpr) hc
  | some q =>
    obtain ⟨k, x, t⟩ := q
    obtain ⟨h1, h2, h3, h4⟩ := printed_facts hp hpr
    have hcomma : ',' ∉ n ++ ' ' :: (x ++ ' ' :: t) := by
      intro hm
      rcases List.mem_append.1 hm with hm | hm
      · exact name_no_comma hn hm
      · rcases List.mem_cons.1 hm with hm | hm
        · exact absurd hm (by decide)
        · exact (op_text h2 h3 [] (by simp)).2 hm
    have hstrip : strip (n ++ ' ' :: (x ++ ' ' :: t)) = n ++ ' ' :: (x ++ ' ' :: t) := by
      have h := (op_text h2 h3 (n ++ [' ']) (by
        intro c t hc
        obtain ⟨d, u, rfl, hd⟩ := hn.head
        simp only [List.cons_append, List.cons.injEq] at hc
        rw [← hc.1]
        exact CharTable.word_space _ hd)).1
      have e : n ++ [' '] ++ x ++ ' ' :: t = n ++ ' ' :: (x ++ ' ' :: t) := by simp
      rwa [e] at h
    have htok := tokenize_one (by simp) hstrip hcomma (scans_requirement (s := St.start _) hn h2 h3 rfl) (by simp)
    unfold fromString parseRequirement
    rw [h1, htok]
    simp only [computeAll, computeNamed, ne_eq, not_true_eq_false, if_false, h4 ⟨k, some x⟩ rfl]
    rfl

/-- C55: "<name> == <version>" is read as the requirement for exactly this version. -/
theorem C55_exactly {n : Str} (hn : ValidName n) {v : Version U} (hv : Printable v) (cls : ReqClass) :
    fromString cls (n ++ ' ' :: '=' :: '=' :: ' ' :: VersionText.toStr v) =
      .ok (⟨cls, some n, [.equal v]⟩ : Requirement (Option Str) U) := by
  have := fromString_one hn (c := .equal v) (by simp) hv cls
  simpa [constraintPart, constraintStr, reread] using this

/-- C55: if at most one constraint of `r` is not the trivial one, parsing `str(r)` gives a requirement with the same name
that accepts the same versions. -/
theorem C55_round_trip_partial (r : Requirement Str U) (cls : ReqClass) (hn : ValidName r.name)
    (hp : ∀ c ∈ r.constraints, ConstraintPrintable c)
    (h1 : (r.constraints.filter (fun c => decide (c ≠ .any))).length ≤ 1) :
    ∃ r' : Requirement (Option Str) U, fromString cls (requirementStr r) = .ok r' ∧ r'.cls = cls ∧
      r'.name = some r.name ∧ ∀ v, r'.matches v = r.matches v := by
  rw [requirementStr_eq]
  split
  · next h =>
    refine ⟨_, C55_name hn cls, rfl, rfl, ?_⟩
    intro v
    rw [matches_printedOnes, h]
    rfl
  · next h =>
    have hlen : (printedOnes r).length = 1 := by
      have : (printedOnes r).length ≤ 1 := h1
      have := List.length_pos_iff.2 h
      omega
    obtain ⟨c, hc⟩ := List.length_eq_one_iff.1 hlen
    have hm : c ∈ printedOnes r := by rw [hc]; simp
    unfold printedOnes at hm
    rw [List.mem_filter, decide_eq_true_iff] at hm
    rw [hc]
    refine ⟨_, fromString_one hn hm.2 (hp c hm.1) cls, rfl, rfl, ?_⟩
    intro v
    rw [matches_printedOnes, hc]
    simp only [Requirement.matches, multiMatches, reread_matches]

/-- the last character of printed constraints is not a space -/
theorem joined_last : ∀ (cs : List (Constraint U)), cs ≠ [] → (∀ c ∈ cs, c ≠ .any ∧ ConstraintPrintable c) →
    ∃ d u, (joinComma (cs.map constraintPart)).reverse = d :: u ∧ isSpace d = false
  | [], h, _ => absurd rfl h
  | [c], _, h => by
    obtain ⟨hc, hp⟩ := h c (by simp)
    cases hpr : printed c with
    | none => exact absurd (printed_none.1 hpr) hc
    | some q =>
      obtain ⟨k, x, t⟩ := q
      obtain ⟨h1, -, h3, -⟩ := printed_facts hp hpr
      obtain ⟨d, w, hr, hd⟩ := h3.last
      refine ⟨d, w ++ ' ' :: x.reverse, ?_, CharTable.word_space d hd⟩
      simp [joinComma, h1, hr]
  | c :: c' :: cs, _, h => by
    obtain ⟨d, u, hr, hd⟩ := joined_last (c' :: cs) (by simp) (fun e he => h e (by simp [he]))
    refine ⟨d, u ++ ' ' :: ',' :: (constraintPart c).reverse, ?_, hd⟩
    simp only [List.map_cons] at hr
    simp [joinComma, hr]

/-- printed constraints after the first one: each is a block of an operator and a version -/
theorem tokenize_joined : ∀ (cs : List (Constraint U)), cs ≠ [] → (∀ c ∈ cs, c ≠ .any ∧ ConstraintPrintable c) →
    ∃ op ver rest, tokenizeParts requirementsLexicon (splitComma (' ' :: joinComma (cs.map constraintPart))) =
      .ok ([op, ver] :: rest) ∧ ver.kind ≠ .any
  | [], h, _ => absurd rfl h
  | c :: cs, _, h => by
    obtain ⟨hc, hp⟩ := h c (by simp)
    cases hpr : printed c with
    | none => exact absurd (printed_none.1 hpr) hc
    | some q =>
      obtain ⟨k, x, t⟩ := q
      obtain ⟨h1, h2, h3, -⟩ := printed_facts hp hpr
      obtain ⟨hs, hcomma⟩ := op_text h2 h3 [] (by simp)
      rw [List.nil_append] at hs
      have hscan : scan requirementsLexicon (strip (' ' :: (x ++ ' ' :: t))) = ([⟨k, some x⟩, ⟨.version, some t⟩], []) := by
        rw [strip_blank, hs]
        exact scan_of_scans (scans_op .requirements h2 h3 rfl)
      have hcomma' : ',' ∉ ' ' :: (x ++ ' ' :: t) := by
        intro hm
        rcases List.mem_cons.1 hm with hm | hm
        · exact absurd hm (by decide)
        · exact hcomma hm
      cases cs with
      | nil =>
        refine ⟨⟨k, some x⟩, ⟨.version, some t⟩, [], ?_, (by simp)⟩
        simp only [List.map_cons, List.map_nil, joinComma, h1]
        rw [splitComma_plain hcomma']
        simp only [tokenizeParts, hscan]
        rfl
      | cons c' cs =>
        obtain ⟨op, ver, rest, hrest, -⟩ := tokenize_joined (c' :: cs) (by simp) (fun e he => h e (by simp [he]))
        refine ⟨⟨k, some x⟩, ⟨.version, some t⟩, [op, ver] :: rest, ?_, (by simp)⟩
        have e : ' ' :: joinComma ((c :: c' :: cs).map constraintPart) =
            (' ' :: (x ++ ' ' :: t)) ++ ',' :: (' ' :: joinComma ((c' :: cs).map constraintPart)) := by
          simp [joinComma, h1]
        rw [e, splitComma_append hcomma']
        simp only [tokenizeParts, hscan, hrest]
        rfl

/-- C55: if two or more constraints of `r` are not trivial, `str(r)` cannot be parsed: InvalidConstraint is raised. -/
theorem C55_several_refused (r : Requirement Str U) (cls : ReqClass) (hn : ValidName r.name)
    (hp : ∀ c ∈ r.constraints, ConstraintPrintable c)
    (h2 : 2 ≤ (r.constraints.filter (fun c => decide (c ≠ .any))).length) :
    fromString (U := U) cls (requirementStr r) = .error .invalidConstraint := by
  have hall : ∀ c ∈ printedOnes r, c ≠ .any ∧ ConstraintPrintable c := by
    intro c hc
    unfold printedOnes at hc
    rw [List.mem_filter, decide_eq_true_iff] at hc
    exact ⟨hc.2, hp c hc.1⟩
  have hlen : 2 ≤ (printedOnes r).length := h2
  rw [requirementStr_eq]
  match hc : printedOnes r with
  | [] => rw [hc] at hlen; simp at hlen
  | [c] => rw [hc] at hlen; simp at hlen
  | c :: c' :: cs =>
    rw [hc] at hall
    rw [if_neg (by simp)]
    obtain ⟨hca, hcp⟩ := hall c (by simp)
    cases hpr : printed c with
    | none => exact absurd (printed_none.1 hpr) hca
    | some q =>
      obtain ⟨k, x, t⟩ := q
      obtain ⟨h1, hx, ht, h4⟩ := printed_facts hcp hpr
      obtain ⟨op, ver, rest, hrest, hop⟩ := tokenize_joined (c' :: cs) (by simp) (fun e he => hall e (by simp [he]))
      obtain ⟨d, u, hr, hd⟩ := joined_last (c' :: cs) (by simp) (fun e he => hall e (by simp [he]))
      have e : r.name ++ ' ' :: joinComma ((c :: c' :: cs).map constraintPart) =
          (r.name ++ ' ' :: (x ++ ' ' :: t)) ++ ',' :: (' ' :: joinComma ((c' :: cs).map constraintPart)) := by
        simp [joinComma, h1]
      have hstrip : strip (r.name ++ ' ' :: joinComma ((c :: c' :: cs).map constraintPart)) =
          r.name ++ ' ' :: joinComma ((c :: c' :: cs).map constraintPart) := by
        refine strip_id ?_ ?_
        · intro a b hab
          obtain ⟨d, u, hdu, hd⟩ := hn.head
          rw [hdu, List.cons_append, List.cons.injEq] at hab
          rw [← hab.1]
          exact CharTable.word_space _ hd
        · intro a b hab
          rw [e, List.reverse_append, List.reverse_cons, List.reverse_cons, hr] at hab
          simp only [List.cons_append, List.cons.injEq] at hab
          rw [← hab.1]
          exact hd
      have hcomma : ',' ∉ r.name ++ ' ' :: (x ++ ' ' :: t) := by
        intro hm
        rcases List.mem_append.1 hm with hm | hm
        · exact name_no_comma hn hm
        · rcases List.mem_cons.1 hm with hm | hm
          · exact absurd hm (by decide)
          · exact (op_text hx ht [] (by simp)).2 hm
      have htok : tokenize requirementsLexicon (r.name ++ ' ' :: joinComma ((c :: c' :: cs).map constraintPart)) =
          .ok ([⟨.distribution, some r.name⟩, ⟨k, some x⟩, ⟨.version, some t⟩] :: [op, ver] :: rest) := by
        unfold tokenize
        simp only [hstrip]
        rw [if_neg (by simp), e, splitComma_append hcomma]
        simp only [tokenizeParts, tokenize_requirement hn hx ht, hrest]
        rfl
      unfold fromString parseRequirement
      rw [htok]
      simp only [computeAll, computeNamed, ne_eq, not_true_eq_false, if_false, h4 ⟨k, some x⟩ rfl]
      rw [if_neg hop]

end Verif.Props
