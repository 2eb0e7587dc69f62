import Verif.Text.GrammarRead
import Verif.Props.Text
/-
C71 and C72: constraint strings and requirement strings.
-/
set_option linter.unusedSectionVars false
namespace Verif.Props
open Verif Verif.Pkg Verif.Text CharTable

variable [CharTable] {U : Type} [LinearOrder U] [VersionText U]

/-! ### C71 -/

/-- the string is made of parts that satisfy `ok`, with commas between them -/
def WrittenAs {α : Type} (render : α → Str) (ok : α → Prop) (parts : List α) (s : Str) : Prop :=
  parts ≠ [] ∧ (∀ p ∈ parts, ok p) ∧ s = joined (parts.map render)

/-- C71: which constraint strings are accepted, and what they mean: white space alone allows everything; anything else is made
of parts between commas, each of them white space, a star, or an operator and a version, and the constraints are those of the
parts, in order. What comes after an operator may also be a star or an operator, if `EnpkgVersion.from_string` accepts it. -/
theorem C71_exact (s : Str) (cs : List (Constraint U)) :
    parseConstraints s = .ok cs ↔
      (Spaces s ∧ cs = [.any]) ∨ (¬ Spaces s ∧ ∃ parts, WrittenAs CPart.render CPart.Loose parts s ∧ CSays parts cs) := by
  rw [parseConstraints_iff]
  refine or_congr Iff.rfl (and_congr_right fun hs => ?_)
  constructor
  · intro h
    obtain ⟨parts, h1, h2, h3⟩ := read_csays h
    refine ⟨parts, ⟨?_, h2, by rw [h1, joined_splitComma]⟩, h3⟩
    rintro rfl
    exact splitComma_ne_nil s h1.symm
  · rintro ⟨parts, ⟨hne, hl, rfl⟩, h⟩
    rw [parts_joined hne (fun p hp => CPart.no_comma (hl p hp))]
    exact csays_read h hl

/-- C71: if `EnpkgVersion.from_string` refuses the star and the operators, only well formed constraint strings are accepted. -/
theorem C71_accepts_partial (hU : NoOperatorVersion U) (s : Str) (cs : List (Constraint U)) :
    parseConstraints s = .ok cs ↔
      (Spaces s ∧ cs = [.any]) ∨ (¬ Spaces s ∧ ∃ parts, WrittenAs CPart.render CPart.OK parts s ∧ CSays parts cs) := by
  rw [C71_exact]
  refine or_congr Iff.rfl (and_congr_right fun hs => exists_congr fun parts => ?_)
  constructor
  · rintro ⟨⟨h1, h2, h3⟩, h4⟩
    exact ⟨⟨h1, h4.ok hU h2, h3⟩, h4⟩
  · rintro ⟨⟨h1, h2, h3⟩, h4⟩
    exact ⟨⟨h1, fun p hp => CPart.loose_of_ok (h2 p hp), h3⟩, h4⟩

/-- C71: a well formed constraint string is always read, as what it says (whatever `EnpkgVersion.from_string` accepts). -/
theorem C71_reads {s : Str} (hs : ¬ Spaces s) {parts : List CPart} {cs : List (Constraint U)} (h : WrittenAs CPart.render CPart.OK parts s)
    (hc : CSays parts cs) : parseConstraints s = .ok cs :=
  (C71_exact s cs).2 (Or.inr ⟨hs, parts, ⟨h.1, fun p hp => CPart.loose_of_ok (h.2.1 p hp), h.2.2⟩, hc⟩)

/-- C71: a constraint string that is refused raises InvalidConstraint, the ValueError of a bad version, or AssertionError,
or, only if it contains a brace, an exception of `str.format`. -/
theorem C71_errors_partial (s : Str) (e : PErr) (h : parseConstraints (U := U) s = .error e) :
    e = .invalidConstraint ∨ e = .valueError ∨ e = .assertion ∨ (e = .formatting ∧ HasBrace s) :=
  parseConstraints_err h

theorem solid_spaces {x : Str} (h : Solid x) : ¬ Spaces x := by
  obtain ⟨c, t, rfl, hc⟩ := h.first
  intro hs
  have := hs c (by simp)
  rw [hc] at this
  cases this

theorem pieces_solid {x : Str} (h : Solid x) : pieces x = [x] := by
  unfold pieces
  rw [splitComma_plain h.plain, List.map_singleton]
  have := h.strip (lead := []) (trail := []) (by simp [Spaces]) (by simp [Spaces])
  rw [List.nil_append, List.append_nil] at this
  rw [this]

theorem parse_single {x : Str} (hx : Solid x) {t : Token} {ts : List Token} (h : scan constraintsLexicon x = (t :: ts, [])) {e : PErr}
    (he : computeConstraint (U := U) (t :: ts) = .error e) : parseConstraints (U := U) x = .error e := by
  unfold parseConstraints
  rw [tokenize_pieces, if_neg (fun h => solid_spaces hx (strip_nil_iff.1 h)), pieces_solid hx]
  simp only [tokenizePieces, h, List.length_nil, Nat.lt_irrefl, gt_iff_lt, if_false, List.length_cons, Nat.zero_lt_succ, if_true]
  rw [computeAll, he]

/-- C71: a version alone raises AssertionError, not InvalidConstraint. -/
theorem C71_lone_version {v : Str} (h : ValidVersion v) : parseConstraints (U := U) v = .error .assertion := by
  refine parse_single (solid_version h) (t := ⟨.version, some v⟩) (ts := []) (scan_of_scans ?_) rfl
  exact scans_token (x := v) (t := []) (scanStep_version .constraints h) (by simp [St.start]) (solid_version h).ne_nil (scans_end rfl)

/-- C71: an operator alone raises AssertionError, not InvalidConstraint. -/
theorem C71_lone_operator (o : Op) : parseConstraints (U := U) o.text = .error .assertion := by
  refine parse_single (solid_op o) (t := ⟨o.kind, some o.text⟩) (ts := []) (scan_of_scans (scans_op_alone .constraints o rfl)) ?_
  cases o <;> rfl

/-- C71: a star after an operator is taken for a version. -/
theorem C71_operator_star (o : Op) {v : Version U} (hv : VersionText.ofString ['*'] = .ok v) :
    parseConstraints (o.text ++ [' ', '*']) = .ok [o.con v] := by
  refine (C71_exact _ _).2 (Or.inr ⟨?_, [.op [] o [' '] ['*'] []], ⟨by simp, ?_, by simp [joined, CPart.render]⟩, .op hv .nil⟩)
  · have := ((solid_op o).append solid_star (g := [' ']) (by simp [Blanks]))
    exact solid_spaces (by simpa using this)
  · intro p hp
    rw [List.mem_singleton] at hp
    subst hp
    exact ⟨by simp [Spaces], by simp [Blanks], Or.inr ⟨Or.inl rfl, fun h => by cases h.2.1⟩, by simp [Spaces]⟩

/-! ### C72 -/

/-- C72: which requirement strings are accepted, and what they mean: white space alone is a requirement without a name; anything
else is made of parts between commas, each of them white space, a name, a name and a star, or a name, an operator and a version;
there is a name, all names are the same, and the constraints are those of the parts, in order. What stands alone or before a
star may also be an operator or a star, or a version with a build if it stands alone. -/
theorem C72_exact (cls : ReqClass) (s : Str) (r : Requirement (Option Str) U) :
    fromString cls s = .ok r ↔
      (Spaces s ∧ r = ⟨cls, none, [.any]⟩) ∨
      (¬ Spaces s ∧ ∃ parts n cs, WrittenAs RPart.render RPart.Loose parts s ∧ RSays parts cs ∧
        (∃ p ∈ parts, p.name? = some n) ∧ (∀ p ∈ parts, ∀ m, p.name? = some m → m = n) ∧ r = ⟨cls, some n, cs⟩) := by
  by_cases hs : Spaces s
  · simp only [hs, true_and, not_true, false_and, or_false]
    rw [fromString_def, (parseRequirement_iff s [(none, [.any])]).2 (Or.inl ⟨hs, rfl⟩)]
    simp only [oneName, Except.ok.injEq]
    exact eq_comm
  · simp only [hs, false_and, not_false_eq_true, true_and, false_or]
    constructor
    · intro h
      rw [fromString_def] at h
      split at h
      · cases h
      · next d hd =>
        rcases (parseRequirement_iff s d).1 hd with ⟨h', -⟩ | ⟨-, l, hl, rfl⟩
        · exact absurd h' hs
        · obtain ⟨parts, h1, h2, h3, h4⟩ := read_rsays hl
          have hne : parts ≠ [] := by
            rintro rfl
            exact splitComma_ne_nil s h1.symm
          cases l with
          | nil => rw [oneName_none] at h; cases h
          | cons a l =>
            obtain ⟨p, hp, n, hn, ha⟩ := h4.mem' (a := a) (by simp)
            have hall : ∀ b ∈ a :: l, b.1 = some n := by
              intro b hb
              by_contra hbn
              rw [oneName_two cls (a := a) (b := b) (by simp) hb (by rw [ha]; exact Ne.symm hbn)] at h
              cases h
            rw [oneName_one cls (by simp) hall] at h
            cases h
            refine ⟨parts, n, _, ⟨hne, h2, by rw [h1, joined_splitComma]⟩, h3, ⟨p, hp, hn⟩, ?_, rfl⟩
            intro p' hp' m hm
            obtain ⟨b, hb, hbm⟩ := h4.mem hp' hm
            have := hall b hb
            rw [hbm] at this
            exact Option.some.inj this
    · rintro ⟨parts, n, cs, ⟨hne, hl, e⟩, hsay, ⟨p, hp, hn⟩, hall, rfl⟩
      obtain ⟨l, h1, h2, h3⟩ := fromString_parts cls hs hne hl e hsay
      obtain ⟨a, ha, -⟩ := h3.mem hp hn
      rw [h1, oneName_one cls (n := some n) (by rintro rfl; cases ha) ?_, h2]
      intro b hb
      obtain ⟨p', hp', m, hm, hbm⟩ := h3.mem' hb
      rw [hbm, hall p' hp' m hm]

/-- C72: a well formed requirement string with one name is read, as what it says. -/
theorem C72_reads (cls : ReqClass) {s : Str} {parts : List RPart} {cs : List (Constraint U)} {n : Str}
    (h : WrittenAs RPart.render RPart.OK parts s) (hc : RSays parts cs) (hn : ∃ p ∈ parts, p.name? = some n)
    (hall : ∀ p ∈ parts, ∀ m, p.name? = some m → m = n) : fromString cls s = .ok ⟨cls, some n, cs⟩ := by
  have hl : ∀ p ∈ parts, p.Loose := fun p hp => RPart.loose_of_ok (h.2.1 p hp)
  refine (C72_exact cls s _).2 (Or.inr ⟨?_, parts, n, cs, ⟨h.1, hl, h.2.2⟩, hc, hn, hall, rfl⟩)
  intro hs
  obtain ⟨p, hp, hpn⟩ := hn
  exact joined_not_spaces hp hpn (h.2.1 p hp) (by rw [← h.2.2]; exact hs)

/-- C72: a well formed requirement string with two different names raises InvalidDependencyString. -/
theorem C72_two_names (cls : ReqClass) {s : Str} {parts : List RPart} {cs : List (Constraint U)} {p q : RPart} {n m : Str}
    (h : WrittenAs RPart.render RPart.OK parts s) (hc : RSays parts cs) (hp : p ∈ parts) (hq : q ∈ parts) (hn : p.name? = some n)
    (hm : q.name? = some m) (hnm : n ≠ m) : fromString (U := U) cls s = .error .invalidDependencyString := by
  have hl : ∀ p ∈ parts, p.Loose := fun p hp => RPart.loose_of_ok (h.2.1 p hp)
  have hs : ¬ Spaces s := by
    intro hs
    exact joined_not_spaces hp hn (h.2.1 p hp) (by rw [← h.2.2]; exact hs)
  obtain ⟨l, h1, -, h3⟩ := fromString_parts cls hs h.1 hl h.2.2 hc
  obtain ⟨a, ha, han⟩ := h3.mem hp hn
  obtain ⟨b, hb, hbm⟩ := h3.mem hq hm
  rw [h1]
  refine oneName_two cls ha hb ?_
  rw [han, hbm]
  exact fun e => hnm (Option.some.inj e)

/-- C72: commas with nothing but white space around them raise AssertionError. -/
theorem C72_only_commas (cls : ReqClass) {s : Str} {parts : List RPart} (hs : ¬ Spaces s)
    (h : WrittenAs RPart.render (fun p => p.OK ∧ p.name? = none) parts s) :
    fromString (U := U) cls s = .error .assertion := by
  have hsay : RSays (U := U) parts [] := by
    have := h.2.1
    clear h
    induction parts with
    | nil => exact .nil
    | cons p parts ih =>
      have hp := (this p (by simp)).2
      cases p with
      | blank ws => exact .blank (ih (fun p hp => this p (by simp [hp])))
      | _ => cases hp
  obtain ⟨l, h1, h2, -⟩ := fromString_parts cls hs h.1 (fun p hp => RPart.loose_of_ok (h.2.1 p hp).1) h.2.2 hsay
  rw [h1, List.map_eq_nil_iff.1 h2]
  exact oneName_none cls

/-- C72: an operator, or a star, is accepted as the name of a requirement. -/
theorem C72_sign_name (cls : ReqClass) {x : Str} (h : Sign x) : fromString (U := U) cls x = .ok ⟨cls, some x, [.any]⟩ := by
  refine (C72_exact cls x _).2 (Or.inr ⟨solid_spaces (solid_sign h), [.bare [] x []], x, [.any], ⟨by simp, ?_, ?_⟩, .bare .nil, ?_, ?_, rfl⟩)
  · intro p hp
    rw [List.mem_singleton] at hp
    subst hp
    exact ⟨by simp [Spaces], Or.inr (Or.inr h), by simp [Spaces]⟩
  · simp [joined, RPart.render]
  · exact ⟨_, List.mem_singleton_self _, rfl⟩
  · intro p hp m hm
    rw [List.mem_singleton] at hp
    subst hp
    cases hm
    rfl

theorem computeNamed_err {b : List Token} (hb : (∀ t ∈ b, t.value ≠ none) ∨ b = [⟨.any, none⟩]) {e : PErr}
    (h : computeNamed (U := U) b = .error e) : e = .invalidConstraint ∨ e = .valueError := by
  rcases b with _ | ⟨a, _ | ⟨b, _ | ⟨c, _ | ⟨d, tl⟩⟩⟩⟩
  · cases h; exact Or.inl rfl
  · cases h
  · rw [computeNamed] at h
    split at h
    · cases h
    · cases h; exact Or.inl rfl
  · rw [computeNamed] at h
    split at h
    · cases h; exact Or.inl rfl
    · split at h
      · cases h; exact Or.inl rfl
      · split at h
        · next e' he =>
          cases h
          unfold operatorFactory at he
          split at he
          · cases he; exact Or.inl rfl
          · split at he
            · next hv =>
              rcases hb with hb | hb
              · exact absurd hv (hb c (by simp))
              · cases hb
            · split at he
              · next e' he' =>
                cases he
                exact Or.inr (VersionText.ofString_err _ _ he')
              · cases he
        · cases h
  · cases h; exact Or.inl rfl

theorem computeAll_named_err {bs : List (List Token)} (hb : ∀ b ∈ bs, (∀ t ∈ b, t.value ≠ none) ∨ b = [⟨.any, none⟩]) {e : PErr}
    (h : computeAll (computeNamed (U := U)) bs = .error e) : e = .invalidConstraint ∨ e = .valueError := by
  induction bs with
  | nil => cases h
  | cons b bs ih =>
    rw [computeAll] at h
    split at h
    · next e' he => cases h; exact computeNamed_err (hb b (by simp)) he
    · split at h
      · next e' he => cases h; exact ih (fun b hb' => hb b (by simp [hb'])) he
      · cases h

/-- C72: a requirement string that is refused raises InvalidConstraint, the ValueError of a bad version, InvalidDependencyString,
AssertionError, or, only if it contains a brace, an exception of `str.format`. -/
theorem C72_errors_partial (cls : ReqClass) (s : Str) (e : PErr) (h : fromString (U := U) cls s = .error e) :
    e = .invalidConstraint ∨ e = .valueError ∨ e = .invalidDependencyString ∨ e = .assertion ∨
      (e = .formatting ∧ HasBrace s) := by
  rw [fromString_def] at h
  split at h
  · next e' he =>
    cases h
    unfold parseRequirement at he
    split at he
    · next e' he' =>
      cases he
      exact (tokenize_err he').imp_right (fun k => Or.inr (Or.inr (Or.inr k)))
    · next bs hbs =>
      split at he
      · next e' he' =>
        cases he
        refine (computeAll_named_err ?_ he').elim Or.inl (fun h => Or.inr (Or.inl h))
        unfold tokenize at hbs
        simp only at hbs
        split at hbs
        · cases hbs
          intro b hb
          rw [List.mem_singleton] at hb
          exact Or.inr hb
        · intro b hb
          exact Or.inl ((tokenizeParts_spec _ _).2 _ hbs b hb)
      · cases he
  · next d hd =>
    unfold oneName at h
    split at h
    · cases h; exact Or.inr (Or.inr (Or.inr (Or.inl rfl)))
    · cases h
    · cases h; exact Or.inr (Or.inr (Or.inl rfl))

end Verif.Props
