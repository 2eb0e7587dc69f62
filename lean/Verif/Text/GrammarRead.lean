import Verif.Text.GrammarParts
/-
Constraint strings and requirement strings: what is written is read, and what is read is written.
-/
set_option linter.unusedSectionVars false
namespace Verif.Text
open Verif Verif.Pkg CharTable Re

variable [CharTable] {U : Type} [LinearOrder U] [VersionText U]

/-! ### the ends of texts -/

/-- the text begins and ends with characters that are not white space, and has no comma -/
structure Solid (x : Str) : Prop where
  first : ∃ c t, x = c :: t ∧ isSpace c = false
  last : ∃ c t, x.reverse = c :: t ∧ isSpace c = false
  plain : ',' ∉ x

theorem Solid.ne_nil {x : Str} (h : Solid x) : x ≠ [] := by
  obtain ⟨c, t, rfl, -⟩ := h.first
  simp

theorem Solid.strip {x lead trail : Str} (h : Solid x) (hl : Spaces lead) (ht : Spaces trail) : strip (lead ++ x ++ trail) = x :=
  strip_around hl ht h.first h.last

theorem Solid.no_comma {x lead trail : Str} (h : Solid x) (hl : Spaces lead) (ht : Spaces trail) : ',' ∉ lead ++ x ++ trail := by
  intro hm
  rw [List.mem_append, List.mem_append] at hm
  rcases hm with (hm | hm) | hm
  · exact no_comma_of_space hl hm
  · exact h.plain hm
  · exact no_comma_of_space ht hm

theorem Solid.append {x y g : Str} (hx : Solid x) (hy : Solid y) (hg : Blanks g) : Solid (x ++ g ++ y) := by
  obtain ⟨c, t, rfl, hc⟩ := hx.first
  obtain ⟨d, u, hd, hds⟩ := hy.last
  refine ⟨⟨c, t ++ g ++ y, by simp, hc⟩, ⟨d, u ++ (c :: t ++ g).reverse, by rw [List.reverse_append, hd]; rfl, hds⟩, ?_⟩
  intro hm
  rw [List.mem_append, List.mem_append] at hm
  rcases hm with (hm | hm) | hm
  · exact hx.plain hm
  · exact no_comma_of_space hg.spaces hm
  · exact hy.plain hm

theorem solid_name {n : Str} (h : ValidName n) : Solid n := by
  obtain ⟨c, t, e, hc⟩ := h.head
  obtain ⟨d, u, e', hd⟩ := h.last
  refine ⟨⟨c, t, e, CharTable.word_space c hc⟩, ⟨d, u, e', CharTable.word_space d hd⟩, ?_⟩
  intro hm
  rcases h.chars _ hm with h | h
  · rw [comma_not_word] at h; cases h
  · revert h; decide

theorem solid_version {v : Str} (h : ValidVersion v) : Solid v := by
  obtain ⟨c, t, e, hc⟩ := h.head
  obtain ⟨d, u, e', hd⟩ := h.last
  refine ⟨⟨c, t, e, CharTable.word_space c (CharTable.digit_word c hc)⟩, ⟨d, u, e', CharTable.word_space d hd⟩, ?_⟩
  intro hm
  rcases h.chars _ hm with h | h | h
  · rw [comma_not_word] at h; cases h
  · revert h; decide
  · revert h; decide

theorem solid_star : Solid ['*'] := by
  have := (plain_facts '*' (by simp)).2.2
  exact ⟨⟨_, _, rfl, this⟩, ⟨_, _, rfl, this⟩, by simp⟩

theorem solid_op (o : Op) : Solid o.text := by
  have h : ∀ c ∈ ['=', '<', '>', '!', '^'], isSpace c = false := fun c hc => (op_char_facts hc).2.1
  cases o <;> exact ⟨⟨_, _, rfl, h _ (by simp)⟩, ⟨_, _, rfl, h _ (by simp)⟩, by simp [Op.text]⟩

theorem solid_sign {x : Str} (h : Sign x) : Solid x := by
  rcases h with rfl | ⟨o, rfl⟩
  · exact solid_star
  · exact solid_op o

/-! ### constraint strings -/

theorem solid_loose {v : Str} {p : Prop} (h : ValidVersion v ∨ Sign v ∧ p) : Solid v := h.elim solid_version (fun h => solid_sign h.1)

theorem CPart.no_comma {p : CPart} (h : p.Loose) : ',' ∉ p.render := by
  cases p with
  | blank ws => exact no_comma_of_space h
  | star lead trail => exact solid_star.no_comma h.1 h.2
  | op lead o gap version trail =>
    obtain ⟨h1, h2, h3, h4⟩ := h
    exact ((solid_op o).append (solid_loose h3) h2).no_comma h1 h4

theorem CPart.loose_of_ok {p : CPart} (h : p.OK) : p.Loose := by
  cases p with
  | blank ws => exact h
  | star lead trail => exact h
  | op lead o gap version trail => exact ⟨h.1, h.2.1, Or.inl h.2.2.1, h.2.2.2⟩

/-- a part whose version the library accepts is well formed, if the library refuses stars and operators -/
theorem CSays.ok (hU : NoOperatorVersion U) {parts : List CPart} {cs : List (Constraint U)} (h : CSays parts cs)
    (hl : ∀ p ∈ parts, p.Loose) : ∀ p ∈ parts, p.OK := by
  induction h with
  | nil => intro p hp; cases hp
  | blank _ ih =>
    intro p hp
    rcases List.mem_cons.1 hp with rfl | hp
    · exact hl _ List.mem_cons_self
    · exact ih (fun p hp => hl p (by simp [hp])) p hp
  | star _ ih =>
    intro p hp
    rcases List.mem_cons.1 hp with rfl | hp
    · exact hl _ List.mem_cons_self
    · exact ih (fun p hp => hl p (by simp [hp])) p hp
  | @op lead o gap version trail ps cs v hv _ ih =>
    intro p hp
    rcases List.mem_cons.1 hp with rfl | hp
    · obtain ⟨h1, h2, h3, h4⟩ := hl _ List.mem_cons_self
      exact ⟨h1, h2, h3.resolve_right (fun hs => hU _ hs.1 v hv), h4⟩
    · exact ih (fun p hp => hl p (by simp [hp])) p hp

theorem scan_nil {lex : List (Re × Option Kind)} : scan lex [] = ([], []) := scan_of_scans (scans_end rfl)

theorem op_scan (o : Op) {g v : Str} (hg : Blanks g) (hv : ValidVersion v ∨ Sign v ∧ ¬ RunsOn o g v) :
    ∃ k, scan constraintsLexicon (o.text ++ g ++ v) = ([⟨o.kind, some o.text⟩, ⟨k, some v⟩], []) := by
  rw [List.append_assoc]
  rcases hv with h | ⟨rfl | ⟨o', rfl⟩, hr⟩
  · exact ⟨_, scan_of_scans (scans_op' .constraints o hg h rfl)⟩
  · exact ⟨_, scan_of_scans (scans_op_star .constraints o hg rfl)⟩
  · exact ⟨_, scan_of_scans (scans_op_op .constraints o o' hg (fun h1 h2 h3 => hr ⟨h1, h3, by rw [h2]⟩) rfl)⟩

theorem csays_read {parts : List CPart} {cs : List (Constraint U)} (h : CSays parts cs) (hok : ∀ p ∈ parts, p.Loose) :
    PiecesRead constraintsLexicon computeConstraint ((parts.map CPart.render).map strip) cs := by
  induction h with
  | nil => exact .nil
  | blank _ ih =>
    refine .skip ?_ (ih (fun p hp => hok p (by simp [hp])))
    have h := hok _ List.mem_cons_self
    rw [show strip (CPart.render (.blank _)) = [] from strip_spaces h]
    exact scan_nil
  | star _ ih =>
    have h := hok _ List.mem_cons_self
    refine .one (t := ⟨.any, some ['*']⟩) (ts := []) ?_ rfl (ih (fun p hp => hok p (by simp [hp])))
    rw [show strip (CPart.render (.star _ _)) = _ from solid_star.strip h.1 h.2]
    exact scan_of_scans (scans_star .constraints rfl)
  | @op lead o gap version trail ps cs v hv _ ih =>
    obtain ⟨h1, h2, h3, h4⟩ := hok _ List.mem_cons_self
    obtain ⟨k, hk⟩ := op_scan o h2 h3
    refine .one (t := ⟨o.kind, some o.text⟩) (ts := [⟨k, some version⟩]) ?_ ?_ (ih (fun p hp => hok p (by simp [hp])))
    · rw [show strip (CPart.render (.op lead o gap version trail)) = _ from
        ((solid_op o).append (solid_loose h3) h2).strip h1 h4]
      exact hk
    · rw [computeConstraint, operatorFactory, specFactory_kind]
      simp only [hv]

theorem scanLoop_kind {lex : List (Re × Option Kind)} : ∀ (fuel : Nat) (s : St), ∀ t ∈ (scanLoop lex fuel s).1, ∃ r, (r, some t.kind) ∈ lex := by
  intro fuel
  induction fuel with
  | zero => intro s t h; cases h
  | succ fuel ih =>
    intro s t h
    unfold scanLoop at h
    split at h
    · cases h
    · next k s' hstep =>
      split at h
      · split at h
        · exact ih s' t h
        · simp only [List.mem_cons] at h
          rcases h with rfl | h
          · obtain ⟨r, hr, -⟩ := scanStep_mem hstep
            exact ⟨r, hr⟩
          · exact ih s' t h
      · cases h

theorem scan_no_name {s : Str} {t : Token} (h : t ∈ (scan constraintsLexicon s).1) : t.kind ≠ .distribution := by
  obtain ⟨r, hr⟩ := scanLoop_kind _ _ t h
  intro e
  rw [e] at hr
  simp [constraintsLexicon, operators] at hr

/-- one piece that is skipped -/
theorem piece_skip {lex : List (Re × Option Kind)} (hl : IsLexicon lex) {q : Str} (h : scan lex (strip q) = ([], [])) : Spaces q := by
  have := scan_lexed hl (s := strip q) (by rw [h]; rfl)
  rw [h] at this
  exact strip_nil_iff.1 (lexed0 (strip_strip q) this)

theorem read_csays {qs : List Str} {cs : List (Constraint U)}
    (h : PiecesRead constraintsLexicon computeConstraint (qs.map strip) cs) :
    ∃ parts : List CPart, parts.map CPart.render = qs ∧ (∀ p ∈ parts, p.Loose) ∧ CSays parts cs := by
  induction qs generalizing cs with
  | nil =>
    cases h
    exact ⟨[], rfl, by simp, .nil⟩
  | cons q qs ih =>
    rw [List.map_cons] at h
    cases h with
    | skip hs hr =>
      obtain ⟨parts, h1, h2, h3⟩ := ih hr
      refine ⟨.blank q :: parts, by rw [List.map_cons, h1]; rfl, ?_, .blank h3⟩
      intro p hp
      rcases List.mem_cons.1 hp with rfl | hp
      · exact piece_skip .constraints hs
      · exact h2 p hp
    | @one _ t tl c _ cs' hs hf hr =>
      obtain ⟨parts, h1, h2, h3⟩ := ih hr
      have hlex := scan_lexed .constraints (s := strip q) (by rw [hs]; rfl)
      rw [hs] at hlex
      simp only at hlex
      obtain ⟨lead, trail, hq, hlead, htrail⟩ := strip_spec q
      have hcons : ∀ (part : CPart) (P : CSays (part :: parts) (c :: cs')), part.render = q → part.Loose →
          ∃ parts : List CPart, parts.map CPart.render = q :: qs ∧ (∀ p ∈ parts, p.Loose) ∧ CSays parts (c :: cs') := by
        intro part P e hok
        refine ⟨part :: parts, by rw [List.map_cons, h1, e], ?_, P⟩
        intro p hp
        rcases List.mem_cons.1 hp with rfl | hp
        · exact hok
        · exact h2 p hp
      rcases tl with _ | ⟨b, _ | ⟨d, tl⟩⟩
      · rw [computeConstraint] at hf
        split at hf
        · next hk =>
          cases hf
          obtain ⟨hv, hx⟩ := lexed1 (strip_strip q) hlex
          have : strip q = ['*'] := by
            rw [hk] at hx
            rcases hx with ⟨h, -⟩ | ⟨h, -⟩ | ⟨-, h⟩ | ⟨o, h, -⟩
            · cases h
            · cases h
            · exact h
            · cases o <;> cases h
          exact hcons (.star lead trail) (.star h3) (by rw [this] at hq; rw [hq]; rfl) ⟨hlead, htrail⟩
        · cases hf
      · rw [computeConstraint] at hf
        obtain ⟨x, g, y, hp, hg, hv, hx, hvb, hy, -⟩ := lexed2 (strip_strip q) hlex
        obtain ⟨o, v, hk, rfl, hv', rfl⟩ := operatorFactory_ok hx hvb hf
        have hrun : ¬ RunsOn o g y := by
          rintro ⟨h1, rfl, rfl⟩
          rw [hp] at hs
          exact scan_run_on .constraints h1 hs hk
        have hver : ValidVersion y ∨ Sign y ∧ ¬ RunsOn o g y := by
          rcases hy with ⟨-, h⟩ | ⟨hk', -⟩ | ⟨-, rfl⟩ | ⟨o', -, rfl⟩
          · exact Or.inl h
          · exact absurd hk' (scan_no_name (by rw [hs]; simp))
          · exact Or.inr ⟨Or.inl rfl, hrun⟩
          · exact Or.inr ⟨Or.inr ⟨o', rfl⟩, hrun⟩
        exact hcons (.op lead o g y trail) (.op hv' h3) (by rw [hp] at hq; rw [hq]; simp [CPart.render])
          ⟨hlead, hg, hver, htrail⟩
      · cases hf

theorem parts_joined {α : Type} {render : α → Str} {parts : List α} (hne : parts ≠ []) (hc : ∀ p ∈ parts, ',' ∉ render p) :
    pieces (joined (parts.map render)) = (parts.map render).map strip := by
  unfold pieces
  rw [splitComma_joined _ (by simpa using hne)]
  intro p hp
  obtain ⟨a, ha, rfl⟩ := List.mem_map.1 hp
  exact hc a ha

theorem parseConstraints_iff (s : Str) (cs : List (Constraint U)) :
    parseConstraints s = .ok cs ↔ (Spaces s ∧ cs = [.any]) ∨ (¬ Spaces s ∧ PiecesRead constraintsLexicon computeConstraint (pieces s) cs) := by
  unfold parseConstraints
  rw [tokenize_pieces]
  by_cases hs : Spaces s
  · rw [if_pos (strip_nil_iff.2 hs)]
    simp only [hs, not_true, false_and, or_false, true_and]
    show Except.ok [Constraint.any] = Except.ok cs ↔ _
    constructor
    · intro h; cases h; rfl
    · rintro rfl; rfl
  · rw [if_neg (fun h => hs (strip_nil_iff.1 h)), piecesRead_iff]
    simp only [hs, false_and, not_false_eq_true, true_and, false_or]
    cases tokenizePieces constraintsLexicon (pieces s) with
    | error e => simp
    | ok ts => simp

/-! ### requirement strings -/

theorem RPart.no_comma {p : RPart} (h : p.Loose) : ',' ∉ p.render := by
  cases p with
  | blank ws => exact no_comma_of_space h
  | bare lead name trail =>
    obtain ⟨h1, h2, h3⟩ := h
    rcases h2 with h2 | h2 | h2
    · exact (solid_name h2).no_comma h1 h3
    · exact (solid_version h2).no_comma h1 h3
    · exact (solid_sign h2).no_comma h1 h3
  | star lead name gap trail =>
    obtain ⟨h1, h2, h3, h4⟩ := h
    rcases h2 with h2 | h2
    · exact ((solid_name h2).append solid_star h3).no_comma h1 h4
    · exact ((solid_sign h2).append solid_star h3).no_comma h1 h4
  | op lead name gap o gap' version trail =>
    obtain ⟨h1, h2, h3, h4, h5, h6⟩ := h
    exact (((solid_name h2).append (solid_op o) h3).append (solid_version h5) h4).no_comma h1 h6

theorem RPart.loose_of_ok {p : RPart} (h : p.OK) : p.Loose := by
  cases p with
  | blank ws => exact h
  | bare lead name trail => exact ⟨h.1, Or.inl h.2.1, h.2.2⟩
  | star lead name gap trail => exact ⟨h.1, Or.inl h.2.1, h.2.2⟩
  | op lead name gap o gap' version trail => exact h

/-- what the parts say, name by name -/
def Named (parts : List RPart) (l : List (Option Str × Constraint U)) : Prop :=
  l.map Prod.fst = (parts.filterMap RPart.name?).map some

theorem bare_scan {n : Str} (h : ValidName n ∨ ValidVersion n ∨ Sign n) : ∃ k, scan requirementsLexicon n = ([⟨k, some n⟩], []) := by
  rcases h with h | h | rfl | ⟨o, rfl⟩
  · obtain ⟨k, hk⟩ := scans_name (s := St.start n) h rfl
    exact ⟨k, scan_of_scans hk⟩
  · refine ⟨.version, scan_of_scans ?_⟩
    exact scans_token (x := n) (t := []) (scanStep_version .requirements h) (by simp [St.start]) (solid_version h).ne_nil (scans_end rfl)
  · exact ⟨_, scan_of_scans (scans_star .requirements rfl)⟩
  · exact ⟨_, scan_of_scans (scans_op_alone .requirements o rfl)⟩

theorem star_scan {n g : Str} (h : ValidName n ∨ Sign n) (hg : Blanks g) :
    ∃ k, scan requirementsLexicon (n ++ g ++ ['*']) = ([⟨k, some n⟩, ⟨.any, some ['*']⟩], []) := by
  rw [List.append_assoc]
  rcases h with h | rfl | ⟨o, rfl⟩
  · exact ⟨_, scan_of_scans (scans_name_star h hg rfl)⟩
  · exact ⟨_, scan_of_scans (scans_star_star .requirements hg rfl)⟩
  · exact ⟨_, scan_of_scans (scans_op_star .requirements o hg rfl)⟩

theorem rsays_read {parts : List RPart} {cs : List (Constraint U)} (h : RSays parts cs) (hok : ∀ p ∈ parts, p.Loose) :
    ∃ l, PiecesRead requirementsLexicon computeNamed ((parts.map RPart.render).map strip) l ∧ l.map Prod.snd = cs ∧ Named parts l := by
  induction h with
  | nil => exact ⟨[], .nil, rfl, rfl⟩
  | blank _ ih =>
    obtain ⟨l, h1, h2, h3⟩ := ih (fun p hp => hok p (by simp [hp]))
    refine ⟨l, .skip ?_ h1, h2, h3⟩
    have h := hok _ List.mem_cons_self
    rw [show strip (RPart.render (.blank _)) = [] from strip_spaces h]
    exact scan_nil
  | @bare lead name trail _ _ _ ih =>
    obtain ⟨l, h1, h2, h3⟩ := ih (fun p hp => hok p (by simp [hp]))
    obtain ⟨k1, k2, k3⟩ := hok _ List.mem_cons_self
    obtain ⟨k, hk⟩ := bare_scan k2
    have hsol : Solid name := by
      rcases k2 with h | h | h
      · exact solid_name h
      · exact solid_version h
      · exact solid_sign h
    refine ⟨(some name, .any) :: l, .one (t := ⟨k, some name⟩) (ts := []) ?_ rfl h1, by rw [List.map_cons, h2], ?_⟩
    · rw [show strip (RPart.render (.bare _ _ _)) = _ from hsol.strip k1 k3]
      exact hk
    · rw [Named, List.map_cons, h3]; rfl
  | @star lead name gap trail _ _ _ ih =>
    obtain ⟨l, h1, h2, h3⟩ := ih (fun p hp => hok p (by simp [hp]))
    obtain ⟨k1, k2, k3, k4⟩ := hok _ List.mem_cons_self
    obtain ⟨k, hk⟩ := star_scan k2 k3
    have hsol : Solid name := by
      rcases k2 with h | h
      · exact solid_name h
      · exact solid_sign h
    refine ⟨(some name, .any) :: l, .one (t := ⟨k, some name⟩) (ts := [⟨.any, some ['*']⟩]) ?_ rfl h1,
      by rw [List.map_cons, h2], ?_⟩
    · rw [show strip (RPart.render (.star _ _ _ _)) = _ from (hsol.append solid_star k3).strip k1 k4]
      exact hk
    · rw [Named, List.map_cons, h3]; rfl
  | @op lead name gap o gap' version trail _ _ v hv _ ih =>
    obtain ⟨l, h1, h2, h3⟩ := ih (fun p hp => hok p (by simp [hp]))
    obtain ⟨k1, k2, k3, k4, k5, k6⟩ := hok _ List.mem_cons_self
    refine ⟨(some name, o.con v) :: l, .one (t := ⟨.distribution, some name⟩)
      (ts := [⟨o.kind, some o.text⟩, ⟨.version, some version⟩]) ?_ ?_ h1, by rw [List.map_cons, h2], ?_⟩
    · rw [show strip (RPart.render (.op _ _ _ _ _ _ _)) = _ from
        (((solid_name k2).append (solid_op o) k3).append (solid_version k5) k4).strip k1 k6]
      exact scan_of_scans (scans_requirement' o k2 k3 k4 k5 (by simp [St.start]))
    · rw [computeNamed, operatorFactory, specFactory_kind]
      simp [hv]
    · rw [Named, List.map_cons, h3]; rfl

theorem tokText_loose {k : Kind} {x : Str} (h : TokText k x) : ValidName x ∨ ValidVersion x ∨ Sign x := by
  rcases h with ⟨-, h⟩ | ⟨-, h⟩ | ⟨-, h⟩ | ⟨o, -, rfl⟩
  · exact Or.inr (Or.inl h)
  · exact Or.inl h
  · exact Or.inr (Or.inr (Or.inl h))
  · exact Or.inr (Or.inr (Or.inr ⟨o, rfl⟩))

theorem tokText_any {x : Str} (h : TokText .any x) : x = ['*'] := by
  rcases h with ⟨h, -⟩ | ⟨h, -⟩ | ⟨-, h⟩ | ⟨o, h, -⟩
  · cases h
  · cases h
  · exact h
  · cases o <;> cases h

theorem read_rsays {qs : List Str} {l : List (Option Str × Constraint U)}
    (h : PiecesRead requirementsLexicon computeNamed (qs.map strip) l) :
    ∃ parts : List RPart, parts.map RPart.render = qs ∧ (∀ p ∈ parts, p.Loose) ∧ RSays parts (l.map Prod.snd) ∧ Named parts l := by
  induction qs generalizing l with
  | nil =>
    cases h
    exact ⟨[], rfl, by simp, .nil, rfl⟩
  | cons q qs ih =>
    rw [List.map_cons] at h
    cases h with
    | skip hs hr =>
      obtain ⟨parts, h1, h2, h3, h4⟩ := ih hr
      refine ⟨.blank q :: parts, by rw [List.map_cons, h1]; rfl, ?_, .blank h3, h4⟩
      intro p hp
      rcases List.mem_cons.1 hp with rfl | hp
      · exact piece_skip .requirements hs
      · exact h2 p hp
    | @one _ t tl c _ cs' hs hf hr =>
      obtain ⟨parts, h1, h2, h3, h4⟩ := ih hr
      have hlex := scan_lexed .requirements (s := strip q) (by rw [hs]; rfl)
      rw [hs] at hlex
      simp only at hlex
      obtain ⟨lead, trail, hq, hlead, htrail⟩ := strip_spec q
      have hcons : ∀ (part : RPart) (P : RSays (part :: parts) ((c :: cs').map Prod.snd)), part.render = q → part.Loose →
          (part.name? ≠ none ∧ part.name? = c.1) →
          ∃ parts : List RPart, parts.map RPart.render = q :: qs ∧ (∀ p ∈ parts, p.Loose) ∧
            RSays parts ((c :: cs').map Prod.snd) ∧ Named parts (c :: cs') := by
        intro part P e hok hn
        refine ⟨part :: parts, by rw [List.map_cons, h1, e], ?_, P, ?_⟩
        · intro p hp
          rcases List.mem_cons.1 hp with rfl | hp
          · exact hok
          · exact h2 p hp
        · obtain ⟨hn1, hn2⟩ := hn
          unfold Named at h4 ⊢
          rw [List.map_cons, h4]
          cases hn3 : part.name? with
          | none => exact absurd hn3 hn1
          | some n =>
            rw [List.filterMap_cons_some hn3, List.map_cons, ← hn3, hn2]
      rcases tl with _ | ⟨b, _ | ⟨d, _ | ⟨e, tl⟩⟩⟩
      · rw [computeNamed] at hf
        cases hf
        obtain ⟨hv, hx⟩ := lexed1 (strip_strip q) hlex
        exact hcons (.bare lead (strip q) trail) (.bare h3) hq.symm ⟨hlead, tokText_loose hx, htrail⟩ ⟨by simp [RPart.name?], hv.symm⟩
      · rw [computeNamed] at hf
        split at hf
        · next hk =>
          cases hf
          obtain ⟨x, g, y, hp, hg, hv, hx, hvb, hy, hlast⟩ := lexed2 (strip_strip q) hlex
          rw [hk] at hy
          have := tokText_any hy
          subst this
          have hloose : ValidName x ∨ Sign x := by
            rcases tokText_loose hx with h | h | h
            · exact Or.inl h
            · rcases hx with ⟨hk', -⟩ | ⟨-, h⟩ | ⟨-, h⟩ | ⟨o, -, rfl⟩
              · exact absurd (hlast hk' '*' (by simp)) (by decide)
              · exact Or.inl h
              · exact Or.inr (Or.inl h)
              · exact Or.inr (Or.inr ⟨o, rfl⟩)
            · exact Or.inr h
          exact hcons (.star lead x g trail) (.star h3) (by rw [hp] at hq; rw [hq]; simp [RPart.render])
            ⟨hlead, hloose, hg, htrail⟩ ⟨by simp [RPart.name?], hv.symm⟩
        · cases hf
      · rw [computeNamed] at hf
        split at hf
        · cases hf
        · next hk1 =>
          split at hf
          · cases hf
          · next hk2 =>
            split at hf
            · cases hf
            · next c' hc' =>
              cases hf
              obtain ⟨x, g, y, g', z, hp, hg, hg', hv, hx, hvb, hy, hvd, hz⟩ := lexed3 (strip_strip q) hlex
              obtain ⟨o, v, hk, rfl, hv', rfl⟩ := operatorFactory_ok hy hvd hc'
              simp only [ne_eq, not_not] at hk1 hk2
              rw [hk1] at hx
              rw [hk2] at hz
              have hname : ValidName x := by
                rcases hx with ⟨h, -⟩ | ⟨-, h⟩ | ⟨h, -⟩ | ⟨o, h, -⟩
                · cases h
                · exact h
                · cases h
                · cases o <;> cases h
              have hver : ValidVersion z := by
                rcases hz with ⟨-, h⟩ | ⟨h, -⟩ | ⟨h, -⟩ | ⟨o, h, -⟩
                · exact h
                · cases h
                · cases h
                · cases o <;> cases h
              exact hcons (.op lead x g o g' z trail) (.op hv' h3) (by rw [hp] at hq; rw [hq]; simp [RPart.render])
                ⟨hlead, hname, hg, hg', hver, htrail⟩ ⟨by simp [RPart.name?], hv.symm⟩
      · cases hf

/-! ### names -/

/-- the keys are the names met -/
theorem groupNames_keys : ∀ (l : List (Option Str × Constraint U)) (d : Dict (Option Str) (List (Constraint U))) (n : Option Str),
    n ∈ dkeys (groupNames l d) ↔ n ∈ dkeys d ∨ n ∈ l.map Prod.fst := by
  intro l
  induction l with
  | nil => intro d n; simp [groupNames]
  | cons a l ih =>
    obtain ⟨m, c⟩ := a
    intro d n
    rw [groupNames, ih, List.map_cons, List.mem_cons, dkeys_dset]
    by_cases hm : m ∈ dkeys d
    · rw [if_pos hm]
      constructor
      · rintro (h | h)
        · exact Or.inl h
        · exact Or.inr (Or.inr h)
      · rintro (h | h | h)
        · exact Or.inl h
        · rw [h]; exact Or.inl hm
        · exact Or.inr h
    · rw [if_neg hm, List.mem_append, List.mem_singleton, or_assoc]

theorem groupNames_same (n : Option Str) : ∀ (l : List (Option Str × Constraint U)) (cs : List (Constraint U)), (∀ a ∈ l, a.1 = n) →
    groupNames l [(n, cs)] = [(n, cs ++ l.map Prod.snd)] := by
  intro l
  induction l with
  | nil => intro cs _; simp [groupNames]
  | cons a l ih =>
    obtain ⟨m, c⟩ := a
    intro cs h
    have hm : m = n := h (m, c) (by simp)
    subst hm
    rw [groupNames]
    have : dset [(m, cs)] m ((dget [(m, cs)] m).getD [] ++ [c]) = [(m, cs ++ [c])] := by simp [dset, dget]
    rw [this, ih _ (fun a ha => h a (by simp [ha]))]
    simp

theorem groupNames_one {l : List (Option Str × Constraint U)} {n : Option Str} (hne : l ≠ []) (h : ∀ a ∈ l, a.1 = n) :
    groupNames l [] = [(n, l.map Prod.snd)] := by
  cases l with
  | nil => exact absurd rfl hne
  | cons a l =>
    obtain ⟨m, c⟩ := a
    have hm : m = n := h (m, c) (by simp)
    subst hm
    rw [groupNames]
    have : dset ([] : Dict (Option Str) (List (Constraint U))) m ((dget ([] : Dict (Option Str) (List (Constraint U))) m).getD [] ++ [c]) =
        [(m, [c])] := by simp [dset, dget]
    rw [this, groupNames_same m l _ (fun a ha => h a (by simp [ha]))]
    rfl

/-- the last step of `_from_string` -/
def oneName (cls : ReqClass) (d : Dict (Option Str) (List (Constraint U))) : Except PErr (Requirement (Option Str) U) :=
  match d with
  | [] => .error .assertion
  | [(n, cs)] => .ok ⟨cls, n, cs⟩
  | _ => .error .invalidDependencyString

theorem oneName_none (cls : ReqClass) : oneName (U := U) cls (groupNames [] []) = .error .assertion := rfl

theorem oneName_one (cls : ReqClass) {l : List (Option Str × Constraint U)} {n : Option Str} (hne : l ≠ []) (h : ∀ a ∈ l, a.1 = n) :
    oneName cls (groupNames l []) = .ok ⟨cls, n, l.map Prod.snd⟩ := by
  rw [groupNames_one hne h]
  rfl

theorem oneName_two (cls : ReqClass) {l : List (Option Str × Constraint U)} {a b : Option Str × Constraint U} (ha : a ∈ l) (hb : b ∈ l)
    (hab : a.1 ≠ b.1) : oneName cls (groupNames l []) = .error .invalidDependencyString := by
  have h1 := (groupNames_keys l [] a.1).2 (Or.inr (List.mem_map_of_mem ha))
  have h2 := (groupNames_keys l [] b.1).2 (Or.inr (List.mem_map_of_mem hb))
  unfold oneName
  split
  · next h => rw [h] at h1; cases h1
  · next n cs h =>
    rw [h] at h1 h2
    simp only [dkeys, List.map_cons, List.map_nil, List.mem_singleton] at h1 h2
    exact absurd (h1.trans h2.symm) hab
  · rfl

theorem parseRequirement_iff (s : Str) (d : Dict (Option Str) (List (Constraint U))) :
    parseRequirement s = .ok d ↔ (Spaces s ∧ d = [(none, [.any])]) ∨
      (¬ Spaces s ∧ ∃ l, PiecesRead requirementsLexicon computeNamed (pieces s) l ∧ d = groupNames l []) := by
  unfold parseRequirement
  rw [tokenize_pieces]
  by_cases hs : Spaces s
  · rw [if_pos (strip_nil_iff.2 hs)]
    simp only [hs, not_true, false_and, or_false, true_and]
    show Except.ok [(none, [Constraint.any])] = Except.ok d ↔ _
    constructor
    · intro h; cases h; rfl
    · rintro rfl; rfl
  · rw [if_neg (fun h => hs (strip_nil_iff.1 h))]
    simp only [piecesRead_iff, hs, false_and, not_false_eq_true, true_and, false_or]
    cases tokenizePieces requirementsLexicon (pieces s) with
    | error e => simp
    | ok ts =>
      simp only [Except.ok.injEq, exists_eq_left']
      cases computeAll (computeNamed (U := U)) ts with
      | error e => simp
      | ok l => simp [eq_comm]

theorem fromString_def (cls : ReqClass) (s : Str) : fromString (U := U) cls s =
    match parseRequirement s with
    | .error e => .error e
    | .ok d => oneName cls d := rfl

/-- from parts to the parsed names -/
theorem fromString_parts (cls : ReqClass) {s : Str} (hs : ¬ Spaces s) {parts : List RPart} {cs : List (Constraint U)} (hne : parts ≠ [])
    (hl : ∀ p ∈ parts, p.Loose) (e : s = joined (parts.map RPart.render)) (h : RSays parts cs) :
    ∃ l : List (Option Str × Constraint U), fromString cls s = oneName cls (groupNames l []) ∧ l.map Prod.snd = cs ∧ Named parts l := by
  obtain ⟨l, h1, h2, h3⟩ := rsays_read h hl
  refine ⟨l, ?_, h2, h3⟩
  rw [fromString_def, (parseRequirement_iff s (groupNames l [])).2 (Or.inr ⟨hs, l, ?_, rfl⟩)]
  rw [e, parts_joined hne (fun p hp => RPart.no_comma (hl p hp))]
  exact h1

theorem Named.mem {parts : List RPart} {l : List (Option Str × Constraint U)} (h : Named parts l) {p : RPart} (hp : p ∈ parts) {n : Str}
    (hn : p.name? = some n) : ∃ a ∈ l, a.1 = some n := by
  have : some n ∈ l.map Prod.fst := by
    rw [h]
    exact List.mem_map_of_mem (List.mem_filterMap.2 ⟨p, hp, hn⟩)
  obtain ⟨a, ha, e⟩ := List.mem_map.1 this
  exact ⟨a, ha, e⟩

theorem Named.mem' {parts : List RPart} {l : List (Option Str × Constraint U)} (h : Named parts l) {a : Option Str × Constraint U}
    (ha : a ∈ l) : ∃ p ∈ parts, ∃ n, p.name? = some n ∧ a.1 = some n := by
  have : a.1 ∈ (parts.filterMap RPart.name?).map some := by
    rw [← h]
    exact List.mem_map_of_mem ha
  obtain ⟨n, hn, e⟩ := List.mem_map.1 this
  obtain ⟨p, hp, hp'⟩ := List.mem_filterMap.1 hn
  exact ⟨p, hp, n, hp', e.symm⟩

theorem mem_joined {p : Str} {c : Char} (hc : c ∈ p) : ∀ {ps : List Str}, p ∈ ps → c ∈ joined ps := by
  intro ps
  induction ps with
  | nil => intro h; cases h
  | cons q ps ih =>
    intro h
    cases ps with
    | nil =>
      rw [List.mem_singleton] at h
      subst h
      exact hc
    | cons q' ps =>
      rw [joined_cons (by simp), List.mem_append, List.mem_cons]
      rcases List.mem_cons.1 h with rfl | h
      · exact Or.inl hc
      · exact Or.inr (Or.inr (ih h))

/-- a string with a name in it is not white space -/
theorem joined_not_spaces {parts : List RPart} {p : RPart} (hp : p ∈ parts) {n : Str} (hn : p.name? = some n) (hok : p.OK) :
    ¬ Spaces (joined (parts.map RPart.render)) := by
  intro hs
  have hv : ValidName n ∧ ∀ c ∈ n, c ∈ p.render := by
    cases p with
    | blank ws => cases hn
    | bare lead name trail => cases hn; exact ⟨hok.2.1, by intro c hc; simp [RPart.render, hc]⟩
    | star lead name gap trail => cases hn; exact ⟨hok.2.1, by intro c hc; simp [RPart.render, hc]⟩
    | op lead name gap o gap' version trail => cases hn; exact ⟨hok.2.1, by intro c hc; simp [RPart.render, hc]⟩
  obtain ⟨c, t, rfl, hc⟩ := hv.1.head
  have := hs c (mem_joined (hv.2 c (by simp)) (List.mem_map_of_mem hp))
  rw [CharTable.word_space c hc] at this
  cases this

end Verif.Text
