import Verif.Text.PackageSpec
import Verif.Text.Scan
/-
How the pieces of a package string are found.
-/
set_option linter.unusedSectionVars false
namespace Verif.Text
open Verif Verif.Pkg CharTable Re

variable [CharTable]

/-! ### more matches -/

theorem fst_star_cls {p : Char → Bool} {t : Str} (ht : ∀ c u, t = c :: u → p c = false) :
    ∀ (w : Str) (s : St), s.rest = w ++ t → (∀ c ∈ w, p c = true) → Fst (.star (.cls p)) s (s.adv w t) := by
  intro w
  induction w with
  | nil =>
    intro s h _
    have e : s.adv [] t = s := by rw [List.nil_append] at h; rw [← h]; rfl
    rw [e]
    refine fst_star_done ((rec_cls p).none ?_)
    rintro x u ⟨c, rfl, hc⟩ hr
    rw [h] at hr
    have := ht c u hr
    rw [hc] at this
    cases this
  | cons c w ih =>
    intro s h hw
    have h1 : Fst (.cls p) s (s.adv [c] (w ++ t)) := fst_cls h (hw c (by simp))
    have h2 := ih (s.adv [c] (w ++ t)) rfl (fun d hd => hw d (by simp [hd]))
    rw [St.adv_adv] at h2
    refine fst_star_more h1 ?_ h2
    rw [h]
    simp [St.adv]

/-- the position after a captured text -/
def St.advc (s : St) (i : Nat) (x t : Str) : St := ⟨x.reverse ++ s.pre, t, (i, x) :: s.caps⟩

theorem fst_group {a : Re} {i : Nat} {s : St} {x t : Str} (h : s.rest = x ++ t) (ha : Fst a s (s.adv x t)) :
    Fst (.group i a) s (s.advc i x t) := by
  obtain ⟨l, hl⟩ := ha.cons
  unfold Fst
  simp only [run]
  rw [hl]
  simp only [List.map_cons, List.head?_cons, Option.some.injEq, St.adv, St.advc, h, List.length_append]
  have : x.length + t.length - t.length = x.length := by omega
  rw [this, List.take_left]

theorem run_seq_none {a b : Re} {s : St} (h : run a s = []) : run (.seq a b) s = [] := by
  simp only [run]
  rw [h]
  rfl

theorem run_group_none {a : Re} {i : Nat} {s : St} (h : run a s = []) : run (.group i a) s = [] := by
  simp only [run]
  rw [h]
  rfl

theorem lazyRun_fuel (f : St → List St) : ∀ (n m : Nat) (s : St), s.rest.length ≤ n → s.rest.length ≤ m →
    lazyRun f n s = lazyRun f m s := by
  have key : ∀ s : St, s.rest.length ≤ 0 → (f s).filter (fun x => decide (x.rest.length < s.rest.length)) = [] := by
    intro s hs
    rw [List.filter_eq_nil_iff]
    intro a _
    simp; omega
  intro n
  induction n with
  | zero =>
    intro m s hn hm
    cases m with
    | zero => rfl
    | succ m => simp [lazyRun, key s hn]
  | succ n ih =>
    intro m s hn hm
    cases m with
    | zero => simp [lazyRun, key s hm]
    | succ m =>
      simp only [lazyRun]
      congr 1
      refine List.flatMap_congr ?_
      intro x hx
      rw [List.mem_filter, decide_eq_true_iff] at hx
      exact ih m x (by omega) (by omega)

theorem run_lazy (a : Re) (s : St) :
    run (.lazyStar a) s =
      s :: ((run a s).filter (fun x => decide (x.rest.length < s.rest.length))).flatMap (run (.lazyStar a)) := by
  have h : run (.lazyStar a) s = lazyRun (run a) (s.rest.length + 1) s := lazyRun_fuel _ _ _ _ (Nat.le_refl _) (Nat.le_succ _)
  rw [h]
  simp only [lazyRun]
  congr 1
  refine List.flatMap_congr ?_
  intro x hx
  rw [List.mem_filter, decide_eq_true_iff] at hx
  exact lazyRun_fuel _ _ _ _ (by omega) (Nat.le_refl _)

/-- The lazy repetition of a class tries the ends in order: `x` is tried after its proper prefixes, each of which is
followed by a character of `x`. -/
theorem lazy_prefixes {p : Char → Bool} {t : Str} : ∀ (x : Str) (s : St), s.rest = x ++ t → (∀ c ∈ x, p c = true) →
    ∃ l1 l2, run (.lazyStar (.cls p)) s = l1 ++ s.adv x t :: l2 ∧
      ∀ y ∈ l1, ∃ c u, y.rest = c :: u ∧ c ∈ x := by
  intro x
  induction x with
  | nil =>
    intro s h _
    have e : s.adv [] t = s := by rw [List.nil_append] at h; rw [← h]; rfl
    rw [run_lazy, e]
    exact ⟨[], _, rfl, by simp⟩
  | cons c x ih =>
    intro s h hx
    obtain ⟨l1, l2, h1, h2⟩ := ih (s.adv [c] (x ++ t)) rfl (fun d hd => hx d (by simp [hd]))
    rw [St.adv_adv] at h1
    have hr : run (.cls p) s = [s.adv [c] (x ++ t)] := by
      simp only [run]
      rw [h]
      simp [hx c (by simp), St.adv]
    have hlt : (s.adv [c] (x ++ t)).rest.length < s.rest.length := by rw [h]; simp [St.adv]
    refine ⟨s :: l1, l2, ?_, ?_⟩
    · rw [run_lazy, hr, List.filter_cons_of_pos (by simpa using hlt)]
      simp only [List.filter_nil, List.flatMap_cons, List.flatMap_nil, List.append_nil]
      rw [h1]
      rfl
    · intro y hy
      rw [List.mem_cons] at hy
      rcases hy with rfl | hy
      · exact ⟨c, x ++ t, h, by simp⟩
      · obtain ⟨d, u, hd, hm⟩ := h2 y hy
        exact ⟨d, u, hd, by simp [hm]⟩

/-- `(.*?)\)`: the text up to the first closing parenthesis -/
theorem fst_lazy_group {p : Char → Bool} {d : Char} {i : Nat} {s : St} {x t : Str} (h : s.rest = x ++ d :: t)
    (hx : ∀ c ∈ x, p c = true ∧ c ≠ d) :
    Fst (.seq (.group i (.lazyStar (.cls p))) (.chr d)) s ((s.advc i x (d :: t)).adv [d] t) := by
  obtain ⟨l1, l2, h1, h2⟩ := lazy_prefixes (p := p) x s h (fun c hc => (hx c hc).1)
  have hnone : ∀ y : St, (∃ c u, y.rest = c :: u ∧ c ∈ x) → run (.chr d) y = [] := by
    rintro y ⟨c, u, hy, hc⟩
    refine (rec_chr d).none ?_
    rintro z v rfl hz
    rw [hy] at hz
    simp only [List.cons_append, List.nil_append, List.cons.injEq] at hz
    exact (hx c hc).2 hz.1
  unfold Fst
  rw [run]
  have hg : run (.group i (.lazyStar (.cls p))) s =
      (run (.lazyStar (.cls p)) s).map
        (fun y => { y with caps := (i, s.rest.take (s.rest.length - y.rest.length)) :: y.caps }) := rfl
  rw [hg, h1, List.map_append, List.map_cons, List.flatMap_append, List.flatMap_cons]
  have hz : (l1.map (fun y : St => ({ y with caps := (i, s.rest.take (s.rest.length - y.rest.length)) :: y.caps } : St))).flatMap
      (run (.chr d)) = [] := by
    rw [List.flatMap_eq_nil_iff]
    intro y hy
    obtain ⟨z, hz, rfl⟩ := List.mem_map.1 hy
    exact hnone _ (h2 z hz)
  rw [hz, List.nil_append]
  have he : ({ (s.adv x (d :: t)) with
      caps := (i, s.rest.take (s.rest.length - (s.adv x (d :: t)).rest.length)) :: (s.adv x (d :: t)).caps } : St) =
      s.advc i x (d :: t) := by
    simp only [St.adv, St.advc, h, List.length_append]
    have : x.length + (d :: t).length - (d :: t).length = x.length := by omega
    rw [this, List.take_left]
  rw [he]
  have hd : Fst (.chr d) (s.advc i x (d :: t)) ((s.advc i x (d :: t)).adv [d] t) := fst_cls rfl (by simp)
  obtain ⟨l, hl⟩ := hd.cons
  rw [hl]
  rfl

/-! ### finditer -/

/-- these are the groups of the matches found in the text, whatever comes before it -/
def Finds (r : Re) (t : Str) (ms : List (Str × Str)) : Prop :=
  ∀ s : St, s.rest = t → ∀ fuel, t.length < fuel → (findIter r fuel s).map (fun m => (m.text 1, m.text 2)) = ms

theorem Finds.all {r : Re} {t : Str} {ms : List (Str × Str)} (h : Finds r t ms) : findAll r t = ms :=
  h (St.start t) rfl _ (Nat.lt_succ_self _)

theorem finds_end {r : Re} (h : ∀ s : St, s.rest = [] → run r s = []) : Finds r [] [] := by
  intro s hs fuel hf
  cases fuel with
  | zero => omega
  | succ fuel =>
    have : r.first ⟨s.pre, s.rest, []⟩ = none := by unfold Re.first; rw [h ⟨s.pre, s.rest, []⟩ hs]; rfl
    rw [hs] at this
    simp only [findIter, hs, this]
    rfl

theorem finds_skip {r : Re} {c : Char} {t : Str} {ms : List (Str × Str)} (h : ∀ s : St, s.rest = c :: t → run r s = [])
    (ht : Finds r t ms) : Finds r (c :: t) ms := by
  intro s hs fuel hf
  cases fuel with
  | zero => omega
  | succ fuel =>
    have : r.first ⟨s.pre, s.rest, []⟩ = none := by unfold Re.first; rw [h ⟨s.pre, s.rest, []⟩ hs]; rfl
    rw [hs] at this
    simp only [findIter, hs, this]
    exact ht ⟨c :: s.pre, t, []⟩ rfl _ (by simp only [List.length_cons] at hf; omega)

theorem finds_hit {r : Re} {x t : Str} {g1 g2 : Str} {ms : List (Str × Str)} (hx : x ≠ [])
    (h : ∀ s : St, s.rest = x ++ t → ∃ m, Fst r s m ∧ m.rest = t ∧ m.text 1 = g1 ∧ m.text 2 = g2)
    (ht : Finds r t ms) : Finds r (x ++ t) ((g1, g2) :: ms) := by
  intro s hs fuel hf
  cases fuel with
  | zero => omega
  | succ fuel =>
    obtain ⟨m, h1, h2, h3, h4⟩ := h ⟨s.pre, s.rest, []⟩ hs
    have : r.first ⟨s.pre, s.rest, []⟩ = some m := h1
    simp only [findIter]
    simp only [this]
    rw [List.map_cons, h3, h4, ht m h2]
    rw [List.length_append] at hf
    have := List.length_pos_iff.2 hx
    omega

theorem finds_skips {r : Re} {t : Str} {ms : List (Str × Str)} (ht : Finds r t ms) : ∀ a : Str,
    (∀ c ∈ a, ∀ (u : Str) (s : St), s.rest = c :: u → run r s = []) → Finds r (a ++ t) ms := by
  intro a
  induction a with
  | nil => intro _; exact ht
  | cons c a ih =>
    intro h
    exact finds_skip (fun s hs => h c (by simp) _ s hs) (ih (fun d hd => h d (by simp [hd])))

/-! ### items -/

theorem item_none {s : St} (h : ∀ c t, s.rest = c :: t → isWord c = false) : run itemR s = [] :=
  run_seq_none (run_group_none (name_none h))

theorem fst_item {i : Item} (hi : i.OK) {s : St} {t : Str} (h : s.rest = i.render ++ t)
    (ht : ∀ c u, t = c :: u → c = ',') :
    ∃ m, Fst itemR s m ∧ m.rest = t ∧ m.text 1 = i.dist ∧ m.text 2 = i.text := by
  have h1 : s.rest = i.dist ++ (i.gap ++ (i.text ++ t)) := by rw [h]; simp [Item.render]
  have hcomma : isWord ',' = false ∧ ',' ≠ '.' := ⟨comma_not_word, by decide⟩
  have hstop : Stop (i.gap ++ (i.text ++ t)) := by
    intro c u hcu
    cases hg : i.gap with
    | cons d g =>
      rw [hg] at hcu
      simp only [List.cons_append, List.cons.injEq] at hcu
      have := hi.gap d (by rw [hg]; simp)
      rw [← hcu.1, this]
      exact ⟨blank_not_word, by decide⟩
    | nil =>
      rw [hg, List.nil_append] at hcu
      cases hx : i.text with
      | cons d x =>
        rw [hx] at hcu
        simp only [List.cons_append, List.cons.injEq] at hcu
        rw [← hcu.1]
        exact hi.apart hg d x hx
      | nil =>
        rw [hx, List.nil_append] at hcu
        rw [ht c u hcu]
        exact hcomma
  have f1 : Fst (.group 1 nameR) s (s.advc 1 i.dist (i.gap ++ (i.text ++ t))) := fst_group h1 (fst_name hi.dist h1 hstop)
  have f2 : Fst (.star (.chr ' ')) (s.advc 1 i.dist (i.gap ++ (i.text ++ t)))
      ((s.advc 1 i.dist (i.gap ++ (i.text ++ t))).adv i.gap (i.text ++ t)) := by
    refine fst_star_cls ?_ i.gap _ rfl ?_
    · intro c u hcu
      rw [beq_eq_false_iff_ne]
      cases hx : i.text with
      | cons d x =>
        rw [hx] at hcu
        simp only [List.cons_append, List.cons.injEq] at hcu
        rw [← hcu.1]
        exact hi.first d x hx
      | nil =>
        rw [hx, List.nil_append] at hcu
        rw [ht c u hcu]
        decide
    · intro c hcg
      rw [hi.gap c hcg]; rfl
  have f3 : Fst (.group 2 (.star (.cls (fun c => c != ','))))
      ((s.advc 1 i.dist (i.gap ++ (i.text ++ t))).adv i.gap (i.text ++ t))
      (((s.advc 1 i.dist (i.gap ++ (i.text ++ t))).adv i.gap (i.text ++ t)).advc 2 i.text t) := by
    refine fst_group rfl (fst_star_cls ?_ i.text _ rfl ?_)
    · intro c u hcu
      rw [ht c u hcu]; decide
    · intro c hcx
      simpa using (hi.text c hcx).1
  refine ⟨_, fst_seq f1 (fst_seq f2 f3), rfl, ?_, ?_⟩
  · simp [St.text, St.cap, St.advc, St.adv]
  · simp [St.text, St.cap, St.advc, St.adv]

theorem Item.OK.ne_nil {i : Item} (hi : i.OK) : i.render ≠ [] := by
  have := hi.dist.ne_nil
  simp [Item.render, this]

theorem finds_items : ∀ (rest : List (Str × Item)) (i : Item), i.OK → (∀ x ∈ rest, x.2.OK ∧ ∀ c ∈ x.1, c = ' ') →
    Finds itemR (renderItems i rest) ((i.dist, i.text) :: rest.map (fun x => (x.2.dist, x.2.text))) := by
  have hend : Finds itemR [] [] := finds_end (fun s hs => item_none (fun c t h => by rw [hs] at h; cases h))
  intro rest
  induction rest with
  | nil =>
    intro i hi _
    have := finds_hit (t := []) hi.ne_nil (fun s hs => fst_item hi hs (by simp)) hend
    rw [List.append_nil] at this
    exact this
  | cons x rest ih =>
    intro i hi hrest
    obtain ⟨b, j⟩ := x
    have hx := hrest (b, j) (by simp)
    have h1 := ih j hx.1 (fun y hy => hrest y (by simp [hy]))
    have h2 : Finds itemR ((',' :: b) ++ renderItems j rest) ((j.dist, j.text) :: rest.map (fun x => (x.2.dist, x.2.text))) := by
      refine finds_skips h1 _ ?_
      intro c hc u s hs
      refine item_none ?_
      intro d v hd
      rw [hs] at hd
      simp only [List.cons.injEq] at hd
      rw [← hd.1]
      rw [List.mem_cons] at hc
      rcases hc with rfl | hc
      · exact comma_not_word
      · rw [hx.2 c hc]; exact blank_not_word
    have h3 := finds_hit hi.ne_nil (fun s hs => fst_item hi hs (t := (',' :: b) ++ renderItems j rest)
      (by intro c u h; simp only [List.cons_append, List.cons.injEq] at h; exact h.1.symm)) h2
    simpa [renderItems] using h3

theorem blockItems_inside {b : Block} (hb : b.OK) : findAll itemR b.inside = b.pairs := by
  unfold Block.inside Block.pairs
  cases h : b.items with
  | none =>
    exact (finds_end (r := itemR) (fun s hs => item_none (fun c t h => by rw [hs] at h; cases h))).all
  | some x =>
    obtain ⟨i, rest⟩ := x
    obtain ⟨h1, h2⟩ := hb.items i rest h
    exact (finds_items rest i h1 h2).all

/-! ### blocks -/

theorem block_none {s : St} (h : ∀ c t, s.rest = c :: t → isWord c = false) : run blockR s = [] := by
  refine run_seq_none (run_group_none (rec_word.none ?_))
  intro x t hx hr
  obtain ⟨c, u, rfl, hc⟩ := hx.head
  rw [h c _ hr] at hc
  cases hc

theorem name_inside {n : Str} (h : ValidName n) : ∀ c ∈ n, c ≠ ')' ∧ c ≠ '\n' ∧ c ≠ ';' := by
  intro c hc
  rcases h.chars c hc with hw | rfl
  · refine ⟨?_, ?_, ?_⟩ <;> rintro rfl
    · rw [(plain_facts ')' (by simp)).1] at hw; cases hw
    · rw [space_not_word CharTable.newline_space] at hw; cases hw
    · rw [(plain_facts ';' (by simp)).1] at hw; cases hw
  · decide

theorem item_inside {i : Item} (hi : i.OK) : ∀ c ∈ i.render, c ≠ ')' ∧ c ≠ '\n' := by
  intro c hc
  simp only [Item.render, List.mem_append] at hc
  rcases hc with (hc | hc) | hc
  · exact ⟨(name_inside hi.dist c hc).1, (name_inside hi.dist c hc).2.1⟩
  · rw [hi.gap c hc]; decide
  · exact ⟨(hi.text c hc).2.1, (hi.text c hc).2.2⟩

theorem items_inside : ∀ (rest : List (Str × Item)) (i : Item), i.OK → (∀ x ∈ rest, x.2.OK ∧ ∀ c ∈ x.1, c = ' ') →
    ∀ c ∈ renderItems i rest, c ≠ ')' ∧ c ≠ '\n' := by
  intro rest
  induction rest with
  | nil => intro i hi _; exact item_inside hi
  | cons x rest ih =>
    intro i hi hrest c hc
    obtain ⟨b, j⟩ := x
    have hx := hrest (b, j) (by simp)
    simp only [renderItems, List.mem_append, List.mem_cons] at hc
    rcases hc with (hc | rfl | hc) | hc
    · exact item_inside hi c hc
    · decide
    · rw [hx.2 c hc]; decide
    · exact ih j hx.1 (fun y hy => hrest y (by simp [hy])) c hc

theorem Block.OK.inside {b : Block} (hb : b.OK) : ∀ c ∈ b.inside, c ≠ ')' ∧ c ≠ '\n' := by
  unfold Block.inside
  cases h : b.items with
  | none => simp
  | some x =>
    obtain ⟨i, rest⟩ := x
    obtain ⟨h1, h2⟩ := hb.items i rest h
    exact items_inside rest i h1 h2

theorem fst_block {b : Block} (hb : b.OK) {s : St} {t : Str}
    (h : s.rest = (b.word ++ b.after ++ '(' :: b.inside ++ [')']) ++ t) :
    ∃ m, Fst blockR s m ∧ m.rest = t ∧ m.text 1 = b.word ∧ m.text 2 = b.inside := by
  have h1 : s.rest = b.word ++ (b.after ++ ('(' :: (b.inside ++ (')' :: t)))) := by rw [h]; simp
  have hpar : isWord '(' = false := (plain_facts '(' (by simp)).1
  have hpars : isSpace '(' = false := (plain_facts '(' (by simp)).2.2
  have hstop : ∀ c u, b.after ++ ('(' :: (b.inside ++ (')' :: t))) = c :: u → isWord c = false := by
    intro c u hcu
    cases hg : b.after with
    | nil =>
      rw [hg, List.nil_append] at hcu
      simp only [List.cons.injEq] at hcu
      rw [← hcu.1]; exact hpar
    | cons d g =>
      rw [hg] at hcu
      simp only [List.cons_append, List.cons.injEq] at hcu
      rw [← hcu.1]
      exact space_not_word (hb.after d (by rw [hg]; simp))
  have f1 := fst_group (i := 1) h1 (fst_word h1 hb.word hstop)
  have f2 : Fst (.star (.cls isSpace)) (s.advc 1 b.word (b.after ++ ('(' :: (b.inside ++ (')' :: t)))))
      ((s.advc 1 b.word (b.after ++ ('(' :: (b.inside ++ (')' :: t))))).adv b.after ('(' :: (b.inside ++ (')' :: t)))) := by
    refine fst_star_cls ?_ b.after _ rfl hb.after
    intro c u hcu
    simp only [List.cons.injEq] at hcu
    rw [← hcu.1]; exact hpars
  have f3 : Fst (.chr '(')
      ((s.advc 1 b.word (b.after ++ ('(' :: (b.inside ++ (')' :: t))))).adv b.after ('(' :: (b.inside ++ (')' :: t))))
      (((s.advc 1 b.word (b.after ++ ('(' :: (b.inside ++ (')' :: t))))).adv b.after ('(' :: (b.inside ++ (')' :: t)))).adv
        ['('] (b.inside ++ (')' :: t))) := fst_cls rfl (by simp)
  have f4 := fst_lazy_group (p := fun c => c != '\n') (d := ')') (i := 2)
    (s := (((s.advc 1 b.word (b.after ++ ('(' :: (b.inside ++ (')' :: t))))).adv b.after ('(' :: (b.inside ++ (')' :: t)))).adv
        ['('] (b.inside ++ (')' :: t)))) (x := b.inside) (t := t) rfl
    (by intro c hcx; exact ⟨by simpa using (hb.inside c hcx).2, (hb.inside c hcx).1⟩)
  refine ⟨_, fst_seq f1 (fst_seq f2 (fst_seq f3 f4)), rfl, ?_, ?_⟩
  · simp [St.text, St.cap, St.advc, St.adv]
  · simp [St.text, St.cap, St.advc, St.adv]

theorem finds_blocks : ∀ bs : List Block, (∀ b ∈ bs, b.OK) →
    Finds blockR (bs.flatMap Block.render) (bs.map (fun b => (b.word, b.inside))) := by
  intro bs
  induction bs with
  | nil => intro _; exact finds_end (fun s hs => block_none (fun c t h => by rw [hs] at h; cases h))
  | cons b bs ih =>
    intro h
    have hb := h b (by simp)
    have h1 := ih (fun b' hb' => h b' (by simp [hb']))
    have h2 := finds_hit (r := blockR) (x := b.word ++ b.after ++ '(' :: b.inside ++ [')']) (by simp)
      (fun s hs => fst_block hb hs) h1
    have h3 := finds_skips h2 (';' :: b.before) (by
      intro c hc u s hs
      refine block_none ?_
      intro d v hd
      rw [hs] at hd
      simp only [List.cons.injEq] at hd
      rw [← hd.1]
      rw [List.mem_cons] at hc
      rcases hc with rfl | hc
      · exact (plain_facts ';' (by simp)).1
      · exact space_not_word (hb.before c hc))
    have e : (b :: bs).flatMap Block.render =
        (';' :: b.before) ++ ((b.word ++ b.after ++ '(' :: b.inside ++ [')']) ++ bs.flatMap Block.render) := by
      simp [List.flatMap_cons, Block.render]
    rw [e]
    exact h3

end Verif.Text
