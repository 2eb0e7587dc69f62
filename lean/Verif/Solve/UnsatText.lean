import Verif.Solve.UnsatSpec
/-
The text of an explanation.
-/
set_option linter.unusedSectionVars false
namespace Verif.Solve
open Verif Verif.Pkg Verif.Graph Verif.Rules

variable {N S U : Type} [LinearOrder N] [DecidableEq S] [LinearOrder U] [Syntax S U]

theorem mapX_map {α β : Type} {f : α → Except XErr β} {g : α → β} : ∀ {l : List α}, (∀ x ∈ l, f x = .ok (g x)) →
    mapX f l = .ok (l.map g)
  | [], _ => rfl
  | x :: xs, h => by
    have h1 := h x (by simp)
    have h2 := mapX_map (l := xs) (fun y hy => h y (by simp [hy]))
    simp only [mapX, h1, h2, List.map_cons]

/-! ### the rules of a path that are printed -/

theorem mem_dset_new {κ β : Type} [DecidableEq κ] : ∀ {d : Dict κ β} {k : κ}, dget d k = none → ∀ v,
    dset d k v = d ++ [(k, v)]
  | [], _, _, _ => rfl
  | kv :: t, k, h, v => by
    unfold dget at h
    split at h
    · cases h
    · next e =>
      unfold dset
      rw [if_neg e, mem_dset_new h v]
      rfl

/-- the clauses that are printed for a path: for clauses with the same literals, only the first -/
def printed (e : Evidence N U) (p : List Nat) : List Nat :=
  (p.foldl (fun d c => dsetdefault d (e.key c) c) ([] : Dict (List Int) Nat)).map Prod.snd

theorem printed_fold (e : Evidence N U) : ∀ (p : List Nat) (d : Dict (List Int) Nat),
    (∀ kv ∈ p.foldl (fun d c => dsetdefault d (e.key c) c) d, kv ∈ d ∨ (kv.2 ∈ p ∧ kv.1 = e.key kv.2)) ∧
    (∀ kv ∈ d, kv ∈ p.foldl (fun d c => dsetdefault d (e.key c) c) d) ∧
    (∀ c ∈ p, ∃ v, (e.key c, v) ∈ p.foldl (fun d c => dsetdefault d (e.key c) c) d)
  | [], d => ⟨fun kv h => Or.inl h, fun kv h => h, by simp⟩
  | c :: cs, d => by
    rw [List.foldl_cons]
    obtain ⟨h1, h2, h3⟩ := printed_fold e cs (dsetdefault d (e.key c) c)
    have hd : (∀ kv ∈ dsetdefault d (e.key c) c, kv ∈ d ∨ kv = (e.key c, c)) ∧
        (∀ kv ∈ d, kv ∈ dsetdefault d (e.key c) c) ∧ ∃ v, (e.key c, v) ∈ dsetdefault d (e.key c) c := by
      unfold dsetdefault
      cases hg : dget d (e.key c) with
      | some v => exact ⟨fun kv h => Or.inl h, fun kv h => h, v, mem_of_dget hg⟩
      | none =>
        simp only
        rw [mem_dset_new hg]
        refine ⟨?_, ?_, c, by simp⟩
        · intro kv h
          rcases List.mem_append.1 h with h | h
          · exact Or.inl h
          · exact Or.inr (by simpa using h)
        · intro kv h; exact List.mem_append_left _ h
    obtain ⟨d1, d2, v, d3⟩ := hd
    refine ⟨?_, fun kv h => h2 kv (d2 kv h), ?_⟩
    · intro kv h
      rcases h1 kv h with k | ⟨k1, k2⟩
      · rcases d1 kv k with k | rfl
        · exact Or.inl k
        · exact Or.inr ⟨by simp, rfl⟩
      · exact Or.inr ⟨by simp [k1], k2⟩
    · intro x hx
      rcases List.mem_cons.1 hx with rfl | hx
      · exact ⟨v, h2 _ d3⟩
      · exact h3 x hx

theorem mem_printed {e : Evidence N U} {p : List Nat} {c : Nat} (h : c ∈ printed e p) : c ∈ p := by
  obtain ⟨kv, h1, rfl⟩ := List.mem_map.1 h
  rcases (printed_fold e p []).1 kv h1 with k | k
  · cases k
  · exact k.1

theorem printed_same {e : Evidence N U} {p : List Nat} {c : Nat} (h : c ∈ p) :
    ∃ d ∈ printed e p, ∀ l, l ∈ e.lits d ↔ l ∈ e.lits c := by
  obtain ⟨v, hv⟩ := (printed_fold e p []).2.2 c h
  refine ⟨v, List.mem_map.2 ⟨_, hv, rfl⟩, ?_⟩
  rcases (printed_fold e p []).1 _ hv with k | k
  · cases k
  · have hk : sortBy id (e.lits c) = sortBy id (e.lits v) := k.2
    intro l
    rw [← mem_sortBy id (e.lits v), ← hk, mem_sortBy]

theorem collect_spec {e : Evidence N U} {n : Nat} (hs : Sane e n) : ∀ (cs : List Nat) (d : Dict (List Int) Nat) (m : Memo),
    (∀ c ∈ cs, c < n ∧ e.learned c = false) → MemoOK e m →
    ∃ m', Explanation.collect e cs d m = .ok (cs.foldl (fun d c => dsetdefault d (e.key c) c) d, m') ∧ MemoOK e m'
  | [], d, m, _, hm => ⟨m, rfl, hm⟩
  | c :: cs, d, m, h, hm => by
    obtain ⟨t, i', m', k1, k2, -, k3⟩ := clauseTrail_spec hs (c + 1) c (by omega) (h c (by simp)).1 [] m hm
    have := k3 (h c (by simp)).2
    subst this
    obtain ⟨m2, k4, k5⟩ := collect_spec hs cs (dsetdefault d (e.key c) c) m' (fun x hx => h x (by simp [hx])) k2
    refine ⟨m2, ?_, k5⟩
    simp only [Explanation.collect, k1, List.isEmpty_nil, if_true, List.foldl_cons, List.foldl_nil, k4]

/-! ### the text -/

/-- the text of a path, given the texts of its clauses -/
def block (e : Evidence N U) (g : Nat → List Char) (p : List Nat) : List Char :=
  joinWith "\n".toList ("Conflicting requirements:".toList :: (printed e p).map g) ++ "\n".toList

omit [DecidableEq S] [Syntax S U] in
theorem stringFromClauses_spec {e : Evidence N U} {n : Nat} (hs : Sane e n) {T : Texts N U} {pool : Option (Pool N S U)}
    {g : Nat → List Char} {p : List Nat} {m : Memo} (hm : MemoOK e m)
    (h : ∀ c ∈ p, c < n ∧ e.learned c = false ∧ Explanation.line T pool e c = .ok (g c)) :
    ∃ m', Explanation.stringFromClauses T pool e p m = .ok (block e g p, m') ∧ MemoOK e m' := by
  obtain ⟨m', h1, h2⟩ := collect_spec hs p [] m (fun c hc => ⟨(h c hc).1, (h c hc).2.1⟩) hm
  refine ⟨m', ?_, h2⟩
  have h3 : mapX (Explanation.line T pool e) ((p.foldl (fun d c => dsetdefault d (e.key c) c) []).map Prod.snd) =
      .ok ((printed e p).map g) := mapX_map (fun c hc => (h c (mem_printed hc)).2.2)
  simp only [Explanation.stringFromClauses, h1, h3]
  rfl

omit [DecidableEq S] [Syntax S U] in
theorem pathTexts_spec {e : Evidence N U} {n : Nat} (hs : Sane e n) {T : Texts N U} {pool : Option (Pool N S U)}
    {g : Nat → List Char} : ∀ (ps : List (List Nat)) (m : Memo), MemoOK e m →
    (∀ p ∈ ps, ∀ c ∈ p, c < n ∧ e.learned c = false ∧ Explanation.line T pool e c = .ok (g c)) →
    ∃ m', Explanation.pathTexts T pool e ps m = .ok (ps.map (block e g), m') ∧ MemoOK e m'
  | [], m, hm, _ => ⟨m, rfl, hm⟩
  | p :: ps, m, hm, h => by
    obtain ⟨m1, h1, h2⟩ := stringFromClauses_spec hs hm (h p (by simp))
    obtain ⟨m2, h3, h4⟩ := pathTexts_spec hs ps m1 h2 (fun q hq => h q (by simp [hq]))
    exact ⟨m2, by simp only [Explanation.pathTexts, h1, h3, List.map_cons], h4⟩

omit [DecidableEq S] [Syntax S U] in
theorem ExplanationOK.toText {sv : Sat.Solver} {rules : List (Rule N U)} {u : Sat.UnsatInfo} {x : Explanation N U}
    (h : ExplanationOK sv rules u x) (hs : Sane x.evidence sv.nextId) {T : Texts N U} {pool : Option (Pool N S U)}
    {g : Nat → List Char} (hg : ∀ c ∈ x.details, Explanation.line T pool x.evidence c = .ok (g c)) :
    ∃ m', x.toText T pool = .ok (joinWith "\n".toList (x.paths.map (block x.evidence g)), { x with memo := m' }) ∧
      ExplanationOK sv rules u { x with memo := m' } := by
  obtain ⟨m', h1, h2⟩ := pathTexts_spec hs (T := T) (pool := pool) (g := g) x.paths x.memo h.memo (by
    intro p hp c hc
    have hd := h.path_mem hp hc
    exact ⟨(h.details c hd).1, (h.details c hd).2.1, hg c hd⟩)
  exact ⟨m', by simp only [Explanation.toText, h1], ⟨h.evidence, h2, h.implicand, h.details, h.paths⟩⟩

/-! ### the text of a rule -/

theorem idToString_ok {T : Texts N U} {pool : Pool N S U} {l : Int} (h : ∃ p, dget pool.idToPackage l.natAbs = some p) :
    ∃ t, idToString T pool l = .ok t := by
  obtain ⟨p, hp⟩ := h
  unfold idToString
  rw [hp]
  exact ⟨_, rfl⟩

theorem prettyLiterals_ok {T : Texts N U} {pool : Pool N S U} {ls : List Int} (sign unique : Bool)
    (h : ∀ l ∈ ls, ∃ p, dget pool.idToPackage l.natAbs = some p) : ∃ t, prettyLiterals T pool ls sign unique = .ok t := by
  obtain ⟨ts, hts⟩ := mapX_ok (f := idToString T pool) (fun l hl => idToString_ok (h l hl))
  unfold prettyLiterals
  rw [hts]
  exact ⟨_, rfl⟩

theorem natAbs_iabs (l : Int) : (iabs l).natAbs = l.natAbs := by unfold iabs; omega

theorem describe_ok {T : Texts N U} {pool : Pool N S U} {r : Rule N U} (unique : Bool) (hne : r.literals ≠ [])
    (h : ∀ l ∈ r.literals, ∃ p, dget pool.idToPackage l.natAbs = some p) : ∃ t, describe T pool r unique = .ok t := by
  have habs : ∀ ls : List Int, (∀ l ∈ ls, l ∈ r.literals) → ∀ l ∈ ls.map iabs, ∃ p, dget pool.idToPackage l.natAbs = some p := by
    intro ls hls l hl
    obtain ⟨k, hk, rfl⟩ := List.mem_map.1 hl
    rw [natAbs_iabs]
    exact h k (hls k hk)
  unfold describe
  obtain ⟨t, ht⟩ := prettyLiterals_ok (T := T) true unique h
  simp only [ht, bind, Except.bind]
  split
  · exact ⟨_, rfl⟩
  · exact ⟨_, rfl⟩
  · exact ⟨_, rfl⟩
  · obtain ⟨t2, ht2⟩ := prettyLiterals_ok (T := T) true unique (habs r.literals (fun l hl => hl))
    simp only [ht2]
    exact ⟨_, rfl⟩
  · split
    · next e => exact absurd e hne
    · next l ls e =>
      obtain ⟨t2, ht2⟩ := prettyLiterals_ok (T := T) (pool := pool) (ls := [iabs l]) true unique
        (habs [l] (by rw [e]; simp))
      obtain ⟨t3, ht3⟩ := prettyLiterals_ok (T := T) (pool := pool) (ls := ls) true unique
        (fun k hk => h k (by rw [e]; simp [hk]))
      simp only [ht2, ht3]
      exact ⟨_, rfl⟩
  · obtain ⟨t2, ht2⟩ := prettyLiterals_ok (T := T) (pool := pool) (ls := r.literals.take 1) false false
      (fun l hl => h l (List.mem_of_mem_take hl))
    obtain ⟨t3, ht3⟩ := prettyLiterals_ok (T := T) (pool := pool) (ls := (r.literals.drop 1).map iabs) true false
      (habs _ (fun l hl => List.mem_of_mem_drop hl))
    simp only [ht2, ht3]
    exact ⟨_, rfl⟩
  · split
    · next e => exact absurd e hne
    · next l ls e =>
      obtain ⟨t2, ht2⟩ := idToString_ok (T := T) (pool := pool) (l := iabs l) (by
        rw [natAbs_iabs]; exact h l (by rw [e]; simp))
      simp only [ht2]
      exact ⟨_, rfl⟩

/-- `part` occurs in the joined text -/
theorem infix_joinWith (sep : List Char) : ∀ (parts : List (List Char)) (t : List Char), t ∈ parts → t <:+: joinWith sep parts
  | [p], t, h => by
    simp only [List.mem_singleton] at h
    subst h
    exact List.infix_rfl
  | p :: q :: ps, t, h => by
    unfold joinWith
    rcases List.mem_cons.1 h with rfl | h
    · rw [List.append_assoc]; exact (List.prefix_append _ _).isInfix
    · exact (infix_joinWith sep (q :: ps) t h).trans (List.suffix_append _ _).isInfix

theorem ruleToString_ok {T : Texts N U} {pool : Pool N S U} {r : Rule N U} (unique : Bool) (hne : r.literals ≠ [])
    (h : ∀ l ∈ r.literals, ∃ p, dget pool.idToPackage l.natAbs = some p) :
    ∃ t, ruleToString T pool r unique = .ok t ∧
      ∀ q ∈ r.requirements, ("'".toList ++ T.requirement q ++ "'".toList) <:+: t := by
  obtain ⟨d, hd⟩ := describe_ok (T := T) unique hne h
  unfold ruleToString
  simp only [hd, bind, Except.bind]
  split
  · next e =>
    refine ⟨_, rfl, ?_⟩
    intro q hq
    rw [List.isEmpty_iff] at e
    rw [e] at hq
    cases hq
  · refine ⟨_, rfl, ?_⟩
    intro q hq
    have h1 := infix_joinWith " <- ".toList (r.requirements.map (fun q => "'".toList ++ T.requirement q ++ "'".toList))
      ("'".toList ++ T.requirement q ++ "'".toList) (List.mem_map.2 ⟨q, hq, rfl⟩)
    refine h1.trans ?_
    rw [List.append_assoc, List.append_assoc]
    exact (List.prefix_append _ _).isInfix.trans (List.suffix_append _ _).isInfix

end Verif.Solve
