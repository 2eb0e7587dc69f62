import Verif.Rules.Model
import Verif.Pkg.PoolLemmas
/-
What the generated set of rules contains: for every package whose rules were added, all its dependency and conflict rules,
and the same for its dependency candidates.
-/
set_option linter.unusedSectionVars false
namespace Verif.Rules
open Verif Verif.Pkg

variable {N S U : Type} [DecidableEq N] [DecidableEq S] [LinearOrder U] [Syntax S U]

theorem bind_ok {ε α β : Type} {x : Except ε α} {f : α → Except ε β} {b : β} :
    (x >>= f) = .ok b ↔ ∃ a, x = .ok a ∧ f a = .ok b := by
  cases x <;> simp [bind, Except.bind]

theorem bind_err {ε α β : Type} {x : Except ε α} {f : α → Except ε β} {e : ε} :
    (x >>= f) = .error e ↔ x = .error e ∨ ∃ a, x = .ok a ∧ f a = .error e := by
  cases x <;> simp [bind, Except.bind]

theorem same_iff (p q : Package N S U) : p.same q = true ↔ p.key = q.key := by simp [Package.same]

theorem key_fields {p q : Package N S U} (h : p.key = q.key) :
    p.name = q.name ∧ p.version = q.version ∧ p.installRequires = q.installRequires ∧ p.conflicts = q.conflicts := by
  simp only [Package.key, PKey.mk.injEq] at h
  exact ⟨h.1, h.2.1, h.2.2.1, h.2.2.2.1⟩

/-- the set of rules contains a rule with these literals -/
def Has (rules : List (Rule N U)) (lits : List Int) : Prop := ∃ r ∈ rules, r.literals = sortBy id lits

/-- nothing is lost -/
def Mono (rules rules' : List (Rule N U)) : Prop := ∀ lits, Has rules lits → Has rules' lits

theorem Mono.refl (rules : List (Rule N U)) : Mono rules rules := fun _ h => h
theorem Mono.trans {a b c : List (Rule N U)} (h : Mono a b) (h' : Mono b c) : Mono a c := fun l k => h' l (h l k)

theorem addRule_mono (r : Rule N U) (rules : List (Rule N U)) : Mono rules (addRule r rules) := by
  rintro lits ⟨r', h1, h2⟩
  unfold addRule
  split
  · exact ⟨r', h1, h2⟩
  · exact ⟨r', by simp [h1], h2⟩

theorem addRule_has (lits : List Int) (reason : Reason) (reqs : Reqs N U) (rules : List (Rule N U)) :
    Has (addRule (mkRule lits reason reqs) rules) lits := by
  unfold addRule
  split
  · next h =>
    rw [List.any_eq_true] at h
    obtain ⟨r', h1, h2⟩ := h
    exact ⟨r', h1, of_decide_eq_true h2⟩
  · exact ⟨mkRule lits reason reqs, by simp, rfl⟩

theorem candidateIds_spec {pool : Pool N S U} {p : Package N S U} {ds : List (Package N S U)} {ids : List Int}
    (h : candidateIds pool p ds = .ok ids) (x : Int) :
    x ∈ ids ↔ ∃ d ∈ ds, d.key ≠ p.key ∧ ∃ j : Nat, pool.packageId d = .ok j ∧ x = j := by
  induction ds generalizing ids with
  | nil => simp [candidateIds] at h; subst h; simp
  | cons d ds ih =>
    unfold candidateIds at h
    split at h
    · next hs =>
      rw [same_iff] at hs
      rw [ih h]
      simp [hs]
    · next hs =>
      rw [same_iff] at hs
      simp only [bind_ok] at h
      obtain ⟨i, hi, rest, hr, h⟩ := h
      cases h
      rw [List.mem_cons, ih hr]
      simp [hs, hi]

theorem candidateIds_ok {pool : Pool N S U} {p : Package N S U} {ds : List (Package N S U)} {ids : List Int}
    (h : candidateIds pool p ds = .ok ids) {d : Package N S U} (hd : d ∈ ds) (hne : d.key ≠ p.key) :
    ∃ j : Nat, pool.packageId d = .ok j := by
  induction ds generalizing ids with
  | nil => simp at hd
  | cons d' ds ih =>
    unfold candidateIds at h
    split at h
    · next hs =>
      rw [same_iff] at hs
      rcases List.mem_cons.1 hd with rfl | hd
      · exact absurd hs hne
      · exact ih h hd
    · next hs =>
      simp only [bind_ok] at h
      obtain ⟨i, hi, rest, hr, h⟩ := h
      rcases List.mem_cons.1 hd with rfl | hd
      · exact ⟨i, hi⟩
      · exact ih hr hd

theorem idsOfAll_spec {pool : Pool N S U} {ds : List (Package N S U)} {ids : List Int}
    (h : idsOfAll pool ds = .ok ids) (x : Int) :
    x ∈ ids ↔ ∃ d ∈ ds, ∃ j : Nat, pool.packageId d = .ok j ∧ x = j := by
  induction ds generalizing ids with
  | nil => simp [idsOfAll] at h; subst h; simp
  | cons d ds ih =>
    unfold idsOfAll at h
    simp only [bind_ok] at h
    obtain ⟨i, hi, rest, hr, h⟩ := h
    cases h
    rw [List.mem_cons, ih hr]
    simp [hi]

theorem idsOfAll_length {pool : Pool N S U} {ds : List (Package N S U)} {ids : List Int}
    (h : idsOfAll pool ds = .ok ids) : ids.length = ds.length := by
  induction ds generalizing ids with
  | nil => simp [idsOfAll] at h; subst h; simp
  | cons d ds ih =>
    unfold idsOfAll at h
    simp only [bind_ok] at h
    obtain ⟨i, hi, rest, hr, h⟩ := h
    cases h
    simp [ih hr]

/-- the dependencies of `p` (with id `i`): it is marked as broken, or each dependency has its rule, and its candidates
are in `push` -/
def DepDone (pool : Pool N S U) (rules : List (Rule N U)) (push : Package N S U → Prop) (p : Package N S U) (i : Nat)
    (t : CTuple N S) : Prop :=
  ∃ req cands ids, fromConstraints .install t = .ok req ∧ pool.whatProvides req = .ok cands ∧
    candidateIds pool p cands = .ok ids ∧ Has rules (-(i : Int) :: ids) ∧ ∀ q ∈ cands, push q

def ConfDone (pool : Pool N S U) (rules : List (Rule N U)) (p : Package N S U) (i : Nat) (t : CTuple N S) : Prop :=
  ∃ req cands, fromConstraints .conflict t = .ok req ∧ pool.whatProvides req = .ok cands ∧
    ∀ q ∈ cands, q.key ≠ p.key → ∃ j : Nat, pool.packageId q = .ok j ∧ Has rules [-(i : Int), -(j : Int)]

def NameDone (pool : Pool N S U) (rules : List (Rule N U)) (p : Package N S U) (i : Nat) : Prop :=
  ∃ cands, pool.whatProvides (Requirement.ofName .conflict p.name) = .ok cands ∧
    ∀ q ∈ cands, q.key ≠ p.key → q.name = p.name →
      ∃ j : Nat, pool.packageId q = .ok j ∧ Has rules [-(i : Int), -(j : Int)]

theorem DepDone.mono {pool : Pool N S U} {rules rules' : List (Rule N U)} {push push' : Package N S U → Prop}
    {p : Package N S U} {i : Nat} {t : CTuple N S} (h : DepDone pool rules push p i t) (hm : Mono rules rules')
    (hp : ∀ q, push q → push' q) : DepDone pool rules' push' p i t := by
  obtain ⟨req, cands, ids, h1, h2, h3, h4, h5⟩ := h
  exact ⟨req, cands, ids, h1, h2, h3, hm _ h4, fun q hq => hp q (h5 q hq)⟩

theorem ConfDone.mono {pool : Pool N S U} {rules rules' : List (Rule N U)}
    {p : Package N S U} {i : Nat} {t : CTuple N S} (h : ConfDone pool rules p i t) (hm : Mono rules rules') :
    ConfDone pool rules' p i t := by
  obtain ⟨req, cands, h1, h2, h3⟩ := h
  refine ⟨req, cands, h1, h2, fun q hq hne => ?_⟩
  obtain ⟨j, k1, k2⟩ := h3 q hq hne
  exact ⟨j, k1, hm _ k2⟩

theorem NameDone.mono {pool : Pool N S U} {rules rules' : List (Rule N U)}
    {p : Package N S U} {i : Nat} (h : NameDone pool rules p i) (hm : Mono rules rules') :
    NameDone pool rules' p i := by
  obtain ⟨cands, h2, h3⟩ := h
  refine ⟨cands, h2, fun q hq hne hn => ?_⟩
  obtain ⟨j, k1, k2⟩ := h3 q hq hne hn
  exact ⟨j, k1, hm _ k2⟩

theorem addRequires_spec {strict : Bool} {pool : Pool N S U} {p : Package N S U} {reqs : Reqs N U} {i : Nat}
    (hi : pool.packageId p = .ok i) {cs : List (CTuple N S)} {rules : List (Rule N U)} {queued : List (Work N S U)}
    {rules' : List (Rule N U)} {more : List (Work N S U)}
    (h : addRequires strict pool p reqs cs rules queued = .ok (rules', more)) :
    Mono rules rules' ∧ ((Has rules' [-(i : Int)] ∧ more = []) ∨
      ((∀ t ∈ cs, DepDone pool rules' (fun q => ∃ rq, (q, rq) ∈ more) p i t) ∧ ∀ e ∈ queued, e ∈ more)) := by
  induction cs generalizing rules queued with
  | nil =>
    simp only [addRequires, Except.ok.injEq, Prod.mk.injEq] at h
    obtain ⟨rfl, rfl⟩ := h
    exact ⟨Mono.refl _, Or.inr ⟨by simp, fun e he => he⟩⟩
  | cons c cs ih =>
    unfold addRequires at h
    simp only [bind_ok] at h
    obtain ⟨req, hreq, cands, hc, h⟩ := h
    split at h
    · simp only [bind_ok, removeRule] at h
      obtain ⟨_, -, rule, ⟨i', hi', hr⟩, h⟩ := h
      rw [hi] at hi'
      cases hi'
      cases hr
      simp only [Except.ok.injEq, Prod.mk.injEq] at h
      obtain ⟨rfl, rfl⟩ := h
      exact ⟨addRule_mono _ _, Or.inl ⟨addRule_has _ _ _ _, rfl⟩⟩
    · simp only [bind_ok, dependencyRule] at h
      obtain ⟨rule, ⟨i', hi', ids, hids, hr⟩, h⟩ := h
      rw [hi] at hi'
      cases hi'
      cases hr
      obtain ⟨h1, h2⟩ := ih h
      refine ⟨(addRule_mono _ _).trans h1, ?_⟩
      rcases h2 with h2 | ⟨h2, h3⟩
      · exact Or.inl h2
      · refine Or.inr ⟨?_, fun e he => h3 e (by simp [he])⟩
        intro t ht
        rcases List.mem_cons.1 ht with rfl | ht
        · refine ⟨req, cands, ids, hreq, hc, hids, h1 _ (addRule_has _ _ _ _), fun q hq => ?_⟩
          exact ⟨combine reqs req, h3 _ (by simp [hq])⟩
        · exact h2 t ht

theorem addSameName_spec {pool : Pool N S U} {p : Package N S U} {reqs : Reqs N U} {i : Nat}
    (hi : pool.packageId p = .ok i) {qs : List (Package N S U)} {rules rules' : List (Rule N U)}
    (h : addSameName pool p reqs qs rules = .ok rules') :
    Mono rules rules' ∧ ∀ q ∈ qs, q.key ≠ p.key → q.name = p.name →
      ∃ j : Nat, pool.packageId q = .ok j ∧ Has rules' [-(i : Int), -(j : Int)] := by
  induction qs generalizing rules with
  | nil => simp only [addSameName, Except.ok.injEq] at h; subst h; exact ⟨Mono.refl _, by simp⟩
  | cons q qs ih =>
    unfold addSameName at h
    split at h
    · next hc =>
      simp only [Bool.and_eq_true, Bool.not_eq_true', decide_eq_true_eq] at hc
      have hne : q.key ≠ p.key := fun e => by rw [(same_iff q p).2 e] at hc; simp at hc
      have hne' : ¬ p.same q = true := by rw [same_iff]; exact fun e => hne e.symm
      simp only [bind_ok, conflictRule, hne', if_false, Bool.false_eq_true] at h
      obtain ⟨rule, ⟨i', hi', j, hj, hr⟩, h⟩ := h
      rw [hi] at hi'
      cases hi'
      cases hr
      obtain ⟨h1, h2⟩ := ih h
      refine ⟨(addRule_mono _ _).trans h1, ?_⟩
      intro q' hq' k1 k2
      rcases List.mem_cons.1 hq' with rfl | hq'
      · exact ⟨j, hj, h1 _ (addRule_has _ _ _ _)⟩
      · exact h2 q' hq' k1 k2
    · next hc =>
      obtain ⟨h1, h2⟩ := ih h
      refine ⟨h1, ?_⟩
      intro q' hq' k1 k2
      rcases List.mem_cons.1 hq' with rfl | hq'
      · exfalso
        apply hc
        simp only [Bool.and_eq_true, Bool.not_eq_true', decide_eq_true_eq]
        refine ⟨?_, k2⟩
        rw [← Bool.not_eq_true]
        exact fun e => k1 ((same_iff _ _).1 e)
      · exact h2 q' hq' k1 k2

theorem addProviderConflicts_spec {pool : Pool N S U} {p : Package N S U} {reqs : Reqs N U} {i : Nat}
    (hi : pool.packageId p = .ok i) {qs : List (Package N S U)} {rules rules' : List (Rule N U)}
    (h : addProviderConflicts pool p reqs qs rules = .ok rules') :
    Mono rules rules' ∧ ∀ q ∈ qs, q.key ≠ p.key →
      ∃ j : Nat, pool.packageId q = .ok j ∧ Has rules' [-(i : Int), -(j : Int)] := by
  induction qs generalizing rules with
  | nil => simp only [addProviderConflicts, Except.ok.injEq] at h; subst h; exact ⟨Mono.refl _, by simp⟩
  | cons q qs ih =>
    unfold addProviderConflicts at h
    simp only [bind_ok] at h
    obtain ⟨rule, hr, h⟩ := h
    obtain ⟨h1, h2⟩ := ih h
    unfold conflictRule at hr
    split at hr
    · next hs =>
      rw [same_iff] at hs
      cases hr
      refine ⟨h1, ?_⟩
      intro q' hq' k1
      rcases List.mem_cons.1 hq' with rfl | hq'
      · exact absurd hs.symm k1
      · exact h2 q' hq' k1
    · simp only [bind_ok] at hr
      obtain ⟨i', hi', j, hj, hr⟩ := hr
      rw [hi] at hi'
      cases hi'
      cases hr
      refine ⟨(addRule_mono _ _).trans h1, ?_⟩
      intro q' hq' k1
      rcases List.mem_cons.1 hq' with rfl | hq'
      · exact ⟨j, hj, h1 _ (addRule_has _ _ _ _)⟩
      · exact h2 q' hq' k1

theorem addDeclared_spec {strict : Bool} {pool : Pool N S U} {p : Package N S U} {reqs : Reqs N U} {i : Nat}
    (hi : pool.packageId p = .ok i) {cs : List (CTuple N S)} {rules rules' : List (Rule N U)}
    (h : addDeclared strict pool p reqs cs rules = .ok rules') :
    Mono rules rules' ∧ ∀ t ∈ cs, ConfDone pool rules' p i t := by
  induction cs generalizing rules with
  | nil => simp only [addDeclared, Except.ok.injEq] at h; subst h; exact ⟨Mono.refl _, by simp⟩
  | cons c cs ih =>
    unfold addDeclared at h
    simp only [bind_ok] at h
    obtain ⟨req, hreq, cands, hc, h⟩ := h
    split at h
    · next he =>
      simp only [bind_ok] at h
      obtain ⟨_, -, h⟩ := h
      obtain ⟨h1, h2⟩ := ih h
      refine ⟨h1, ?_⟩
      intro t ht
      rcases List.mem_cons.1 ht with rfl | ht
      · rw [List.isEmpty_iff] at he
        subst he
        exact ⟨req, [], hreq, hc, by simp⟩
      · exact h2 t ht
    · simp only [bind_ok] at h
      obtain ⟨rules1, hr1, h⟩ := h
      obtain ⟨k1, k2⟩ := addProviderConflicts_spec hi hr1
      obtain ⟨h1, h2⟩ := ih h
      refine ⟨k1.trans h1, ?_⟩
      intro t ht
      rcases List.mem_cons.1 ht with rfl | ht
      · refine ⟨req, cands, hreq, hc, fun q hq hne => ?_⟩
        obtain ⟨j, hj, hh⟩ := k2 q hq hne
        exact ⟨j, hj, h1 _ hh⟩
      · exact h2 t ht

theorem addConflicts_spec {strict : Bool} {pool : Pool N S U} {p : Package N S U} {reqs : Reqs N U} {i : Nat}
    (hi : pool.packageId p = .ok i) {rules rules' : List (Rule N U)}
    (h : addConflicts strict pool p reqs rules = .ok rules') :
    Mono rules rules' ∧ NameDone pool rules' p i ∧ ∀ t ∈ p.conflicts, ConfDone pool rules' p i t := by
  unfold addConflicts at h
  simp only [bind_ok] at h
  obtain ⟨cands, hc, rules1, h1, h⟩ := h
  obtain ⟨a1, a2⟩ := addSameName_spec hi h1
  obtain ⟨b1, b2⟩ := addDeclared_spec hi h
  refine ⟨a1.trans b1, ⟨cands, hc, fun q hq k1 k2 => ?_⟩, b2⟩
  obtain ⟨j, hj, hh⟩ := a2 q hq k1 k2
  exact ⟨j, hj, b1 _ hh⟩

/-- a package is known to the generator, or waits in the queue -/
def Pushed (pool : Pool N S U) (added : List Nat) (queue : List (Work N S U)) (q : Package N S U) : Prop :=
  (∃ j, pool.packageId q = .ok j ∧ j ∈ added) ∨ ∃ e ∈ queue, e.1.key = q.key

/-- every added package has its rules -/
def Closed (pool : Pool N S U) (g : Gen N U) (queue : List (Work N S U)) : Prop :=
  ∀ i ∈ g.added, ∃ p, pool.packageId p = .ok i ∧
    (Has g.rules [-(i : Int)] ∨ ∀ t ∈ p.installRequires, DepDone pool g.rules (Pushed pool g.added queue) p i t) ∧
    NameDone pool g.rules p i ∧ ∀ t ∈ p.conflicts, ConfDone pool g.rules p i t

/-- `g'` extends `g` -/
structure Ext (g g' : Gen N U) : Prop where
  rules : Mono g.rules g'.rules
  added : ∀ i ∈ g.added, i ∈ g'.added

theorem Ext.refl (g : Gen N U) : Ext g g := ⟨Mono.refl _, fun _ h => h⟩
theorem Ext.trans {a b c : Gen N U} (h : Ext a b) (h' : Ext b c) : Ext a c :=
  ⟨h.rules.trans h'.rules, fun i k => h'.added i (h.added i k)⟩

theorem work_spec {strict : Bool} {pool : Pool N S U} {n : Nat} {queue : List (Work N S U)} {g g' : Gen N U}
    (h : work strict pool n queue g = .ok g') (hc : Closed pool g queue) :
    Closed pool g' [] ∧ Ext g g' ∧ ∀ e ∈ queue, ∃ j, pool.packageId e.1 = .ok j ∧ j ∈ g'.added := by
  induction n generalizing queue g with
  | zero =>
    cases queue with
    | nil => simp only [work, Except.ok.injEq] at h; subst h; exact ⟨hc, Ext.refl _, by simp⟩
    | cons e queue => simp [work] at h
  | succ n ih =>
    cases queue with
    | nil => simp only [work, Except.ok.injEq] at h; subst h; exact ⟨hc, Ext.refl _, by simp⟩
    | cons e queue =>
      obtain ⟨p, reqs⟩ := e
      unfold work at h
      simp only [bind_ok] at h
      obtain ⟨i, hi, h⟩ := h
      split at h
      · next hadd =>
        have hc' : Closed pool g queue := by
          intro k hk
          obtain ⟨q, h1, h2, h3⟩ := hc k hk
          refine ⟨q, h1, ?_, h3⟩
          rcases h2 with h2 | h2
          · exact Or.inl h2
          · refine Or.inr fun t ht => (h2 t ht).mono (Mono.refl _) fun q' hq' => ?_
            rcases hq' with hq' | ⟨e, he, hk⟩
            · exact Or.inl hq'
            · rcases List.mem_cons.1 he with rfl | he
              · exact Or.inl ⟨i, by rw [pool.packageId_congr (show q'.key = p.key from hk.symm)]; exact hi, hadd⟩
              · exact Or.inr ⟨e, he, hk⟩
        obtain ⟨a1, a2, a3⟩ := ih h hc'
        refine ⟨a1, a2, ?_⟩
        intro e he
        rcases List.mem_cons.1 he with rfl | he
        · exact ⟨i, hi, a2.added i hadd⟩
        · exact a3 e he
      · next hadd =>
        simp only [bind_ok] at h
        obtain ⟨⟨rules1, more⟩, h1, rules2, h2, h⟩ := h
        simp only at h2 h
        obtain ⟨a1, a2⟩ := addRequires_spec hi h1
        obtain ⟨b1, b2, b3⟩ := addConflicts_spec hi h2
        have hc' : Closed pool (⟨rules2, sadd i g.added⟩ : Gen N U) (queue ++ more) := by
          intro k hk
          simp only [mem_sadd] at hk
          have push : ∀ q', Pushed pool g.added ((p, reqs) :: queue) q' →
              Pushed pool (sadd i g.added) (queue ++ more) q' := by
            rintro q' (⟨j, hj, hm⟩ | ⟨e, he, hk⟩)
            · exact Or.inl ⟨j, hj, by simp [hm]⟩
            · rcases List.mem_cons.1 he with rfl | he
              · exact Or.inl ⟨i, by rw [pool.packageId_congr (show q'.key = p.key from hk.symm)]; exact hi, by simp⟩
              · exact Or.inr ⟨e, by simp [he], hk⟩
          by_cases hki : k = i
          · subst hki
            refine ⟨p, hi, ?_, b2, b3⟩
            rcases a2 with ⟨a2, -⟩ | ⟨a2, -⟩
            · exact Or.inl (b1 _ a2)
            · refine Or.inr fun t ht => (a2 t ht).mono b1 fun q ⟨rq, hq⟩ => ?_
              exact Or.inr ⟨(q, rq), by simp [hq], rfl⟩
          · have hk' : k ∈ g.added := by
              rcases hk with e | hk
              · exact absurd e hki
              · exact hk
            obtain ⟨q, c1, c2, c3, c4⟩ := hc k hk'
            have hm := a1.trans b1
            refine ⟨q, c1, ?_, c3.mono hm, fun t ht => (c4 t ht).mono hm⟩
            rcases c2 with c2 | c2
            · exact Or.inl (hm _ c2)
            · exact Or.inr fun t ht => (c2 t ht).mono hm push
        obtain ⟨d1, d2, d3⟩ := ih h hc'
        refine ⟨d1, (⟨a1.trans b1, fun k hk => by simp [hk]⟩ : Ext g ⟨rules2, sadd i g.added⟩).trans d2, ?_⟩
        intro e he
        rcases List.mem_cons.1 he with rfl | he
        · exact ⟨i, hi, d2.added i (by simp)⟩
        · exact d3 e (by simp [he])

theorem Closed.start {pool : Pool N S U} {g : Gen N U} (h : Closed pool g []) (queue : List (Work N S U)) :
    Closed pool g queue := by
  intro i hi
  obtain ⟨p, h1, h2, h3⟩ := h i hi
  refine ⟨p, h1, ?_, h3⟩
  rcases h2 with h2 | h2
  · exact Or.inl h2
  · refine Or.inr fun t ht => (h2 t ht).mono (Mono.refl _) fun q hq => ?_
    rcases hq with hq | ⟨e, he, -⟩
    · exact Or.inl hq
    · simp at he

theorem Closed.addRule {pool : Pool N S U} {g : Gen N U} (h : Closed pool g []) (r : Rule N U) :
    Closed pool { g with rules := addRule r g.rules } [] := by
  intro i hi
  obtain ⟨p, h1, h2, h3, h4⟩ := h i hi
  have hm := addRule_mono r g.rules
  refine ⟨p, h1, ?_, h3.mono hm, fun t ht => (h4 t ht).mono hm⟩
  rcases h2 with h2 | h2
  · exact Or.inl (hm _ h2)
  · exact Or.inr fun t ht => (h2 t ht).mono hm fun q hq => hq

theorem addPackageRules_spec {strict : Bool} {pool : Pool N S U} {p : Package N S U} {reqs : Reqs N U} {g g' : Gen N U}
    (h : addPackageRules strict pool p reqs g = .ok g') (hc : Closed pool g []) :
    Closed pool g' [] ∧ Ext g g' ∧ ∃ j, pool.packageId p = .ok j ∧ j ∈ g'.added := by
  obtain ⟨h1, h2, h3⟩ := work_spec h (hc.start _)
  exact ⟨h1, h2, h3 (p, reqs) (by simp)⟩

theorem addCandidates_spec {strict : Bool} {pool : Pool N S U} {installed : Dict Nat (Package N S U)}
    {r : Requirement N U} {ps : List (Package N S U)} {g g' : Gen N U}
    (h : addCandidates strict pool installed r ps g = .ok g') (hc : Closed pool g []) :
    Closed pool g' [] ∧ Ext g g' ∧
      ∀ p ∈ ps, ∃ j, pool.packageId p = .ok j ∧ (j ∈ dkeys installed ∨ j ∈ g'.added) := by
  induction ps generalizing g with
  | nil => simp only [addCandidates, Except.ok.injEq] at h; subst h; exact ⟨hc, Ext.refl _, by simp⟩
  | cons p ps ih =>
    unfold addCandidates at h
    simp only [bind_ok] at h
    obtain ⟨i, hi, h⟩ := h
    split at h
    · next hin =>
      obtain ⟨a1, a2, a3⟩ := ih h hc
      refine ⟨a1, a2, ?_⟩
      intro q hq
      rcases List.mem_cons.1 hq with rfl | hq
      · exact ⟨i, hi, Or.inl hin⟩
      · exact a3 q hq
    · simp only [bind_ok] at h
      obtain ⟨g1, h1, h⟩ := h
      obtain ⟨b1, b2, j, hj, hj'⟩ := addPackageRules_spec h1 hc
      obtain ⟨a1, a2, a3⟩ := ih h b1
      refine ⟨a1, b2.trans a2, ?_⟩
      intro q hq
      rcases List.mem_cons.1 hq with rfl | hq
      · exact ⟨j, hj, Or.inr (a2.added j hj')⟩
      · exact a3 q hq

/-- what the rules say about a job -/
def JobDone (pool : Pool N S U) (installed : Dict Nat (Package N S U)) (g : Gen N U) (j : Job N U) : Prop :=
  match j.kind, j.requirement with
  | .install, some r | .softUpdate, some r => ∃ ps ids, pool.whatProvides r false = .ok ps ∧ ps ≠ [] ∧
      idsOfAll pool ps = .ok ids ∧ Has g.rules ids ∧
      ∀ p ∈ ps, ∃ j, pool.packageId p = .ok j ∧ (j ∈ dkeys installed ∨ j ∈ g.added)
  | .remove, some r => ∃ ps, pool.whatProvides r false = .ok ps ∧
      ∀ p ∈ ps, ∃ j : Nat, pool.packageId p = .ok j ∧ Has g.rules [-(j : Int)]
  | .hardUpdate, some r => ∃ ps, pool.whatProvides r false = .ok ps ∧ (ps = [] ∨
      ∃ p, maxPkg (updateKey pool installed) ps = .ok p ∧
        ∃ j : Nat, pool.packageId p = .ok j ∧ Has g.rules [(j : Int)] ∧ j ∈ g.added)
  | _, _ => False

theorem JobDone.ext {pool : Pool N S U} {installed : Dict Nat (Package N S U)} {g g' : Gen N U} {j : Job N U}
    (h : JobDone pool installed g j) (he : Ext g g') : JobDone pool installed g' j := by
  unfold JobDone at h ⊢
  split at h
  · obtain ⟨ps, ids, h1, h2, h3, h4, h5⟩ := h
    refine ⟨ps, ids, h1, h2, h3, he.rules _ h4, fun p hp => ?_⟩
    obtain ⟨j, k1, k2⟩ := h5 p hp
    exact ⟨j, k1, k2.imp id (he.added j)⟩
  · obtain ⟨ps, ids, h1, h2, h3, h4, h5⟩ := h
    refine ⟨ps, ids, h1, h2, h3, he.rules _ h4, fun p hp => ?_⟩
    obtain ⟨j, k1, k2⟩ := h5 p hp
    exact ⟨j, k1, k2.imp id (he.added j)⟩
  · obtain ⟨ps, h1, h2⟩ := h
    refine ⟨ps, h1, fun p hp => ?_⟩
    obtain ⟨j, k1, k2⟩ := h2 p hp
    exact ⟨j, k1, he.rules _ k2⟩
  · obtain ⟨ps, h1, h2⟩ := h
    refine ⟨ps, h1, ?_⟩
    rcases h2 with h2 | ⟨p, k1, j, k2, k3, k4⟩
    · exact Or.inl h2
    · exact Or.inr ⟨p, k1, j, k2, he.rules _ k3, he.added j k4⟩
  · exact h

theorem addInstallJob_spec {strict : Bool} {pool : Pool N S U} {installed : Dict Nat (Package N S U)}
    {r : Requirement N U} {g g' : Gen N U}
    (h : addInstallJob strict pool installed r g = .ok g') (hc : Closed pool g []) :
    Closed pool g' [] ∧ Ext g g' ∧ ∃ ps ids, pool.whatProvides r false = .ok ps ∧ ps ≠ [] ∧
      idsOfAll pool ps = .ok ids ∧ Has g'.rules ids ∧
      ∀ p ∈ ps, ∃ j, pool.packageId p = .ok j ∧ (j ∈ dkeys installed ∨ j ∈ g'.added) := by
  unfold addInstallJob at h
  simp only [bind_ok] at h
  obtain ⟨ps, hps, h⟩ := h
  split at h
  · simp at h
  · next hne =>
    simp only [bind_ok, installOneOfRule] at h
    obtain ⟨g1, h1, rule, ⟨ids, hids, hr⟩, h⟩ := h
    cases hr
    cases h
    obtain ⟨a1, a2, a3⟩ := addCandidates_spec h1 hc
    have hx : Ext g1 { g1 with rules := addRule (mkRule ids .jobInstall (some [r])) g1.rules } :=
      ⟨addRule_mono _ _, fun i hi => hi⟩
    refine ⟨a1.addRule _, a2.trans hx, ps, ids, hps, ?_, hids, addRule_has _ _ _ _, a3⟩
    intro e; simp [e] at hne

theorem addRemovals_spec {pool : Pool N S U} {r : Requirement N U} {ps : List (Package N S U)} {g g' : Gen N U}
    (h : addRemovals pool r ps g = .ok g') (hc : Closed pool g []) :
    Closed pool g' [] ∧ Ext g g' ∧ ∀ p ∈ ps, ∃ j : Nat, pool.packageId p = .ok j ∧ Has g'.rules [-(j : Int)] := by
  induction ps generalizing g with
  | nil => simp only [addRemovals, Except.ok.injEq] at h; subst h; exact ⟨hc, Ext.refl _, by simp⟩
  | cons p ps ih =>
    unfold addRemovals at h
    simp only [bind_ok, removeRule] at h
    obtain ⟨rule, ⟨i, hi, hr⟩, h⟩ := h
    cases hr
    have hx : Ext g { g with rules := addRule (mkRule [-(i : Int)] .jobRemove (some [r])) g.rules } :=
      ⟨addRule_mono _ _, fun i hi => hi⟩
    obtain ⟨a1, a2, a3⟩ := ih h (hc.addRule _)
    refine ⟨a1, hx.trans a2, ?_⟩
    intro q hq
    rcases List.mem_cons.1 hq with rfl | hq
    · exact ⟨i, hi, a2.rules _ (addRule_has _ _ _ _)⟩
    · exact a3 q hq

theorem addJob_spec {strict : Bool} {pool : Pool N S U} {installed : Dict Nat (Package N S U)} {j : Job N U}
    {g g' : Gen N U} (h : addJob strict pool installed j g = .ok g') (hc : Closed pool g []) :
    Closed pool g' [] ∧ Ext g g' ∧ JobDone pool installed g' j := by
  unfold addJob at h
  unfold JobDone
  split at h
  · next hk hr => simp only [hk, hr]; exact addInstallJob_spec h hc
  · next hk hr => simp only [hk, hr]; exact addInstallJob_spec h hc
  · next r hk hr =>
    simp only [hk, hr]
    simp only [addRemoveJob, bind_ok] at h
    obtain ⟨ps, hps, h⟩ := h
    obtain ⟨a1, a2, a3⟩ := addRemovals_spec h hc
    exact ⟨a1, a2, ps, hps, a3⟩
  · next r hk hr =>
    simp only [hk, hr]
    simp only [addUpdateJob, bind_ok] at h
    obtain ⟨ps, hps, h⟩ := h
    split at h
    · next he =>
      cases h
      exact ⟨hc, Ext.refl _, ps, hps, Or.inl (by simpa using he)⟩
    · simp only [bind_ok] at h
      obtain ⟨p, hp, g1, h1, i, hi, h⟩ := h
      cases h
      obtain ⟨a1, a2, i', hi', hadd⟩ := addPackageRules_spec h1 hc
      rw [hi] at hi'
      cases hi'
      have hx : Ext g1 { g1 with rules := addRule (mkRule [(i : Int)] .jobUpdate (some [r])) g1.rules } :=
        ⟨addRule_mono _ _, fun i hi => hi⟩
      exact ⟨a1.addRule _, a2.trans hx, ps, hps, Or.inr ⟨p, hp, i, hi, addRule_has _ _ _ _, hadd⟩⟩
  · simp at h
  · simp at h

theorem addJobs_spec {strict : Bool} {pool : Pool N S U} {installed : Dict Nat (Package N S U)} {js : List (Job N U)}
    {g g' : Gen N U} (h : addJobs strict pool installed js g = .ok g') (hc : Closed pool g []) :
    Closed pool g' [] ∧ Ext g g' ∧ ∀ j ∈ js, JobDone pool installed g' j := by
  induction js generalizing g with
  | nil => simp only [addJobs, Except.ok.injEq] at h; subst h; exact ⟨hc, Ext.refl _, by simp⟩
  | cons j js ih =>
    unfold addJobs at h
    simp only [bind_ok] at h
    obtain ⟨g1, h1, h⟩ := h
    obtain ⟨a1, a2, a3⟩ := addJob_spec h1 hc
    obtain ⟨b1, b2, b3⟩ := ih h a1
    refine ⟨b1, a2.trans b2, ?_⟩
    intro k hk
    rcases List.mem_cons.1 hk with rfl | hk
    · exact a3.ext b2
    · exact b3 k hk

theorem addOthers_spec {strict : Bool} {pool : Pool N S U} {ps : List (Package N S U)}
    {g g' : Gen N U} (h : addOthers strict pool ps g = .ok g') (hc : Closed pool g []) :
    Closed pool g' [] ∧ Ext g g' ∧ ∀ p ∈ ps, ∃ j, pool.packageId p = .ok j ∧ j ∈ g'.added := by
  induction ps generalizing g with
  | nil => simp only [addOthers, Except.ok.injEq] at h; subst h; exact ⟨hc, Ext.refl _, by simp⟩
  | cons j js ih =>
    unfold addOthers at h
    simp only [bind_ok] at h
    obtain ⟨g1, h1, h⟩ := h
    obtain ⟨a1, a2, i, a3, a4⟩ := addPackageRules_spec h1 hc
    obtain ⟨b1, b2, b3⟩ := ih h a1
    refine ⟨b1, a2.trans b2, ?_⟩
    intro k hk
    rcases List.mem_cons.1 hk with rfl | hk
    · exact ⟨i, a3, b2.added i a4⟩
    · exact b3 k hk

theorem addInstalled_spec {strict : Bool} {pool : Pool N S U} {ps : List (Package N S U)}
    {g g' : Gen N U} (h : addInstalled strict pool ps g = .ok g') (hc : Closed pool g []) :
    Closed pool g' [] ∧ Ext g g' ∧ ∀ p ∈ ps, (∃ j, pool.packageId p = .ok j ∧ j ∈ g'.added) ∧
      ∀ q ∈ pool.nameToPackages p.name, ∃ j, pool.packageId q = .ok j ∧ j ∈ g'.added := by
  induction ps generalizing g with
  | nil => simp only [addInstalled, Except.ok.injEq] at h; subst h; exact ⟨hc, Ext.refl _, by simp⟩
  | cons p ps ih =>
    unfold addInstalled at h
    simp only [bind_ok] at h
    obtain ⟨g1, h1, g2, h2, h⟩ := h
    obtain ⟨a1, a2, a3⟩ := addOthers_spec h1 hc
    obtain ⟨b1, b2, i, b3, b4⟩ := addPackageRules_spec h2 a1
    obtain ⟨c1, c2, c3⟩ := ih h b1
    refine ⟨c1, (a2.trans b2).trans c2, ?_⟩
    intro k hk
    rcases List.mem_cons.1 hk with rfl | hk
    · refine ⟨⟨i, b3, c2.added i b4⟩, fun q hq => ?_⟩
      obtain ⟨j, hj, hj'⟩ := a3 q hq
      exact ⟨j, hj, c2.added j (b2.added j hj')⟩
    · exact c3 k hk

/-- all that is known about the rules -/
theorem iterRules_spec {strict : Bool} {pool : Pool N S U} {jobs : List (Job N U)}
    {installed : Dict Nat (Package N S U)} {g : Gen N U} (h : iterRules strict pool jobs installed = .ok g) :
    Closed pool g [] ∧ (∀ j ∈ jobs, JobDone pool installed g j) ∧
      ∀ p ∈ installed.map Prod.snd, (∃ j, pool.packageId p = .ok j ∧ j ∈ g.added) ∧
        ∀ q ∈ pool.nameToPackages p.name, ∃ j, pool.packageId q = .ok j ∧ j ∈ g.added := by
  unfold iterRules at h
  simp only [bind_ok] at h
  obtain ⟨g1, h1, h⟩ := h
  obtain ⟨a1, a2, a3⟩ := addJobs_spec h1 (by intro i hi; simp at hi)
  obtain ⟨b1, b2, b3⟩ := addInstalled_spec h a1
  exact ⟨b1, fun j hj => (a3 j hj).ext b2, b3⟩

end Verif.Rules
