import Verif.Solve.UnsatSpec
import Verif.Sat.ProvEntails
/-
Nothing is missing from the clauses that an explanation starts from: the dictionaries with which UNSAT avoids repeated work
are not complete for every clause, but what one call leaves out another one has reported.
-/
set_option linter.unusedSectionVars false
namespace Verif.Solve
open Verif Verif.Pkg Verif.Graph Verif.Rules

variable {N S U : Type} [LinearOrder N] [DecidableEq S] [LinearOrder U] [Syntax S U]

theorem in_sadd {x c : Nat} {l : List Nat} (h : x ∈ sadd c l) : x ∈ l ∨ x = c := Or.symm ((mem_sadd _ _ _).1 h)

/-- every clause that is not learned and was used for `c` is among `E` -/
def Below (e : Evidence N U) (c : Nat) (E : List Nat) : Prop := ∀ d, e.learned d = false → Uses e c d → d ∈ E

theorem Below.mono {e : Evidence N U} {c : Nat} {E E' : List Nat} (h : Below e c E) (hE : ∀ d ∈ E, d ∈ E') : Below e c E' :=
  fun d h1 h2 => hE d (h d h1 h2)

theorem below_plain {e : Evidence N U} {c : Nat} (hc : e.learned c = false) (E : List Nat) : Below e c E := by
  intro d _ hu
  cases hu with
  | direct a1 _ _ => rw [hc] at a1; cases a1
  | step a1 _ _ _ => rw [hc] at a1; cases a1

/-- the trail is complete if it is for the learned clauses and has the others -/
theorem below_of_trail {e : Evidence N U} {c : Nat} {ts E : List Nat} (hts : dget e.trails c = some ts)
    (h : ∀ t ∈ ts, Below e t E ∧ (e.learned t = false → t ∈ E)) : Below e c E := by
  intro d hd hu
  cases hu with
  | direct _ a2 a3 => rw [hts] at a2; cases a2; exact (h d a3).2 hd
  | step _ a2 a3 a4 => rw [hts] at a2; cases a2; exact (h _ a3).1 d hd a4

/-- what the dictionary of trails knows about is among `E` -/
def FlatIn (e : Evidence N U) (m : Memo) (E : List Nat) : Prop := ∀ c t, dget m.flat c = some t → Below e c E

theorem FlatIn.mono {e : Evidence N U} {m : Memo} {E E' : List Nat} (h : FlatIn e m E) (hE : ∀ d ∈ E, d ∈ E') : FlatIn e m E' :=
  fun c t hc => (h c t hc).mono hE

theorem FlatIn.set {e : Evidence N U} {m : Memo} {E : List Nat} (h : FlatIn e m E) {c : Nat} {t : List Nat}
    (hc : Below e c E) : FlatIn e { m with flat := dset m.flat c t } E := by
  intro d u hu
  rw [dget_dset] at hu
  split at hu
  · next heq => subst heq; exact hc
  · exact h d u hu

theorem trailLoop_complete {e : Evidence N U} {self} {c : Nat} {E : List Nat}
    (hself : ∀ t, t < c → ∀ ign m E, FlatIn e m E → (∀ x ∈ ign, x ≤ t → Below e x E) → ∀ u ign' m',
      self t ign m = .ok (u, ign', m') → FlatIn e m' (E ++ u) ∧ Below e t (E ++ u) ∧
        ∀ x ∈ ign', x ∈ ign ∨ Below e x (E ++ u)) :
    ∀ (ts flat ign : List Nat) (m : Memo), (∀ t ∈ ts, t < c) → FlatIn e m (E ++ flat) →
      (∀ x ∈ ign, x < c → Below e x (E ++ flat)) → ∀ u ign' m', trailLoop e self ts flat ign m = .ok (u, ign', m') →
      FlatIn e m' (E ++ u) ∧ (∀ d ∈ flat, d ∈ u) ∧ (∀ t ∈ ts, Below e t (E ++ u) ∧ (e.learned t = false → t ∈ E ++ u)) ∧
        ∀ x ∈ ign', x ∈ ign ∨ Below e x (E ++ u)
  | [], flat, ign, m, _, hm, hi, u, ign', m', h => by
    unfold trailLoop at h
    cases h
    exact ⟨hm, fun d hd => hd, by simp, fun x hx => Or.inl hx⟩
  | t :: ts, flat, ign, m, hts, hm, hi, u, ign', m', h => by
    have htc := hts t (by simp)
    unfold trailLoop at h
    split at h
    · next hl =>
      split at h
      · cases h
      · next fs ign1 m1 hs1 =>
        obtain ⟨k1, k2, k3⟩ := hself t htc ign m _ hm (fun x hx hxt => hi x hx (by omega)) _ _ _ hs1
        rw [List.append_assoc] at k1 k2 k3
        have hi' : ∀ x ∈ sadd t ign1, x ∈ ign ∨ Below e x (E ++ (flat ++ fs)) := by
          intro x hx
          rcases in_sadd hx with hx | rfl
          · exact k3 x hx
          · exact Or.inr k2
        obtain ⟨j1, j2, j3, j4⟩ := trailLoop_complete hself ts _ _ _ (fun x hx => hts x (by simp [hx])) k1
          (fun x hx hxc => by
            rcases hi' x hx with k | k
            · refine (hi x k hxc).mono ?_
              intro d hd; simp only [List.mem_append] at hd ⊢; grind
            · exact k) _ _ _ h
        have hsub : ∀ d ∈ E ++ (flat ++ fs), d ∈ E ++ u := by
          intro d hd
          rcases List.mem_append.1 hd with hd | hd
          · simp [hd]
          · simp [j2 d hd]
        refine ⟨j1, fun d hd => j2 d (by simp [hd]), ?_, ?_⟩
        · intro x hx
          rcases List.mem_cons.1 hx with rfl | hx
          · exact ⟨k2.mono hsub, by rw [hl]; intro hf; cases hf⟩
          · exact j3 x hx
        · intro x hx
          rcases j4 x hx with k | k
          · rcases hi' x k with k | k
            · exact Or.inl k
            · exact Or.inr (k.mono hsub)
          · exact Or.inr k
    · next hl =>
      have hl : e.learned t = false := by simpa using hl
      have hsub0 : ∀ d ∈ E ++ flat, d ∈ E ++ (flat ++ [t]) := by
        intro d hd; simp only [List.mem_append] at hd ⊢; grind
      obtain ⟨j1, j2, j3, j4⟩ := trailLoop_complete hself ts _ _ _ (fun x hx => hts x (by simp [hx])) (hm.mono hsub0)
        (fun x hx hxc => by
          rcases in_sadd hx with k | rfl
          · exact (hi x k hxc).mono hsub0
          · exact below_plain hl _) _ _ _ h
      refine ⟨j1, fun d hd => j2 d (by simp [hd]), ?_, ?_⟩
      · intro x hx
        rcases List.mem_cons.1 hx with rfl | hx
        · exact ⟨below_plain hl _, fun _ => List.mem_append.2 (Or.inr (j2 x (by simp)))⟩
        · exact j3 x hx
      · intro x hx
        rcases j4 x hx with k | k
        · rcases in_sadd k with k | rfl
          · exact Or.inl k
          · exact Or.inr (below_plain hl _)
        · exact Or.inr k

theorem clauseTrail_complete {e : Evidence N U} {n : Nat} (hs : Sane e n) :
    ∀ (fuel c : Nat), c < n → ∀ ign m E, FlatIn e m E → (∀ x ∈ ign, x ≤ c → Below e x E) → ∀ u ign' m',
      clauseTrail e fuel c ign m = .ok (u, ign', m') → FlatIn e m' (E ++ u) ∧ Below e c (E ++ u) ∧
        ∀ x ∈ ign', x ∈ ign ∨ Below e x (E ++ u)
  | 0, c, _, _, _, _, _, _, _, _, _, h => by cases h
  | fuel + 1, c, hn, ign, m, E, hm, hi, u, ign', m', h => by
    unfold clauseTrail at h
    split at h
    · next hc =>
      cases h
      simp only [List.append_nil]
      exact ⟨hm, hi c hc (Nat.le_refl _), fun x hx => Or.inl hx⟩
    · simp only at h
      split at h
      · next flat hg =>
        cases h
        have hsub : ∀ d ∈ E, d ∈ E ++ u := fun d hd => by simp [hd]
        refine ⟨hm.mono hsub, (hm c _ hg).mono hsub, ?_⟩
        intro x hx
        rcases in_sadd hx with k | rfl
        · exact Or.inl k
        · exact Or.inr ((hm x _ hg).mono hsub)
      · split at h
        · next hl =>
          obtain ⟨ts, h1, h2⟩ := hs.trail c hn hl
          simp only [h1] at h
          split at h
          · cases h
          · next flat ign1 m1 hloop =>
            cases h
            obtain ⟨k1, k2, k3, k4⟩ := trailLoop_complete (self := clauseTrail e fuel) (c := c) (E := E)
              (fun t ht ign m E hm hi u ign' m' h => clauseTrail_complete hs fuel t (by omega) ign m E hm hi u ign' m' h)
              ts [] (sadd c ign) m h2 (by simpa using hm) (by
                intro x hx hxc
                simp only [List.append_nil]
                rcases in_sadd hx with k | rfl
                · exact hi x k (by omega)
                · omega) _ _ _ hloop
            have hb := below_of_trail h1 k3
            refine ⟨k1.set hb, hb, ?_⟩
            intro x hx
            rcases k4 x hx with k | k
            · rcases in_sadd k with k | rfl
              · exact Or.inl k
              · exact Or.inr hb
            · exact Or.inr k
        · next hl =>
          have hl : e.learned c = false := by simpa using hl
          cases h
          simp only [List.append_nil]
          refine ⟨hm.set (below_plain hl _), below_plain hl _, ?_⟩
          intro x hx
          rcases in_sadd hx with k | rfl
          · exact Or.inl k
          · exact Or.inr (below_plain hl _)

/-- The clauses with requirements used for `c`, and `c` itself, are among `A`. -/
def ReqsIn (e : Evidence N U) (c : Nat) (A : List Nat) : Prop := ∀ d, e.hasReqs d = true → (d = c ∨ Uses e c d) → d ∈ A

/-- both dictionaries know about nothing else than what has been reported in `A` -/
structure Reported (e : Evidence N U) (m : Memo) (A : List Nat) : Prop where
  flat : ∃ E, FlatIn e m E ∧ ∀ d ∈ E, e.hasReqs d = true → d ∈ A
  reqs : ∀ c t, dget m.reqs c = some t → ReqsIn e c A
  own : ∀ c t, dget m.reqs c = some t → e.learned c = false → e.hasReqs c = true → c ∈ t

theorem hasReqs_plain {e : Evidence N U} {n : Nat} (hs : Sane e n) {c : Nat} (hc : c < n) (h : e.hasReqs c = true) :
    e.learned c = false := by
  cases hl : e.learned c with
  | false => rfl
  | true =>
    obtain ⟨r, k, -⟩ := (hasReqs_iff e c).1 h
    rw [hs.rule c hc hl] at k
    cases k

theorem reqsIn_plain {e : Evidence N U} {c : Nat} {A : List Nat} (hl : e.learned c = false)
    (h : e.hasReqs c = true → c ∈ A) : ReqsIn e c A := by
  rintro d hd (rfl | hu)
  · exact h hd
  · cases hu with
    | direct a1 _ _ => rw [hl] at a1; cases a1
    | step a1 _ _ _ => rw [hl] at a1; cases a1

theorem ReqsIn.mono {e : Evidence N U} {c : Nat} {A A' : List Nat} (h : ReqsIn e c A) (hA : ∀ d ∈ A, d ∈ A') : ReqsIn e c A' :=
  fun d h1 h2 => hA d (h d h1 h2)

theorem Reported.mono {e : Evidence N U} {m : Memo} {A A' : List Nat} (h : Reported e m A) (hA : ∀ d ∈ A, d ∈ A') :
    Reported e m A' := by
  obtain ⟨E, h1, h2⟩ := h.flat
  exact ⟨⟨E, h1, fun d hd hr => hA d (h2 d hd hr)⟩, fun c t hc => (h.reqs c t hc).mono hA, h.own⟩

/-- a clause that is not learned -/
theorem clauseRequirements_plain {e : Evidence N U} {fuel c : Nat} (hl : e.learned c = false) {ign : List Nat} {m : Memo}
    (hown : ∀ c t, dget m.reqs c = some t → e.learned c = false → e.hasReqs c = true → c ∈ t) {u ign' m'}
    (h : clauseRequirements e fuel c ign m = .ok (u, ign', m')) :
    m'.flat = m.flat ∧ (c ∉ ign → e.hasReqs c = true → c ∈ u) ∧ (∀ x ∈ ign', x ∈ ign ∨ x = c) ∧
      (∀ x t, dget m'.reqs x = some t → dget m.reqs x = some t ∨ x = c) ∧
      (∀ c t, dget m'.reqs c = some t → e.learned c = false → e.hasReqs c = true → c ∈ t) := by
  cases fuel with
  | zero => cases h
  | succ fuel =>
    unfold clauseRequirements at h
    split at h
    · next hc =>
      cases h
      exact ⟨rfl, fun k => absurd hc k, fun x hx => Or.inl hx, fun x t k => Or.inl k, hown⟩
    · simp only [hl, Bool.false_eq_true, if_false] at h
      split at h
      · next reqs hg =>
        cases h
        refine ⟨rfl, fun _ hr => hown c _ hg hl hr, ?_, fun x t k => Or.inl k, hown⟩
        intro x hx
        exact in_sadd hx
      · cases h
        refine ⟨rfl, fun _ hr => by rw [if_pos hr]; simp, fun x hx => in_sadd hx, ?_, ?_⟩
        · intro x t k
          rw [dget_dset] at k
          split at k
          · next heq => exact Or.inr heq.symm
          · exact Or.inl k
        · intro x t k hx hr
          rw [dget_dset] at k
          split at k
          · next heq =>
            subst heq
            cases k
            rw [if_pos hr]
            simp
          · exact hown x t k hx hr

theorem reqLoop_complete {e : Evidence N U} {fuel : Nat} :
    ∀ (ts reqs ign : List Nat) (m : Memo), (∀ t ∈ ts, e.learned t = false) →
      (∀ c t, dget m.reqs c = some t → e.learned c = false → e.hasReqs c = true → c ∈ t) → ∀ u ign' m',
      reqLoop (clauseRequirements e fuel) ts reqs ign m = .ok (u, ign', m') →
      m'.flat = m.flat ∧ (∀ d ∈ reqs, d ∈ u) ∧ (∀ t ∈ ts, e.hasReqs t = true → t ∈ u ∨ t ∈ ign) ∧
        (∀ x t, dget m'.reqs x = some t → dget m.reqs x = some t ∨ x ∈ ts) ∧
        (∀ c t, dget m'.reqs c = some t → e.learned c = false → e.hasReqs c = true → c ∈ t)
  | [], reqs, ign, m, _, ho, u, ign', m', h => by
    unfold reqLoop at h
    cases h
    exact ⟨rfl, fun d hd => hd, by simp, fun x t k => Or.inl k, ho⟩
  | t :: ts, reqs, ign, m, hts, ho, u, ign', m', h => by
    unfold reqLoop at h
    split at h
    · cases h
    · next rs ign1 m1 h1 =>
      obtain ⟨k1, k2, k3, k4, k5⟩ := clauseRequirements_plain (hts t (by simp)) ho h1
      obtain ⟨j1, j2, j3, j4, j5⟩ := reqLoop_complete ts _ _ _ (fun x hx => hts x (by simp [hx])) k5 _ _ _ h
      refine ⟨j1.trans k1, fun d hd => j2 d (by simp [hd]), ?_, ?_, j5⟩
      · have ht : e.hasReqs t = true → t ∈ u ∨ t ∈ ign := by
          intro hr
          by_cases hti : t ∈ ign
          · exact Or.inr hti
          · exact Or.inl (j2 t (by simp [k2 hti hr]))
        intro x hx hr
        rcases List.mem_cons.1 hx with rfl | hx
        · exact ht hr
        · rcases j3 x hx hr with k | k
          · exact Or.inl k
          · rcases k3 x k with k | rfl
            · exact Or.inr k
            · exact ht hr
      · intro x t' k
        rcases j4 x t' k with k | k
        · rcases k4 x t' k with k | rfl
          · exact Or.inl k
          · exact Or.inr (by simp)
        · exact Or.inr (by simp [k])

theorem trailLoop_reqs {e : Evidence N U} {self}
    (hself : ∀ t ign m u ign' m', self t ign m = .ok (u, ign', m') → m'.reqs = m.reqs) :
    ∀ (ts flat ign : List Nat) (m : Memo) u ign' m', trailLoop e self ts flat ign m = .ok (u, ign', m') → m'.reqs = m.reqs
  | [], flat, ign, m, u, ign', m', h => by
    unfold trailLoop at h
    cases h
    rfl
  | t :: ts, flat, ign, m, u, ign', m', h => by
    unfold trailLoop at h
    split at h
    · split at h
      · cases h
      · next h1 => exact (trailLoop_reqs hself ts _ _ _ _ _ _ h).trans (hself _ _ _ _ _ _ h1)
    · exact trailLoop_reqs hself ts _ _ _ _ _ _ h

theorem clauseTrail_reqs {e : Evidence N U} : ∀ (fuel c : Nat) ign (m : Memo) u ign' m',
    clauseTrail e fuel c ign m = .ok (u, ign', m') → m'.reqs = m.reqs
  | 0, c, ign, m, u, ign', m', h => by cases h
  | fuel + 1, c, ign, m, u, ign', m', h => by
    unfold clauseTrail at h
    split at h
    · cases h; rfl
    · simp only at h
      split at h
      · cases h; rfl
      · split at h
        · split at h
          · cases h
          · split at h
            · cases h
            · next hloop =>
              cases h
              have := trailLoop_reqs (self := clauseTrail e fuel)
                (fun t ign m u ign' m' h => clauseTrail_reqs fuel t ign m u ign' m' h) _ _ _ _ _ _ _ hloop
              exact this
        · cases h; rfl

/-- A call from outside reports whatever no earlier call has reported. -/
theorem clauseRequirements_complete {e : Evidence N U} {n : Nat} (hs : Sane e n) {fuel c : Nat} (hc : c < n) {m : Memo}
    {A : List Nat} (hR : Reported e m A) (hM : MemoOK e m) {u ign' m'}
    (h : clauseRequirements e fuel c [] m = .ok (u, ign', m')) : Reported e m' (A ++ u) ∧ ReqsIn e c (A ++ u) := by
  have hA : ∀ d ∈ A, d ∈ A ++ u := fun d hd => by simp [hd]
  cases hl : e.learned c with
  | false =>
    obtain ⟨k1, k2, k3, k4, k5⟩ := clauseRequirements_plain hl hR.own h
    have hcA : ReqsIn e c (A ++ u) := reqsIn_plain hl (fun hr => by simp [k2 (by simp) hr])
    obtain ⟨E, h1, h2⟩ := hR.flat
    refine ⟨⟨⟨E, ?_, fun d hd hr => hA d (h2 d hd hr)⟩, ?_, k5⟩, hcA⟩
    · intro x t hx; rw [k1] at hx; exact h1 x t hx
    · intro x t hx
      rcases k4 x t hx with k | rfl
      · exact (hR.reqs x t k).mono hA
      · exact hcA
  | true =>
    cases fuel with
    | zero => cases h
    | succ fuel =>
      unfold clauseRequirements at h
      rw [if_neg (by simp)] at h
      simp only [hl, if_true] at h
      split at h
      · next reqs hg =>
        cases h
        exact ⟨hR.mono hA, (hR.reqs c _ hg).mono hA⟩
      · split at h
        · cases h
        · next trail i1 m1 ht =>
          split at h
          · cases h
          · next reqs i2 m2 hr =>
            cases h
            obtain ⟨E, h1, h2⟩ := hR.flat
            obtain ⟨t0, i0, m0, g1, g2, g3, -⟩ := clauseTrail_spec hs (c + 1) c (by omega) hc [] m hM
            rw [ht] at g1
            cases g1
            obtain ⟨k1, k2, -⟩ := clauseTrail_complete hs (c + 1) c hc [] m E h1 (by simp) _ _ _ ht
            have hreqs1 : m1.reqs = m.reqs := clauseTrail_reqs _ _ _ _ _ _ _ ht
            obtain ⟨j1, j2, j3, j4, j5⟩ := reqLoop_complete trail _ _ _ (fun t ht => (g3 t ht).1)
              (by rw [hreqs1]; exact hR.own) _ _ _ hr
            have htr : ∀ t ∈ trail, e.hasReqs t = true → t ∈ A ++ u := by
              intro t hmem hr
              rcases j3 t hmem hr with k | k
              · simp [k]
              · have : t = c := by
                  rcases in_sadd k with k | k
                  · cases k
                  · exact k
                subst this
                have := (g3 t hmem).1
                rw [hl] at this
                cases this
            have hE : ∀ d ∈ E ++ trail, e.hasReqs d = true → d ∈ A ++ u := by
              intro d hd hr
              rcases List.mem_append.1 hd with hd | hd
              · exact hA d (h2 d hd hr)
              · exact htr d hd hr
            have hcA : ReqsIn e c (A ++ u) := by
              rintro d hd (rfl | hu)
              · rw [hasReqs_plain hs hc hd] at hl; cases hl
              · exact hE d (k2 d (hasReqs_plain hs (uses_lt hs hu hc) hd) hu) hd
            refine ⟨⟨⟨E ++ trail, ?_, hE⟩, ?_, ?_⟩, hcA⟩
            · intro x t hx
              rw [show ({ m2 with reqs := dset m2.reqs c u } : Memo).flat = m2.flat from rfl, j1] at hx
              exact k1 x t hx
            · intro x t hx
              rw [dget_dset] at hx
              split at hx
              · next heq => subst heq; exact hcA
              · rcases j4 x t hx with k | k
                · rw [hreqs1] at k
                  exact (hR.reqs x t k).mono hA
                · exact reqsIn_plain (g3 x k).1 (fun hr => htr x k hr)
            · intro x t hx hxl hxr
              rw [dget_dset] at hx
              split at hx
              · next heq => subst heq; rw [hl] at hxl; cases hxl
              · exact j5 x t hx hxl hxr

/-- The clauses that an explanation starts from are exactly those with requirements that are involved in the conflict. -/
theorem mkExplanation_complete {rules : List (Rule N U)} {sv : Sat.Solver} {o : XOrders} {conflict learned : Nat}
    (h : Sat.Solver.Prov (rules.map Rule.literals) sv) (hc : conflict < sv.nextId) (hl : learned < sv.nextId)
    {x : Explanation N U} (hx : mkExplanation o (evidenceOf sv rules) conflict learned = .ok x) :
    ∀ c, c ∈ x.details ↔ x.evidence.hasReqs c = true ∧ Involved x.evidence conflict learned x.implicand c := by
  have hs := sane_of_prov h rules
  have hasg : ∀ v c, (evidenceOf sv rules).assigning v = some c → c < sv.nextId := h.assigned
  generalize he : evidenceOf sv rules = e at hs hx hasg
  unfold mkExplanation at hx
  split at hx
  · next l hlits =>
    split at hx
    · cases hx
    · next a ha =>
      have han := hasg _ _ ha
      obtain ⟨r1, i1, m1, a1, a2, a3⟩ := clauseRequirements_spec hs 2 a (by omega) (by omega) han [] ⟨[], []⟩ (MemoOK.empty e)
      obtain ⟨r2, i2, m2, b1, b2, b3⟩ := clauseRequirements_spec hs 2 learned (by omega) (by omega) hl [] m1 a2
      obtain ⟨r3, i3, m3, c1, c2, c3⟩ := clauseRequirements_spec hs 2 conflict (by omega) (by omega) hc [] m2 b2
      have h0 : Reported e ⟨[], []⟩ [] :=
        ⟨⟨[], (by intro c t k; cases k), by simp⟩, (by intro c t k; cases k), (by intro c t k; cases k)⟩
      obtain ⟨d1, d2⟩ := clauseRequirements_complete hs han h0 (MemoOK.empty e) a1
      obtain ⟨e1, e2⟩ := clauseRequirements_complete hs hl d1 a2 b1
      obtain ⟨f1, f2⟩ := clauseRequirements_complete hs hc e1 b2 c1
      simp only [a1, b1, c1] at hx
      split at hx
      · cases hx
      · next paths hp =>
        cases hx
        intro c
        simp only [List.nil_append] at d2 e2 f2 ⊢
        constructor
        · intro hmem
          simp only [List.mem_append] at hmem
          rcases hmem with (hm | hm) | hm
          · exact ⟨(a3 c hm).1, a, .assigning ha, (a3 c hm).2⟩
          · exact ⟨(b3 c hm).1, learned, .learned, (b3 c hm).2⟩
          · exact ⟨(c3 c hm).1, conflict, .conflict, (c3 c hm).2⟩
        · rintro ⟨k1, b, k2, k3⟩
          cases k2 with
          | conflict => exact f2 c k1 k3
          | learned => exact List.mem_append.2 (Or.inl (e2 c k1 k3))
          | assigning k =>
            rw [ha] at k
            cases k
            exact List.mem_append.2 (Or.inl (List.mem_append.2 (Or.inl (d2 c k1 k3))))
  · cases hx

/-! ### what the trails justify -/

/-- The rules used for a learned clause justify it: an assignment that satisfies all of them satisfies the clause. -/
theorem uses_justify {rules : List (Rule N U)} {sv : Sat.Solver} (h : Sat.Solver.Prov (rules.map Rule.literals) sv)
    (hj : sv.Justified) {m : Nat → Bool} : ∀ (n c : Nat), c < n → c < sv.nextId → (evidenceOf sv rules).learned c = true →
      (∀ d r, Uses (evidenceOf sv rules) c d → (evidenceOf sv rules).rule d = some r → Sat.SatC m r.literals) →
      Sat.SatC m ((evidenceOf sv rules).lits c)
  | 0, c, hn, _, _, _ => by omega
  | n + 1, c, hn, hc, hl, hm => by
    have hs := sane_of_prov h rules
    obtain ⟨ts, h1, h2⟩ := hs.trail c hc hl
    refine hj (c, ts) (mem_of_dget h1) m ?_
    intro d hd hd0
    have hdc := h2 d hd
    cases hdl : (evidenceOf sv rules).learned d with
    | true =>
      refine uses_justify h hj n d (by omega) (by omega) hdl ?_
      intro b r hu hr
      exact hm b r (.step hl h1 hd hu) hr
    | false =>
      rcases h.cell d (by omega) (by omega) with ⟨k1, -, -⟩ | ⟨-, j, lits, k1, k2, k3⟩
      · have k1' : (sv.heap d).learned = false := hdl
        rw [k1] at k1'; cases k1'
      · rw [List.getElem?_map] at k2
        cases hr : rules[j]? with
        | none => rw [hr] at k2; cases k2
        | some r =>
          rw [hr] at k2
          cases k2
          have hrule : (evidenceOf sv rules).rule d = some r := by
            show ((sv.heap d).rule).bind (fun i => rules[i]?) = some r
            rw [k1]
            exact hr
          obtain ⟨l, g1, g2⟩ := hm d r (.direct hl h1 hd) hrule
          exact ⟨l, k3.mem_iff.2 ((mem_fromkeys _ _).2 g1), g2⟩

end Verif.Solve
