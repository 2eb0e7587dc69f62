import Verif.Sat.Policy
import Mathlib.Data.Nat.Basic
/-
Property C59: what the package policy proposes once the installed packages and the requirements are decided. It is
stated over arbitrary histories of questions put to the policy, whatever the solver does in between.
-/
namespace Verif.Props
open Verif Verif.Sat

variable {V : Type} [LinearOrder V] {ver : Int → Option V} {order : Nat → List Int → List Int}

/-! #### Specification -/

/-- `x` occurs in a clause of `cs` none of whose literals is true under `a` -/
def InOpenClause (a : ASet) (cs : List Clause) (x : Int) : Prop :=
  ∃ c ∈ cs, (∀ l ∈ c.lits, a.value l ≠ some true) ∧ ∃ l ∈ c.lits, iabs l = x

/-- `p` has maximal version among the unassigned members of `S` -/
def Newest (ver : Int → Option V) (a : ASet) (S : Int → Prop) (p : Int) : Prop :=
  S p ∧ p ∉ a.assigned ∧ ∃ vp, ver p = some vp ∧ ∀ q, S q → q ∉ a.assigned → ∃ vq, ver q = some vq ∧ vq ≤ vp

/-- `Asked st H`: the policy reached the state `st` by answering the questions `H`, latest first. -/
inductive Asked (ver : Int → Option V) (order : Nat → List Int → List Int) (prefer reqs : List Int) :
    PolState → List (ASet × List Clause) → Prop
  | start : Asked ver order prefer reqs (PolState.start prefer reqs) []
  | step {st H a cs st' a' p} : Asked ver order prefer reqs st H →
      (packagePolicy ver order).next st a cs = .ok (st', a', p) → Asked ver order prefer reqs st' ((a, cs) :: H)

/-! #### Proofs -/

theorem maxByFrom_ok {l : List Int} {b p : Int} {vb : V} (hb : ver b = some vb)
    (h : maxByFrom ver l (b, vb) = .ok p) : ∀ x ∈ l, (ver x).isSome := by
  induction l generalizing b vb with
  | nil => simp
  | cons x l ih =>
    simp only [maxByFrom] at h
    cases hx : ver x with
    | none => rw [hx] at h; simp at h
    | some v =>
      rw [hx] at h
      simp only at h
      intro y hy
      rcases List.mem_cons.1 hy with rfl | hy
      · simp [hx]
      · split at h
        · exact ih hx h y hy
        · exact ih hb h y hy

theorem bestCandidate_some {ord : List Int → List Int} (hord : ∀ l, (ord l).Perm l) {ids : List Int} {a : ASet} {p : Int}
    (h : bestCandidate ver ord ids a = .ok (some p)) : Newest ver a (· ∈ ids) p := by
  have hv : ∀ x ∈ ids, x ∉ a.assigned → (ver x).isSome := by
    intro x hx hxa
    have hm : x ∈ ord (withoutAssigned ids a) := by rw [(hord _).mem_iff]; simp [withoutAssigned, hx, hxa]
    unfold bestCandidate at h
    cases ho : ord (withoutAssigned ids a) with
    | nil => rw [ho] at hm; simp at hm
    | cons y l =>
      rw [ho] at h hm
      simp only [maxBy] at h
      cases hy : ver y with
      | none => rw [hy] at h; simp at h
      | some vy =>
        rw [hy] at h
        simp only at h
        cases hf : maxByFrom ver l (y, vy) with
        | error e => rw [hf] at h; simp [Except.map] at h
        | ok q =>
          rcases List.mem_cons.1 hm with rfl | hm
          · simp [hy]
          · exact maxByFrom_ok hy hf x hm
  have e : bestCandidate ver ord ids a = bestCandidate ver ord (withoutAssigned ids a) a := by
    unfold bestCandidate withoutAssigned
    simp
  rw [e] at h
  rcases bestCandidate_spec ver ord hord (withoutAssigned ids a) a (fun x hx => by
    simp only [withoutAssigned, List.mem_filter, decide_eq_true_eq] at hx
    exact hv x hx.1 hx.2) with ⟨h1, -⟩ | ⟨p', vp, h1, h2, h3, h4, h5⟩
  · rw [h1] at h; simp at h
  · rw [h1] at h
    simp only [Except.ok.injEq, Option.some.injEq] at h
    subst h
    simp only [withoutAssigned, List.mem_filter, decide_eq_true_eq] at h2 h5
    refine ⟨h2.1, h3, vp, h4, ?_⟩
    intro q hq hqa
    obtain ⟨vq, hvq⟩ := Option.isSome_iff_exists.1 (hv q hq hqa)
    exact ⟨vq, hvq, h5 q ⟨hq, hqa⟩ hqa vq hvq⟩

theorem bestCandidate_none {ord : List Int → List Int} (hord : ∀ l, (ord l).Perm l) {ids : List Int} {a : ASet}
    (h : bestCandidate ver ord ids a = .ok none) : ∀ x ∈ ids, x ∈ a.assigned := by
  intro x hx
  apply Classical.byContradiction
  intro hxa
  have hm : x ∈ ord (withoutAssigned ids a) := by rw [(hord _).mem_iff]; simp [withoutAssigned, hx, hxa]
  unfold bestCandidate at h
  cases ho : ord (withoutAssigned ids a) with
  | nil => rw [ho] at hm; simp at hm
  | cons y l =>
    rw [ho] at h
    simp only [maxBy] at h
    cases hy : ver y with
    | none => rw [hy] at h; simp at h
    | some vy =>
      rw [hy] at h
      simp only at h
      cases hf : maxByFrom ver l (y, vy) <;> rw [hf] at h <;> simp [Except.map] at h

theorem mem_refresh (st : PolState) (a : ASet) (cs : List Clause) (x : Int) :
    x ∈ (refresh st a cs).1.decisionSet ↔ InOpenClause a cs x ∧ x ∉ a.assigned := by
  unfold refresh InOpenClause
  simp only [List.mem_filter, mem_fromkeys, List.mem_flatMap, List.mem_map, decide_eq_true_eq, Bool.not_eq_true',
    List.any_eq_false]
  have hs := a.consumeChangelog_same
  unfold ASet.value
  rw [hs.assigned, hs.data]
  constructor
  · rintro ⟨⟨c, ⟨h1, h2⟩, h3⟩, h4⟩; exact ⟨⟨c, h1, h2, h3⟩, h4⟩
  · rintro ⟨⟨c, h1, h2, h3⟩, h4⟩; exact ⟨⟨c, ⟨h1, h2⟩, h3⟩, h4⟩

theorem Newest.congr {a a' : ASet} (e : a'.assigned = a.assigned) {S : Int → Prop} {p : Int}
    (h : Newest ver a' S p) : Newest ver a S p := by
  unfold Newest at *; rw [e] at h; exact h

theorem checkChoice_some {st st' : PolState} {a a' : ASet} {c : Option Int} {p : Int}
    (h : checkChoice st a c = .ok (st', a', p)) : st' = st ∧ c = some p := by
  unfold checkChoice at h
  cases c with
  | none => simp at h
  | some q =>
    simp only at h
    split at h
    · simp only [Except.ok.injEq, Prod.mk.injEq] at h; exact ⟨h.1.symm, by rw [h.2.2]⟩
    · simp at h

/-- what one answer of the policy looks like: `dec` is the remembered set the answer is drawn from -/
theorem pick_cases {ord : List Int → List Int} (hord : ∀ l, (ord l).Perm l) {st st' : PolState} {a a' : ASet}
    {cs : List Clause} {p : Int} (h : pick ver ord st a cs = .ok (st', a', p)) :
    (st' = st ∧ (p ∈ st.prefer ∨ p ∈ st.requirements) ∧ p ∉ a.assigned) ∨
    ((∀ x ∈ st'.decisionSet, x ∈ st.decisionSet) ∧ Newest ver a (· ∈ st.decisionSet) p) ∨
    ((∀ x, x ∈ st'.decisionSet ↔ InOpenClause a cs x ∧ x ∉ a.assigned) ∧ (∀ x ∈ st.decisionSet, x ∈ a.assigned) ∧
      (Newest ver a (InOpenClause a cs) p ∨
        (∀ x, InOpenClause a cs x → x ∈ a.assigned) ∧
          Newest ver a (fun x => x ∈ st.prefer ∨ ∃ c ∈ cs, ∃ l ∈ c.lits, iabs l = x) p)) := by
  unfold pick at h
  cases hb : bestSorted st.prefer a with
  | some q =>
    rw [hb] at h
    obtain ⟨rfl, e⟩ := checkChoice_some h
    cases e
    left
    unfold bestSorted at hb
    exact ⟨rfl, Or.inl (List.mem_of_find?_eq_some hb), by simpa using List.find?_some hb⟩
  | none =>
    rw [hb] at h
    simp only at h
    cases hr : bestCandidate ver ord st.requirements a with
    | error e => rw [hr] at h; simp at h
    | ok o =>
      rw [hr] at h
      cases o with
      | some q =>
        obtain ⟨rfl, e⟩ := checkChoice_some h
        cases e
        have := bestCandidate_some hord hr
        exact Or.inl ⟨rfl, Or.inr this.1, this.2.1⟩
      | none =>
        simp only at h
        cases hd : bestCandidate ver ord st.decisionSet a with
        | error e => rw [hd] at h; simp at h
        | ok o =>
          rw [hd] at h
          cases o with
          | some q =>
            obtain ⟨rfl, e⟩ := checkChoice_some h
            cases e
            refine Or.inr (Or.inl ⟨?_, bestCandidate_some hord hd⟩)
            intro x hx
            simp only [withoutAssigned, List.mem_filter] at hx
            exact hx.1
          | none =>
            simp only at h
            right; right
            have hall := bestCandidate_none hord hd
            generalize hst : ({ st with decisionSet := withoutAssigned st.decisionSet a } : PolState) = st1 at h
            have hpre : st1.prefer = st.prefer := by rw [← hst]
            have hs : (refresh st1 a cs).2.assigned = a.assigned := a.consumeChangelog_same.assigned
            unfold pickAfterRefresh at h
            cases hx : bestCandidate ver ord (refresh st1 a cs).1.decisionSet (refresh st1 a cs).2 with
            | error e => rw [hx] at h; simp at h
            | ok o =>
              rw [hx] at h
              cases o with
              | some q =>
                obtain ⟨rfl, e⟩ := checkChoice_some h
                cases e
                refine ⟨mem_refresh st1 a cs, hall, Or.inl ?_⟩
                have := (bestCandidate_some hord hx).congr hs
                obtain ⟨h1, h2, vp, h3, h4⟩ := this
                refine ⟨((mem_refresh st1 a cs p).1 h1).1, h2, vp, h3, ?_⟩
                intro q hq hqa
                exact h4 q ((mem_refresh st1 a cs q).2 ⟨hq, hqa⟩) hqa
              | none =>
                simp only at h
                cases hy : bestCandidate ver ord (refresh st1 a cs).1.allIds (refresh st1 a cs).2 with
                | error e => rw [hy] at h; simp at h
                | ok o =>
                  rw [hy] at h
                  obtain ⟨rfl, rfl⟩ := checkChoice_some h
                  have hn := bestCandidate_none hord hx
                  rw [hs] at hn
                  refine ⟨mem_refresh st1 a cs, hall, Or.inr ⟨?_, ?_⟩⟩
                  · intro x hxo
                    by_cases hxa : x ∈ a.assigned
                    · exact hxa
                    · exact hn x ((mem_refresh st1 a cs x).2 ⟨hxo, hxa⟩)
                  · obtain ⟨h1, h2, vp, h3, h4⟩ := (bestCandidate_some hord hy).congr hs
                    have hall' : ∀ x, x ∈ (refresh st1 a cs).1.allIds ↔
                        x ∈ st.prefer ∨ ∃ c ∈ cs, ∃ l ∈ c.lits, iabs l = x := by
                      intro x
                      unfold refresh
                      simp only [mem_supdate, mem_fromkeys, List.mem_flatMap, List.mem_map, hpre]
                    exact ⟨(hall' p).1 h1, h2, vp, h3, fun q hq hqa => h4 q ((hall' q).2 hq) hqa⟩

/-- C59 is an invariant of the policy state: preferred packages and requirements stay what they were, and every
remembered candidate was in an open clause at one of the questions. -/
theorem asked_inv (hord : ∀ n l, (order n l).Perm l) {prefer reqs : List Int} {st : PolState}
    {H : List (ASet × List Clause)} (h : Asked ver order prefer reqs st H) :
    st.prefer = prefer ∧ (∀ x, x ∈ st.requirements ↔ x ∈ reqs) ∧
    ∀ x ∈ st.decisionSet, ∃ q ∈ H, InOpenClause q.1 q.2 x := by
  induction h with
  | start =>
    refine ⟨rfl, fun x => mem_fromkeys .., ?_⟩
    intro x hx; simp [PolState.start] at hx
  | @step st H a cs st' a' p h hn ih =>
    obtain ⟨ih1, ih2, ih3⟩ := ih
    simp only [packagePolicy] at hn
    cases hx : nextPackage ver order st a.getChangelog.1 cs with
    | error e => rw [hx] at hn; simp at hn
    | ok r =>
      obtain ⟨st1, a1, p1⟩ := r
      rw [hx] at hn
      simp only [Except.ok.injEq, Prod.mk.injEq] at hn
      obtain ⟨rfl, -, rfl⟩ := hn
      have hs := a.getChangelog_same
      have hopen : ∀ b, ASet.Same a b → ∀ x, InOpenClause b cs x ↔ InOpenClause a cs x := by
        intro b hb x
        unfold InOpenClause ASet.value
        rw [hb.data]
      unfold nextPackage at hx
      simp only at hx
      generalize hr : (if a.getChangelog.1.newKeys ≠ [] then refresh st a.getChangelog.1 cs else (st, a.getChangelog.1)) = r at hx
      have hb : ASet.Same a r.2 := by
        rw [← hr]; split
        · exact hs.trans (ASet.consumeChangelog_same _)
        · exact hs
      have hrp : r.1.prefer = prefer ∧ (∀ x, x ∈ r.1.requirements ↔ x ∈ reqs) := by
        rw [← hr]; split
        · exact ⟨ih1, ih2⟩
        · exact ⟨ih1, ih2⟩
      have hrd : ∀ x ∈ r.1.decisionSet, ∃ q ∈ (a, cs) :: H, InOpenClause q.1 q.2 x := by
        rw [← hr]; split
        · intro x hx'
          exact ⟨(a, cs), by simp, (hopen _ hs x).1 ((mem_refresh _ _ _ _).1 hx').1⟩
        · intro x hx'
          obtain ⟨q, hq, k⟩ := ih3 x hx'
          exact ⟨q, by simp [hq], k⟩
      have hsame : st1.prefer = r.1.prefer ∧ st1.requirements = r.1.requirements := by
        have key : ∀ {st st' : PolState} {ord : List Int → List Int} {a a' : ASet} {p : Int},
            pick ver ord st a cs = .ok (st', a', p) → st'.prefer = st.prefer ∧ st'.requirements = st.requirements := by
          intro st st' ord a a' p h
          unfold pick pickAfterRefresh at h
          simp only at h
          repeat' split at h
          all_goals first
            | (simp at h)
            | (obtain ⟨rfl, -⟩ := checkChoice_some h; exact ⟨rfl, rfl⟩)
        have := key hx
        exact this
      refine ⟨hsame.1.trans hrp.1, fun x => by rw [hsame.2]; exact hrp.2 x, ?_⟩
      rcases pick_cases (hord _) hx with ⟨rfl, -⟩ | ⟨k, -⟩ | ⟨k, -⟩
      · exact hrd
      · intro x hx'; exact hrd x (k x hx')
      · intro x hx'
        exact ⟨(a, cs), by simp, (hopen _ hb x).1 ((k x).1 hx').1⟩

/-- C59: once all preferred packages and all requirements are decided, an answer `p` of the policy either occurs in a
clause that had no true literal at this question or at an earlier one, or nothing undecided occurs in such a clause
now and `p` has maximal version among all undecided variables of the clauses. In every case it is undecided. -/
theorem C59_then_open_clauses (hord : ∀ n l, (order n l).Perm l) {prefer reqs : List Int} {st st' : PolState}
    {H : List (ASet × List Clause)} (h : Asked ver order prefer reqs st H) {a a' : ASet} {cs : List Clause} {p : Int}
    (hn : (packagePolicy ver order).next st a cs = .ok (st', a', p))
    (hp : ∀ q ∈ prefer, q ∈ a.assigned) (hr : ∀ q ∈ reqs, q ∈ a.assigned) :
    p ∉ a.assigned ∧
    ((∃ q ∈ (a, cs) :: H, InOpenClause q.1 q.2 p) ∨
     (∀ x, InOpenClause a cs x → x ∈ a.assigned) ∧ Newest ver a (fun x => ∃ c ∈ cs, ∃ l ∈ c.lits, iabs l = x) p) := by
  obtain ⟨i1, i2, i3⟩ := asked_inv hord h
  simp only [packagePolicy] at hn
  cases hx : nextPackage ver order st a.getChangelog.1 cs with
  | error e => rw [hx] at hn; simp at hn
  | ok r =>
    obtain ⟨st1, a1, p1⟩ := r
    rw [hx] at hn
    simp only [Except.ok.injEq, Prod.mk.injEq] at hn
    obtain ⟨rfl, -, rfl⟩ := hn
    have hs := a.getChangelog_same
    have hopen : ∀ b, ASet.Same a b → ∀ x, InOpenClause b cs x ↔ InOpenClause a cs x := by
      intro b hb x
      unfold InOpenClause ASet.value
      rw [hb.data]
    unfold nextPackage at hx
    simp only at hx
    generalize hr' : (if a.getChangelog.1.newKeys ≠ [] then refresh st a.getChangelog.1 cs else (st, a.getChangelog.1)) = r at hx
    have hb : ASet.Same a r.2 := by
      rw [← hr']; split
      · exact hs.trans (ASet.consumeChangelog_same _)
      · exact hs
    have hrp : r.1.prefer = prefer ∧ (∀ x, x ∈ r.1.requirements ↔ x ∈ reqs) := by
      rw [← hr']; split
      · exact ⟨i1, i2⟩
      · exact ⟨i1, i2⟩
    have hrd : ∀ x ∈ r.1.decisionSet, ∃ q ∈ (a, cs) :: H, InOpenClause q.1 q.2 x := by
      rw [← hr']; split
      · intro x hx'
        exact ⟨(a, cs), by simp, (hopen _ hs x).1 ((mem_refresh _ _ _ _).1 hx').1⟩
      · intro x hx'
        obtain ⟨q, hq, k⟩ := i3 x hx'
        exact ⟨q, by simp [hq], k⟩
    rcases pick_cases (hord _) hx with ⟨-, k, k'⟩ | ⟨-, k⟩ | ⟨-, -, k⟩
    · rw [hb.assigned] at k'
      exfalso
      rcases k with k | k
      · exact k' (hp _ (by rw [← hrp.1]; exact k))
      · exact k' (hr _ ((hrp.2 _).1 k))
    · have k := k.congr hb.assigned
      exact ⟨k.2.1, Or.inl (hrd _ k.1)⟩
    · rcases k with k | ⟨k1, k⟩
      · have k := k.congr hb.assigned
        exact ⟨k.2.1, Or.inl ⟨(a, cs), by simp, (hopen _ hb _).1 k.1⟩⟩
      · have k := k.congr hb.assigned
        have hpa : ∀ x, x ∈ r.1.prefer → x ∈ a.assigned := fun x hx => hp x (by rw [← hrp.1]; exact hx)
        refine ⟨k.2.1, Or.inr ⟨fun x hxo => hb.assigned ▸ k1 x ((hopen _ hb x).2 hxo), ?_⟩⟩
        obtain ⟨h1, h2, vp, h3, h4⟩ := k
        refine ⟨?_, h2, vp, h3, fun q hq hqa => h4 q (Or.inr hq) hqa⟩
        rcases h1 with h1 | h1
        · exact absurd (hpa _ h1) h2
        · exact h1

/-- C59, at a question asked after new variables appeared (in particular the first one): if some undecided variable
occurs in a clause without true literal, the answer is one of maximal version among these. -/
theorem C59_newest_of_open_clauses (hord : ∀ n l, (order n l).Perm l) {prefer reqs : List Int} {st st' : PolState}
    {H : List (ASet × List Clause)} (h : Asked ver order prefer reqs st H) {a a' : ASet} {cs : List Clause} {p : Int}
    (hn : (packagePolicy ver order).next st a cs = .ok (st', a', p)) (hnew : a.newKeys ≠ [])
    (hp : ∀ q ∈ prefer, q ∈ a.assigned) (hr : ∀ q ∈ reqs, q ∈ a.assigned)
    (hex : ∃ x, InOpenClause a cs x ∧ x ∉ a.assigned) : Newest ver a (InOpenClause a cs) p := by
  obtain ⟨i1, i2, i3⟩ := asked_inv hord h
  simp only [packagePolicy] at hn
  cases hx : nextPackage ver order st a.getChangelog.1 cs with
  | error e => rw [hx] at hn; simp at hn
  | ok r =>
    obtain ⟨st1, a1, p1⟩ := r
    rw [hx] at hn
    simp only [Except.ok.injEq, Prod.mk.injEq] at hn
    obtain ⟨rfl, -, rfl⟩ := hn
    have hs := a.getChangelog_same
    have hnk : a.getChangelog.1.newKeys = a.newKeys := by
      unfold ASet.getChangelog; split <;> rfl
    unfold nextPackage at hx
    simp only [hnk, if_pos hnew] at hx
    have hb : ASet.Same a (refresh st a.getChangelog.1 cs).2 := hs.trans (ASet.consumeChangelog_same _)
    have hopen : ∀ b, ASet.Same a b → ∀ x, InOpenClause b cs x ↔ InOpenClause a cs x := by
      intro b hb x
      unfold InOpenClause ASet.value
      rw [hb.data]
    have hdec : ∀ x, x ∈ (refresh st a.getChangelog.1 cs).1.decisionSet ↔ InOpenClause a cs x ∧ x ∉ a.assigned := by
      intro x; rw [mem_refresh, hopen _ hs, hs.assigned]
    rcases pick_cases (hord _) hx with ⟨-, k, k'⟩ | ⟨-, k⟩ | ⟨-, k, -⟩
    · rw [hb.assigned] at k'
      exfalso
      rcases k with k | k
      · exact k' (hp _ (by rw [← i1]; exact k))
      · exact k' (hr _ ((i2 _).1 k))
    · obtain ⟨h1, h2, vp, h3, h4⟩ := k.congr hb.assigned
      exact ⟨((hdec _).1 h1).1, h2, vp, h3, fun q hq hqa => h4 q ((hdec q).2 ⟨hq, hqa⟩) hqa⟩
    · obtain ⟨x, hx1, hx2⟩ := hex
      exact absurd (hb.assigned ▸ k x ((hdec x).2 ⟨hx1, hx2⟩)) hx2

/-! #### Non-vacuity: one clause `2 ∨ 3` is open, nothing is preferred or required -/
def c59Set : ASet := (ASet.empty.setItem 2 none).setItem 3 none
def c59Clauses : List Clause := [Clause.new [2, 3] false none, Clause.new [-2, -3] false none]
example : ∃ st' a', (packagePolicy (fun x => some x.toNat) (fun _ l => l)).next (PolState.start [] []) c59Set c59Clauses
    = .ok (st', a', 3) := ⟨_, _, rfl⟩
example : c59Set.newKeys ≠ [] := by decide
example : InOpenClause c59Set c59Clauses 2 ∧ 2 ∉ c59Set.assigned := by
  constructor
  · exact ⟨Clause.new [2, 3] false none, by simp [c59Clauses], by decide, by decide⟩
  · decide

end Verif.Props
