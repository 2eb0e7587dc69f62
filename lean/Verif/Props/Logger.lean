import Verif.Sat.Changes
import Verif.Sat.Logger
import Verif.Sat.Transparent
import Verif.Props.Assignments
import Verif.Props.PolicyHistory
/-
Properties C73 (the log that the policy logger keeps of a search is faithful) and C74 (the logger does not change what the
solver does).
-/
namespace Verif.Props
open Verif Verif.Sat

variable {σ : Type}

/-! #### Specification -/

/-- `History pol G ps0 H ps s`: the search on the rules `G` has come back to the head of its loop in the state `s`, with the
state `ps` of the policy, and `H` lists the questions put to the policy so far, in order: the assignments at that moment,
and the answer. -/
inductive History (pol : Policy σ) (G : List (List Int)) (ps0 : σ) : List (ASet × Int) → σ → Solver → Prop
  | start {s} : Solver.fromRules G = .ok s → History pol G ps0 [] ps0 s
  | decision {H ps s s1 ps' a p} : History pol G ps0 H ps s → Solver.propagate s.propFuel s = .ok (s1, none) →
      s1.allAssigned = false → pol.next ps s1.assignments (s1.clauses.map s1.heap) = .ok (ps', a, p) →
      History pol G ps0 (H ++ [(s1.assignments, p)]) ps' ({ s1 with assignments := a }.assume p)
  | conflict {H ps s s1 c ps' s'} : History pol G ps0 H ps s → Solver.propagate s.propFuel s = .ok (s1, some c) →
      Solver.turn pol 0 ps s = .next ps' s' → History pol G ps0 H ps' s'

/-- `c` lists, once each, the variables on which `f` and `g` differ, with both values -/
def IsDiff (c : List (Int × Change)) (f g : Int → Option Bool) : Prop :=
  (c.map Prod.fst).Nodup ∧ ∀ k old new, (k, (old, new)) ∈ c ↔ 0 < k ∧ old = f k ∧ new = g k ∧ old ≠ new

/-- entry `i` of the log is the difference between the assignments at question `i - 1` (`base` for the first) and at
question `i` -/
def Faithful : (Int → Option Bool) → List (List (Int × Change)) → List (ASet × Int) → Prop
  | _, [], [] => True
  | base, c :: cs, q :: H => IsDiff c base q.1.value ∧ Faithful q.1.value cs H
  | _, _, _ => False

/-- applying a logged changelog to the assignments -/
def replayOne (f : Int → Option Bool) (c : List (Int × Change)) : Int → Option Bool :=
  fun v => match c.find? (fun e => decide (e.1 = v)) with
    | some e => e.2.2
    | none => f v

/-- `b` is `a` after some calls of `get_changelog` and `consume_changelog` -/
def OnlyReads (a b : ASet) : Prop :=
  ∃ ops : List AOp, (∀ o ∈ ops, o = .get ∨ o = .consume) ∧ b = ops.foldl AOp.run a

/-- What is asked of the wrapped policy, `PI` being an invariant of its state: when no literal of the clauses is 0, it does
not answer 0, and it does not modify the assignments. -/
def Reader (pol : Policy σ) (PI : σ → Prop) : Prop :=
  ∀ st a (cs : List Clause) st' b p, PI st → (∀ c ∈ cs, ∀ l ∈ c.lits, l ≠ 0) → pol.next st a cs = .ok (st', b, p) →
    PI st' ∧ p ≠ 0 ∧ OnlyReads a b

/-! #### Proofs -/

theorem alog_sets {a b : ASet} (h : Sets a b) {m : AbsMap} (hm : ALog a m) : ∃ m', ALog b m' ∧ m'.base = m.base := by
  obtain ⟨ops, ho, rfl⟩ := h
  induction ops generalizing a m with
  | nil => exact ⟨m, hm, rfl⟩
  | cons o ops ih =>
    have hb : (AOp.set o.1 o.2).byVar := by
      have := ho o (by simp)
      cases h2 : o.2 with
      | none => exact this
      | some b => show o.1 ≠ 0; omega
    obtain ⟨m', k1, k2⟩ := ih (alog_step hm (.set o.1 o.2) hb) (fun o h => ho o (by simp [h]))
    exact ⟨m', k1, k2⟩

theorem alog_reads {a b : ASet} (h : OnlyReads a b) {m : AbsMap} (hm : ALog a m) :
    ∃ m', ALog b m' ∧ m'.val = m.val := by
  obtain ⟨ops, ho, rfl⟩ := h
  induction ops generalizing a m with
  | nil => exact ⟨m, hm, rfl⟩
  | cons o ops ih =>
    have hb : o.byVar ∧ (m.step o).val = m.val := by
      rcases ho o (by simp) with rfl | rfl <;> exact ⟨trivial, rfl⟩
    obtain ⟨m', k1, k2⟩ := ih (alog_step hm o hb.1) (fun o h => ho o (by simp [h]))
    exact ⟨m', k1, k2.trans hb.2⟩

theorem isDiff_congr {c : List (Int × Change)} {f f' g g' : Int → Option Bool} (hf : ∀ k, 0 < k → f k = f' k)
    (hg : ∀ k, 0 < k → g k = g' k) (h : IsDiff c f g) : IsDiff c f' g' := by
  refine ⟨h.1, fun k old new => ?_⟩
  rw [h.2]
  constructor
  · rintro ⟨h1, h2, h3, h4⟩; exact ⟨h1, h2.trans (hf k h1), h3.trans (hg k h1), h4⟩
  · rintro ⟨h1, h2, h3, h4⟩; exact ⟨h1, h2.trans (hf k h1).symm, h3.trans (hg k h1).symm, h4⟩

/-- the assignments at the last question; nothing is assigned before the first one -/
def lastAsked (H : List (ASet × Int)) : Int → Option Bool := (H.getLast?.map (fun q => q.1.value)).getD (fun _ => none)

theorem faithful_append {base : Int → Option Bool} {cs : List (List (Int × Change))} {H : List (ASet × Int)}
    (h : Faithful base cs H) {c : List (Int × Change)} {q : ASet × Int}
    (hc : IsDiff c ((H.getLast?.map (fun q => q.1.value)).getD base) q.1.value) : Faithful base (cs ++ [c]) (H ++ [q]) := by
  induction cs generalizing base H with
  | nil =>
    cases H with
    | nil => exact ⟨hc, trivial⟩
    | cons q' H => exact h.elim
  | cons c' cs ih =>
    cases H with
    | nil => exact h.elim
    | cons q' H =>
      refine ⟨h.1, ih h.2 ?_⟩
      cases H with
      | nil => exact hc
      | cons q'' H =>
        have e : ∀ x : ASet × Int, (x :: q'' :: H).getLast? = (q'' :: H).getLast? := fun x => List.getLast?_cons_cons
        rw [e] at hc
        rw [List.getLast?_eq_some_getLast (by simp : q'' :: H ≠ [])] at hc ⊢
        exact hc

theorem same_val_pos {a : ASet} {m : AbsMap} (h : ALog a m) : ∀ k, 0 < k → m.val k = a.value k :=
  fun k hk => (h.rel.val k hk).symm

theorem turn_conflict_chg {pol : Policy σ} {ps ps' : σ} {s s1 s' : Solver} {c : Nat} (h : s.NZ)
    (hp : Solver.propagate s.propFuel s = .ok (s1, some c)) (ht : Solver.turn pol 0 ps s = .next ps' s') :
    ps' = ps ∧ Solver.Chg s s' := by
  have k1 := Solver.propagate_chg _ h hp
  unfold Solver.turn at ht
  rw [hp] at ht
  simp only at ht
  split at ht
  · cases ht
  · rename_i s2 learned bt ha
    have k2 := k1.trans (Solver.analyze_chg k1.nz ha)
    split at ht
    · cases ht
    · split at ht
      · cases ht
      · rename_i s3 hr
        cases ht
        have k3 : Solver.Chg s2 (s2.cancelUntil (max bt ((0 : Nat) : Int))) := Solver.cancelN_chg _ k2.nz
        exact ⟨rfl, (k2.trans k3).trans (Solver.record_chg k3.nz hr)⟩

/-- the invariant behind C73 -/
theorem history_log {pol : Policy σ} {G : List (List Int)} (hG : ∀ c ∈ G, ∀ l ∈ c, l ≠ 0)
    {PI : σ → Prop} (hpol : Reader pol PI) {ps0 : σ} (hps : PI ps0) {req : List Int} {H : List (ASet × Int)} {ps : σ × Log} {s : Solver}
    (h : History (loggedPolicy pol) G (ps0, ⟨req, [], []⟩) H ps s) :
    s.NZ ∧ PI ps.1 ∧ (∃ m, ALog s.assignments m ∧ ∀ k, 0 < k → m.base k = lastAsked H k) ∧
    ps.2.suggestions = H.map Prod.snd ∧ ps.2.required = req ∧ Faithful (fun _ => none) ps.2.changes H := by
  induction h with
  | start h =>
    obtain ⟨k1, k2⟩ := Solver.fromRules_chg G hG h
    have h0 : ALog ASet.empty AbsMap.empty := alog_run [] (by simp)
    obtain ⟨m, k3, k4⟩ := alog_sets k2 h0
    exact ⟨k1, hps, ⟨m, k3, fun k _ => by rw [k4]; rfl⟩, rfl, rfl, trivial⟩
  | @decision H ps s s1 ps' a p _ hp ha hn ih =>
    obtain ⟨i1, i0, ⟨m, i2, i3⟩, i4, i6, i5⟩ := ih
    have k1 := Solver.propagate_chg _ i1 hp
    obtain ⟨m1, k2, k3⟩ := alog_sets k1.sets i2
    simp only [loggedPolicy] at hn
    cases hx : pol.next ps.1 s1.assignments.getChangelog.1 (s1.clauses.map s1.heap) with
    | error e => rw [hx] at hn; cases hn
    | ok r =>
      obtain ⟨st', a', p'⟩ := r
      rw [hx] at hn
      simp only [Except.ok.injEq, Prod.mk.injEq] at hn
      obtain ⟨rfl, rfl, rfl⟩ := hn
      obtain ⟨hPI, hpn, hR⟩ := hpol _ _ _ _ _ _ i0 (by
        intro c hc l hl
        obtain ⟨cid, -, rfl⟩ := List.mem_map.1 hc
        exact k1.nz.cls cid l hl) hx
      obtain ⟨m2, k4, k5⟩ := alog_reads hR (alog_step k2 .get trivial)
      have k6 : ALog a'.consumeChangelog.1 { m2 with base := m2.val } := alog_step k4 .consume trivial
      have hnz : Solver.NZ { s1 with assignments := a'.consumeChangelog.1, trailLim := s1.trail.length :: s1.trailLim } :=
        ⟨k1.nz.cls, k1.nz.trail⟩
      have k7 := Solver.enqueue_chg hnz hpn 0
      obtain ⟨m3, k8, k9⟩ := alog_sets k7.sets k6
      refine ⟨k7.nz, hPI, ⟨m3, k8, ?_⟩, ?_, i6, ?_⟩
      · intro k hk
        rw [k9]
        show m2.val k = lastAsked (H ++ [(s1.assignments, p')]) k
        rw [k5]
        show m1.val k = _
        rw [same_val_pos k2 k hk]
        simp [lastAsked]
      · simp only [List.map_append, List.map_cons, List.map_nil, i4]
      · refine faithful_append i5 (isDiff_congr ?_ (same_val_pos k2) (alog_diff k2))
        intro k hk
        rw [k3]; exact i3 k hk
  | @conflict H ps s s1 c ps' s' _ hp ht ih =>
    obtain ⟨i1, i0, ⟨m, i2, i3⟩, i4, i6, i5⟩ := ih
    obtain ⟨rfl, k1⟩ := turn_conflict_chg i1 hp ht
    obtain ⟨m1, k2, k3⟩ := alog_sets k1.sets i2
    exact ⟨k1.nz, i0, ⟨m1, k2, fun k hk => by rw [k3]; exact i3 k hk⟩, i4, i6, i5⟩

/-- C73: at every moment of every search with a logged policy, the logged suggestions are the answers given, in order, and
the logged changes are, for each question, exactly the differences between the assignments at the previous question (all
unassigned before the first) and at this one. The wrapped policy may do anything but modify the
assignments or answer 0; `C73_package_policy` is the case of the library's own policy. -/
theorem C73_log_is_faithful {pol : Policy σ} {G : List (List Int)} (hG : ∀ c ∈ G, ∀ l ∈ c, l ≠ 0)
    {PI : σ → Prop} (hpol : Reader pol PI) {ps0 : σ} (hps : PI ps0) {req : List Int} {H : List (ASet × Int)} {ps : σ} {log : Log} {s : Solver}
    (h : History (loggedPolicy pol) G (ps0, ⟨req, [], []⟩) H (ps, log) s) :
    log.suggestions = H.map Prod.snd ∧ log.required = req ∧ Faithful (fun _ => none) log.changes H := by
  obtain ⟨-, -, -, k1, k2, k3⟩ := history_log hG hpol hps h
  exact ⟨k1, k2, k3⟩

theorem replayOne_diff {c : List (Int × Change)} {f g : Int → Option Bool} (h : IsDiff c f g) {f' : Int → Option Bool}
    (hf : ∀ k, 0 < k → f' k = f k) : ∀ k, 0 < k → replayOne f' c k = g k := by
  intro k hk
  unfold replayOne
  cases hx : c.find? (fun e => decide (e.1 = k)) with
  | some e =>
    have hm := List.mem_of_find?_eq_some hx
    have he : e.1 = k := by have := List.find?_some hx; simpa using this
    obtain ⟨k', o, n⟩ := e
    simp only at he
    subst he
    exact ((h.2 k' o n).1 hm).2.2.1
  | none =>
    simp only
    rw [hf k hk]
    apply Classical.byContradiction
    intro hne
    have := (h.2 k (f k) (g k)).2 ⟨hk, rfl, rfl, hne⟩
    have := List.find?_eq_none.1 hx _ this
    simp at this

/-- C73: replaying the first `i + 1` logged changes from the empty assignment gives every variable the value it had when
question `i` was asked. -/
theorem C73_replay {pol : Policy σ} {G : List (List Int)} (hG : ∀ c ∈ G, ∀ l ∈ c, l ≠ 0)
    {PI : σ → Prop} (hpol : Reader pol PI) {ps0 : σ} (hps : PI ps0) {req : List Int} {H : List (ASet × Int)} {ps : σ} {log : Log} {s : Solver}
    (h : History (loggedPolicy pol) G (ps0, ⟨req, [], []⟩) H (ps, log) s)
    (i : Nat) (q : ASet × Int) (hq : H[i]? = some q) :
    ∀ v, 0 < v → (log.changes.take (i + 1)).foldl replayOne (fun _ => none) v = q.1.value v := by
  obtain ⟨-, -, hf⟩ := C73_log_is_faithful hG hpol hps h
  suffices K : ∀ (cs : List (List (Int × Change))) (H : List (ASet × Int)) (i : Nat) (base base' : Int → Option Bool),
      (∀ k, 0 < k → base' k = base k) → Faithful base cs H → H[i]? = some q →
      ∀ v, 0 < v → (cs.take (i + 1)).foldl replayOne base' v = q.1.value v from
    K log.changes H i _ _ (fun _ _ => rfl) hf hq
  intro cs
  induction cs with
  | nil =>
    intro H i base base' hb hf hi
    cases H with
    | nil => simp at hi
    | cons q' H => exact hf.elim
  | cons c cs ih =>
    intro H i base base' hb hf hi v hv
    cases H with
    | nil => exact hf.elim
    | cons q' H =>
      have hd := replayOne_diff hf.1 hb
      rw [List.take_succ_cons, List.foldl_cons]
      cases i with
      | zero =>
        simp only [List.getElem?_cons_zero, Option.some.injEq] at hi
        subst hi
        simpa using hd v hv
      | succ i =>
        rw [List.getElem?_cons_succ] at hi
        exact ih H i _ _ hd hf.2 hi v hv

/-- every search is covered: it goes through a history up to the turn in which it stops -/
theorem search_history {pol : Policy σ} {G : List (List Int)} {ps0 : σ} (n : Nat) {H : List (ASet × Int)} {ps : σ}
    {s : Solver} (h : History pol G ps0 H ps s) (hn : ∀ s', Solver.searchLoop pol 0 n ps s ≠ .error (.outOfFuel, s')) :
    ∃ H' ps' s', History pol G ps0 (H ++ H') ps' s' ∧
      ((∃ s2 a, Solver.turn pol 0 ps' s' = .done s2 a ∧ Solver.searchLoop pol 0 n ps s = .ok (s2, a)) ∨
       (∃ e s2, Solver.turn pol 0 ps' s' = .fail e s2 ∧ Solver.searchLoop pol 0 n ps s = .error (e, s2))) := by
  induction n generalizing H ps s with
  | zero => exact absurd rfl (hn s)
  | succ n ih =>
    simp only [Solver.searchLoop] at hn ⊢
    cases ht : Solver.turn pol 0 ps s with
    | done s2 a => exact ⟨[], ps, s, by simpa using h, Or.inl ⟨s2, a, ht, rfl⟩⟩
    | fail e s2 => exact ⟨[], ps, s, by simpa using h, Or.inr ⟨e, s2, ht, rfl⟩⟩
    | next ps1 s1 =>
      simp only
      have hstep : ∃ H1, History pol G ps0 (H ++ H1) ps1 s1 := by
        have ht' := ht
        unfold Solver.turn at ht'
        cases hp : Solver.propagate s.propFuel s with
        | error e => rw [hp] at ht'; cases ht'
        | ok r =>
          obtain ⟨s2, o⟩ := r
          cases o with
          | some c => exact ⟨[], by simpa using History.conflict h hp ht⟩
          | none =>
            rw [hp] at ht'
            simp only at ht'
            split at ht'
            · cases ht'
            · rename_i ha
              split at ht'
              · cases ht'
              · rename_i ps2 a p hq
                cases ht'
                exact ⟨[(s2.assignments, p)], History.decision h hp (by simpa using ha) hq⟩
      obtain ⟨H1, h1⟩ := hstep
      have hn' : ∀ s', Solver.searchLoop pol 0 n ps1 s1 ≠ .error (.outOfFuel, s') := by
        intro s'; have := hn s'; rw [ht] at this; exact this
      obtain ⟨H2, ps', s', h2, h3⟩ := ih h1 hn'
      exact ⟨H1 ++ H2, ps', s', by simpa using h2, h3⟩

/-! #### The package policy -/

/-- no id known to the policy is 0 -/
def NoZero (st : PolState) : Prop :=
  (∀ x ∈ st.prefer, x ≠ 0) ∧ (∀ x ∈ st.requirements, x ≠ 0) ∧ (∀ x ∈ st.decisionSet, x ≠ 0) ∧ (∀ x ∈ st.allIds, x ≠ 0)

section
variable {V : Type} [LinearOrder V] {ver : Int → Option V}

theorem checkChoice_reads {st st' : PolState} {a b : ASet} {o : Option Int} {p : Int}
    (h : checkChoice st a o = .ok (st', b, p)) : st' = st ∧ b = a ∧ o = some p := by
  unfold checkChoice at h
  cases o with
  | none => simp at h
  | some q =>
    simp only at h
    split at h
    · simp only [Except.ok.injEq, Prod.mk.injEq] at h
      exact ⟨h.1.symm, h.2.1.symm, by rw [h.2.2]⟩
    · simp at h

theorem bestCandidate_mem {ord : List Int → List Int} (hord : ∀ l, (ord l).Perm l) {ids : List Int} {a : ASet} {p : Int}
    (h : bestCandidate ver ord ids a = .ok (some p)) (hi : ∀ x ∈ ids, x ≠ 0) : p ≠ 0 := hi p (bestCandidate_some hord h).1

theorem refresh_noZero {st : PolState} {a : ASet} {cs : List Clause} (hst : NoZero st)
    (hc : ∀ c ∈ cs, ∀ l ∈ c.lits, l ≠ 0) : NoZero (refresh st a cs).1 ∧ (refresh st a cs).2 = a.consumeChangelog.1 := by
  refine ⟨⟨hst.1, hst.2.1, ?_, ?_⟩, rfl⟩
  · intro x hx
    simp only [refresh, List.mem_filter, mem_fromkeys, List.mem_flatMap, List.mem_map] at hx
    obtain ⟨⟨c, ⟨hcm, -⟩, l, hl, rfl⟩, -⟩ := hx
    exact Int.ne_of_gt (iabs_pos l (hc c hcm l hl))
  · intro x hx
    simp only [refresh, mem_supdate, mem_fromkeys, List.mem_flatMap, List.mem_map] at hx
    rcases hx with hx | ⟨c, hcm, l, hl, rfl⟩
    · exact hst.1 x hx
    · exact Int.ne_of_gt (iabs_pos l (hc c hcm l hl))

theorem pick_reads {ord : List Int → List Int} (hord : ∀ l, (ord l).Perm l) {st st' : PolState} {a b : ASet}
    {cs : List Clause} {p : Int} (hst : NoZero st) (hc : ∀ c ∈ cs, ∀ l ∈ c.lits, l ≠ 0)
    (h : pick ver ord st a cs = .ok (st', b, p)) : NoZero st' ∧ p ≠ 0 ∧ (b = a ∨ b = a.consumeChangelog.1) := by
  unfold pick at h
  have hw : NoZero { st with decisionSet := withoutAssigned st.decisionSet a } :=
    ⟨hst.1, hst.2.1, fun x hx => hst.2.2.1 x (List.mem_filter.1 hx).1, hst.2.2.2⟩
  split at h
  · rename_i q hq
    obtain ⟨rfl, rfl, e⟩ := checkChoice_reads h
    cases e
    exact ⟨hst, hst.1 _ (List.mem_of_find?_eq_some hq), Or.inl rfl⟩
  · split at h
    · cases h
    · rename_i q hq
      obtain ⟨rfl, rfl, e⟩ := checkChoice_reads h
      cases e
      exact ⟨hst, bestCandidate_mem hord hq hst.2.1, Or.inl rfl⟩
    · split at h
      · cases h
      · rename_i q hq
        obtain ⟨rfl, rfl, e⟩ := checkChoice_reads h
        cases e
        exact ⟨hw, bestCandidate_mem hord hq hst.2.2.1, Or.inl rfl⟩
      · obtain ⟨k1, k2⟩ := refresh_noZero (a := a) hw hc
        simp only at h
        unfold pickAfterRefresh at h
        split at h
        · cases h
        · rename_i q hq
          obtain ⟨rfl, rfl, e⟩ := checkChoice_reads h
          cases e
          exact ⟨k1, bestCandidate_mem hord hq k1.2.2.1, Or.inr k2⟩
        · split at h
          · cases h
          · rename_i o hq
            obtain ⟨rfl, rfl, e⟩ := checkChoice_reads h
            subst e
            exact ⟨k1, bestCandidate_mem hord hq k1.2.2.2, Or.inr k2⟩

theorem rawPolicy_reader {order : Nat → List Int → List Int} (hord : ∀ n l, (order n l).Perm l) :
    Reader (rawPolicy ver order) NoZero := by
  intro st a cs st' b p hst hc h
  have h : nextPackage ver order st a cs = .ok (st', b, p) := h
  unfold nextPackage at h
  split at h
  · obtain ⟨k1, k2⟩ := refresh_noZero (a := a) hst hc
    obtain ⟨k3, k4, k5⟩ := pick_reads (hord _) (st := { (refresh st a cs).1 with tick := st.tick + 1 })
      ⟨k1.1, k1.2.1, k1.2.2.1, k1.2.2.2⟩ hc h
    refine ⟨k3, k4, ?_⟩
    simp only [k2] at k5
    rcases k5 with rfl | rfl
    · exact ⟨[.consume], by simp, rfl⟩
    · exact ⟨[.consume, .consume], by simp, rfl⟩
  · obtain ⟨k3, k4, k5⟩ := pick_reads (hord _) (st := { st with tick := st.tick + 1 })
      ⟨hst.1, hst.2.1, hst.2.2.1, hst.2.2.2⟩ hc h
    refine ⟨k3, k4, ?_⟩
    rcases k5 with rfl | rfl
    · exact ⟨[], by simp, rfl⟩
    · exact ⟨[.consume], by simp, rfl⟩

theorem start_noZero {prefer reqs : List Int} (h : ∀ x ∈ prefer ++ reqs, x ≠ 0) : NoZero (PolState.start prefer reqs) :=
  ⟨fun x hx => h x (by simp only [PolState.start] at hx; simp [hx]),
   fun x hx => h x (by simp only [PolState.start, mem_fromkeys] at hx; simp [hx]),
   by simp [PolState.start], by simp [PolState.start]⟩

/-- C73 for the policy that the dependency solver uses: a search started with `prefer` and `reqs` logs exactly its
requirements, its decisions and the assignments at each of them. -/
theorem C73_package_policy {order : Nat → List Int → List Int} (hord : ∀ n l, (order n l).Perm l) {G : List (List Int)}
    (hG : ∀ c ∈ G, ∀ l ∈ c, l ≠ 0) {prefer reqs : List Int} (h0 : ∀ x ∈ prefer ++ reqs, x ≠ 0)
    {H : List (ASet × Int)} {st : PolState} {log : Log} {s : Solver}
    (h : History (loggedPolicy (rawPolicy ver order)) G (PolState.start prefer reqs, Log.empty.addRequirements reqs) H
      (st, log) s) :
    log.suggestions = H.map Prod.snd ∧ log.required = reqs ∧ Faithful (fun _ => none) log.changes H ∧
    (∀ (i : Nat) (q : ASet × Int), H[i]? = some q →
      ∀ v, 0 < v → (log.changes.take (i + 1)).foldl replayOne (fun _ => none) v = q.1.value v) := by
  have hR := rawPolicy_reader (ver := ver) hord
  have hS := start_noZero h0
  have h : History (loggedPolicy (rawPolicy ver order)) G (PolState.start prefer reqs, ⟨reqs, [], []⟩) H (st, log) s := h
  obtain ⟨k1, k2, k3⟩ := C73_log_is_faithful hG hR hS h
  exact ⟨k1, k2, k3, fun i q hq => C73_replay hG hR hS h i q hq⟩

end

/-! #### The histogram -/

theorem lookup_bump (x y : Int) : ∀ c : List (Int × Nat),
    ((bump x c).lookup y).getD 0 = (c.lookup y).getD 0 + if y = x then 1 else 0
  | [] => by
    simp only [bump, List.lookup]
    by_cases h : y = x
    · simp [h]
    · simp [h, beq_eq_false_iff_ne.2 h]
  | kv :: t => by
    obtain ⟨k, n⟩ := kv
    simp only [bump]
    by_cases hk : k = x
    · subst hk
      rw [if_pos rfl]
      by_cases h : y = k
      · simp [h]
      · simp [h, List.lookup_cons, beq_eq_false_iff_ne.2 h]
    · rw [if_neg hk]
      by_cases h : y = k
      · subst h; simp [hk]
      · have := lookup_bump x y t
        simp only [List.lookup_cons, beq_eq_false_iff_ne.2 h]
        exact this

theorem bump_keys (x : Int) : ∀ c : List (Int × Nat), (bump x c).map Prod.fst = sadd x (c.map Prod.fst)
  | [] => by simp [bump, sadd]
  | kv :: t => by
    simp only [bump]
    by_cases hk : kv.1 = x
    · rw [if_pos hk]; simp [sadd, hk]
    · rw [if_neg hk, List.map_cons, bump_keys x t]
      unfold sadd
      by_cases hx : x ∈ t.map Prod.fst
      · rw [if_pos hx, if_pos (by simp only [List.map_cons]; exact List.mem_cons_of_mem _ hx)]; rfl
      · rw [if_neg hx, if_neg (by simp only [List.map_cons, List.mem_cons, not_or]; exact ⟨fun h => hk h.symm, hx⟩)]; rfl

/-- C73: the histogram of a search lists each decided variable once, with the number of times it was decided. -/
theorem C73_histogram {pol : Policy σ} {G : List (List Int)} (hG : ∀ c ∈ G, ∀ l ∈ c, l ≠ 0)
    {PI : σ → Prop} (hpol : Reader pol PI) {ps0 : σ} (hps : PI ps0) {req : List Int} {H : List (ASet × Int)} {ps : σ}
    {log : Log} {s : Solver} (h : History (loggedPolicy pol) G (ps0, ⟨req, [], []⟩) H (ps, log) s) :
    (log.histogram.map Prod.fst).Nodup ∧
    ∀ v n, 0 < v → ((v, n) ∈ log.histogram ↔ 0 < n ∧ n = (H.filter (fun q => decide (q.2 = v ∨ q.2 = -v))).length) := by
  obtain ⟨hs, -, -⟩ := C73_log_is_faithful hG hpol hps h
  have e1 : ∀ (l : List Int) (c : List (Int × Nat)) (y : Int),
      ((l.foldl (fun c x => bump x c) c).lookup y).getD 0 = (c.lookup y).getD 0 + (l.filter (fun x => decide (x = y))).length := by
    intro l
    induction l with
    | nil => intro c y; simp
    | cons x l ih =>
      intro c y
      rw [List.foldl_cons, ih, lookup_bump]
      by_cases hxy : y = x
      · subst hxy; simp; omega
      · simp [hxy, Ne.symm hxy]
  have e2 : ∀ (l : List Int) (c : List (Int × Nat)), (c.map Prod.fst).Nodup → (∀ kv ∈ c, 0 < kv.2) →
      ((l.foldl (fun c x => bump x c) c).map Prod.fst).Nodup ∧ ∀ kv ∈ l.foldl (fun c x => bump x c) c, 0 < kv.2 := by
    intro l
    induction l with
    | nil => intro c h1 h2; exact ⟨h1, h2⟩
    | cons x l ih =>
      intro c h1 h2
      refine ih _ (by rw [bump_keys]; exact nodup_sadd _ _ h1) ?_
      clear ih h1
      induction c with
      | nil => intro kv hkv; simp [bump] at hkv; subst hkv; simp
      | cons kv t iht =>
        intro kv' hkv'
        simp only [bump] at hkv'
        split at hkv'
        · rcases List.mem_cons.1 hkv' with rfl | h3
          · simp
          · exact h2 _ (by simp [h3])
        · rcases List.mem_cons.1 hkv' with rfl | h3
          · exact h2 _ (by simp)
          · exact iht (fun kv h => h2 kv (by simp [h])) _ h3
  obtain ⟨h1, h2⟩ := e2 (log.suggestions.map iabs) [] (by simp) (by simp)
  refine ⟨h1, fun v n hv => ?_⟩
  have h3 := e1 (log.suggestions.map iabs) [] v
  have hl : ∀ (c : List (Int × Nat)), (c.map Prod.fst).Nodup → ((v, n) ∈ c ↔ c.lookup v = some n) := by
    intro c
    induction c with
    | nil => simp
    | cons kv t ih =>
      intro hn
      obtain ⟨k, m⟩ := kv
      simp only [List.map_cons, List.nodup_cons] at hn
      rw [List.lookup_cons, List.mem_cons]
      by_cases hk : v = k
      · subst hk
        simp only [beq_self_eq_true, Prod.mk.injEq, true_and]
        constructor
        · rintro (rfl | h)
          · rfl
          · exact absurd (List.mem_map_of_mem (f := Prod.fst) h) hn.1
        · intro h; left; cases h; rfl
      · simp only [beq_eq_false_iff_ne.2 hk, Prod.mk.injEq]
        rw [← ih hn.2]
        simp [hk]
  have hc : (List.filter (fun x => decide (x = v)) (log.suggestions.map iabs)).length =
      (H.filter (fun q => decide (q.2 = v ∨ q.2 = -v))).length := by
    rw [hs, List.map_map, List.filter_map, List.length_map]
    congr 2
    funext q
    simp only [Function.comp_apply]
    congr 1
    apply propext
    unfold iabs
    omega
  rw [show log.histogram = List.foldl (fun c x => bump x c) [] (log.suggestions.map iabs) from rfl, hl _ h1]
  simp only [List.lookup_nil, Option.getD_none, Nat.zero_add, hc] at h3
  generalize List.foldl (fun c x => bump x c) [] (log.suggestions.map iabs) = hist at *
  rw [← h3]
  cases hx : hist.lookup v with
  | none => simp; omega
  | some m =>
    have : (v, m) ∈ hist := by
      clear h3 hl h1 h2
      induction hist with
      | nil => simp at hx
      | cons kv t ih =>
        obtain ⟨k, w⟩ := kv
        rw [List.lookup_cons] at hx
        by_cases hk : v = k
        · subst hk; simp at hx; subst hx; simp
        · simp only [beq_eq_false_iff_ne.2 hk] at hx; simp [ih hx]
    have := h2 _ this
    simp only [Option.some.injEq, Option.getD_some] at this ⊢
    omega

/-! ### C74 -/

/-- nothing that a user of the assignments can see differs, the changelog apart -/
def SameAssignments (a b : ASet) : Prop :=
  (∀ l, b.value l = a.value l) ∧ b.items = a.items ∧ (∀ l, b.contains l = a.contains l) ∧ b.numAssigned = a.numAssigned

/-- the same questions, up to changelogs, with the same answers -/
def SameQuestions : List (ASet × Int) → List (ASet × Int) → Prop
  | [], [] => True
  | q :: H, q' :: H' => SameAssignments q.1 q'.1 ∧ q'.2 = q.2 ∧ SameQuestions H H'
  | _, _ => False

theorem sameAssignments_of_ae {a b : ASet} (h : AE a b) : SameAssignments a b := by
  obtain ⟨h1, h2, h3, -⟩ := h
  exact ⟨fun l => by unfold ASet.value; rw [h1], by unfold ASet.items; rw [h1, h2], fun l => by unfold ASet.contains; rw [h2],
    by unfold ASet.numAssigned; rw [h3]⟩

theorem SameQuestions.append {H H' : List (ASet × Int)} (h : SameQuestions H H') {q q' : ASet × Int}
    (hq : SameAssignments q.1 q'.1) (hp : q'.2 = q.2) : SameQuestions (H ++ [q]) (H' ++ [q']) := by
  induction H generalizing H' with
  | nil =>
    cases H' with
    | nil => exact ⟨hq, hp, trivial⟩
    | cons _ _ => exact h.elim
  | cons x H ih =>
    cases H' with
    | nil => exact h.elim
    | cons y H' => exact ⟨h.1, h.2.1, ih h.2.2⟩

theorem alike_symm {σ τ : Type} {pol : Policy σ} {pol' : Policy τ} {R : σ → τ → Prop} (h : Alike pol pol' R) :
    Alike pol' pol (fun qs ps => R ps qs) := by
  intro qs ps b a cs hR hA
  rcases h ps qs a b cs hR hA.symm with ⟨e, h1, h2⟩ | ⟨ps', qs', a', b', p, h1, h2, h3, h4⟩
  · exact Or.inl ⟨e, h2, h1⟩
  · exact Or.inr ⟨qs', ps', b', a', p, h2, h1, h3, h4.symm⟩

theorem alike_trans {σ τ υ : Type} {pol : Policy σ} {pol' : Policy τ} {pol'' : Policy υ} {R : σ → τ → Prop}
    {R' : τ → υ → Prop} (h : Alike pol pol' R) (h' : Alike pol' pol'' R') :
    Alike pol pol'' (fun x z => ∃ y, R x y ∧ R' y z) := by
  rintro ps us a c cs ⟨qs, hR, hR'⟩ hA
  rcases h ps qs a c cs hR hA with ⟨e, h1, h2⟩ | ⟨ps', qs', a', b', p, h1, h2, h3, h4⟩
  · rcases h' qs us c c cs hR' (AE.refl c) with ⟨e', h5, h6⟩ | ⟨_, _, _, _, _, h5, -⟩
    · rw [h2] at h5; cases h5; exact Or.inl ⟨e, h1, h6⟩
    · rw [h2] at h5; cases h5
  · rcases h' qs us c c cs hR' (AE.refl c) with ⟨e', h5, h6⟩ | ⟨qs2, us', b2, c', p', h5, h6, h7, h8⟩
    · rw [h2] at h5; cases h5
    · rw [h2] at h5; cases h5
      exact Or.inr ⟨ps', us', a', c', p, h1, h6, ⟨qs', h3, h7⟩, h4.trans h8⟩

theorem history_alike {σ τ : Type} {pol : Policy σ} {pol' : Policy τ} {R : σ → τ → Prop} (hp : Alike pol pol' R)
    {G : List (List Int)} {ps0 : σ} {qs0 : τ} (h0 : R ps0 qs0) {H : List (ASet × Int)} {ps : σ} {s : Solver}
    (h : History pol G ps0 H ps s) :
    ∃ H' qs s', History pol' G qs0 H' qs s' ∧ SameQuestions H H' ∧ R ps qs ∧ Solver.SE s s' := by
  induction h with
  | start h => exact ⟨[], qs0, _, .start h, trivial, h0, ⟨_, AE.refl _, rfl⟩⟩
  | @decision H ps s s1 ps' a p _ hpr ha hn ih =>
    obtain ⟨H', qs, s', i1, i2, i3, i4⟩ := ih
    have h1 := Solver.SE.propagate s.propFuel i4
    rw [hpr] at h1
    generalize hx : Solver.propagate s.propFuel s' = r at h1
    cases h1 with
    | @ok _ y hxy =>
      obtain ⟨s1', o'⟩ := y
      obtain ⟨k1, k2⟩ := hxy
      simp only at k1 k2
      subst k2
      have hA : AE s1.assignments s1'.assignments := by obtain ⟨b, hb, rfl⟩ := k1; exact hb
      have hC : s1'.clauses.map s1'.heap = s1.clauses.map s1.heap := by obtain ⟨b, hb, rfl⟩ := k1; rfl
      rcases hp ps qs s1.assignments s1'.assignments (s1.clauses.map s1.heap) i3 hA with ⟨e, k2, k3⟩ | ⟨ps2, qs', a', b', p', k2, k3, k4, k5⟩
      · rw [hn] at k2; cases k2
      · rw [hn] at k2
        cases k2
        refine ⟨_, qs', _, .decision i1 (by rw [i4.propFuel]; exact hx) (by rw [k1.allAssigned]; exact ha)
          (by rw [hC]; exact k3), i2.append (sameAssignments_of_ae hA) rfl, k4, Solver.SE.assume ?_ p⟩
        obtain ⟨b, hb, rfl⟩ := k1
        exact ⟨b', k5, rfl⟩
  | @conflict H ps s s1 c ps' s' _ hpr ht ih =>
    obtain ⟨H', qs, t, i1, i2, i3, i4⟩ := ih
    have h1 := Solver.SE.propagate s.propFuel i4
    rw [hpr] at h1
    have h2 := Solver.turn_alike hp 0 i3 i4
    rw [ht] at h2
    generalize hx : Solver.propagate s.propFuel t = r at h1
    generalize hy : Solver.turn pol' 0 qs t = r' at h2
    cases h1 with
    | @ok _ y hxy =>
      obtain ⟨s1', o'⟩ := y
      obtain ⟨k1, k2⟩ := hxy
      simp only at k1 k2
      subst k2
      cases h2 with
      | next j1 j2 => exact ⟨_, _, _, .conflict i1 (by rw [i4.propFuel]; exact hx) hy, i2, j1, j2⟩

theorem solveRules_alike {σ τ : Type} {pol : Policy σ} {pol' : Policy τ} {R : σ → τ → Prop} (hp : Alike pol pol' R)
    (G : List (List Int)) (n : Nat) {ps : σ} {qs : τ} (h : R ps qs) :
    (∃ e, solveRules pol n ps G = .error e ∧ solveRules pol' n qs G = .error e) ∨
    (∃ a b, solveRules pol n ps G = .ok a ∧ solveRules pol' n qs G = .ok b ∧ SameAssignments a b) := by
  unfold solveRules
  cases Solver.fromRules G with
  | error e => exact Or.inl ⟨e, rfl, rfl⟩
  | ok s =>
    simp only [Solver.search]
    have h1 := Solver.searchLoop_alike hp s.decisionLevel n h (s := s) (s' := s) ⟨_, AE.refl _, rfl⟩
    generalize Solver.searchLoop pol s.decisionLevel n ps s = r at h1 ⊢
    generalize Solver.searchLoop pol' s.decisionLevel n qs s = r' at h1 ⊢
    cases h1 with
    | ok k1 k2 => exact Or.inr ⟨_, _, rfl, rfl, sameAssignments_of_ae k2⟩
    | error e k => exact Or.inl ⟨e, rfl, rfl⟩

section
variable {V : Type} [LinearOrder V] (ver : Int → Option V) (order : Nat → List Int → List Int)

theorem raw_alike_logged : Alike (rawPolicy ver order) (loggedPolicy (rawPolicy ver order)) (fun ps qs => qs.1 = ps) := by
  intro ps qs a b cs h hA
  rcases alike_trans (raw_alike_package ver order) (package_alike_logged ver order) ps qs a b cs ⟨ps, rfl, h⟩ hA with
    h | ⟨ps', qs', a', b', p, h1, h2, ⟨_, rfl, h3⟩, h4⟩
  · exact Or.inl h
  · exact Or.inr ⟨ps', qs', a', b', p, h1, h2, h3, h4⟩

/-- C74: with and without the logger around the package policy, whatever was logged before, solving gives the same error
(including the same unsatisfiable core), or assignments that cannot be told apart but by their changelogs. -/
theorem C74_same_result (G : List (List Int)) (n : Nat) (st : PolState) (log : Log) :
    (∃ e, solveRules (rawPolicy ver order) n st G = .error e ∧
      solveRules (loggedPolicy (rawPolicy ver order)) n (st, log) G = .error e) ∨
    (∃ a b, solveRules (rawPolicy ver order) n st G = .ok a ∧
      solveRules (loggedPolicy (rawPolicy ver order)) n (st, log) G = .ok b ∧ SameAssignments a b) :=
  solveRules_alike (raw_alike_logged ver order) G n rfl

/-- C74: the searches with and without the logger ask the policy the same questions and get the same answers, all along. -/
theorem C74_same_decisions (G : List (List Int)) (st0 : PolState) (log0 : Log) :
    (∀ H st s, History (rawPolicy ver order) G st0 H st s →
      ∃ H' log s', History (loggedPolicy (rawPolicy ver order)) G (st0, log0) H' (st, log) s' ∧ SameQuestions H H') ∧
    (∀ H st log s, History (loggedPolicy (rawPolicy ver order)) G (st0, log0) H (st, log) s →
      ∃ H' s', History (rawPolicy ver order) G st0 H' st s' ∧ SameQuestions H H') := by
  constructor
  · intro H st s h
    obtain ⟨H', ⟨st', log⟩, s', h1, h2, h3, -⟩ := history_alike (raw_alike_logged ver order) (qs0 := (st0, log0)) rfl h
    simp only at h3
    subst h3
    exact ⟨H', log, s', h1, h2⟩
  · intro H st log s h
    obtain ⟨H', st', s', h1, h2, h3, -⟩ := history_alike (alike_symm (raw_alike_logged ver order)) (qs0 := st0) rfl h
    simp only at h3
    subst h3
    exact ⟨H', s', h1, h2⟩

/-- C74: the policy that the rest of this model gives to the dependency solver is the logged one. -/
theorem C74_package_policy (G : List (List Int)) (n : Nat) (st : PolState) (log : Log) :
    (∃ e, solveRules (packagePolicy ver order) n st G = .error e ∧
      solveRules (loggedPolicy (rawPolicy ver order)) n (st, log) G = .error e) ∨
    (∃ a b, solveRules (packagePolicy ver order) n st G = .ok a ∧
      solveRules (loggedPolicy (rawPolicy ver order)) n (st, log) G = .ok b ∧ SameAssignments a b) :=
  solveRules_alike (package_alike_logged ver order) G n rfl

end

/-! #### Non-vacuity: the first decision leads to a conflict, after which a second question is asked -/
namespace LogExample

def G : List (List Int) := [[-1, 2], [-1, -2], [3, 4]]
def ver : Int → Option Nat := fun x => some x.toNat
def keep : Nat → List Int → List Int := fun _ l => l

example : ∀ c ∈ G, ∀ l ∈ c, l ≠ 0 := by decide
example : ∀ x ∈ [1] ++ [3, 4], x ≠ (0 : Int) := by decide
example : ∀ n l, (keep n l).Perm l := fun _ _ => List.Perm.refl _

theorem history : ∃ H ps s, History (loggedPolicy (rawPolicy ver keep)) G
    (PolState.start [1] [3, 4], Log.empty.addRequirements [3, 4]) H ps s ∧
    H.map Prod.snd = [1, 4] ∧ ps.2.suggestions = [1, 4] ∧ ps.2.required = [3, 4] ∧
    ps.2.changes = [[], [(1, (none, some false))]] ∧ ps.2.histogram = [(1, 1), (4, 1)] :=
  ⟨_, _, _, .decision (.conflict (.decision (.start rfl) rfl rfl rfl) rfl rfl) rfl rfl rfl,
    by decide +kernel, by decide +kernel, by decide +kernel, by decide +kernel, by decide +kernel⟩

example : ∃ a b, solveRules (rawPolicy ver keep) 20 (PolState.start [1] [3, 4]) G = .ok a ∧
    solveRules (loggedPolicy (rawPolicy ver keep)) 20 (PolState.start [1] [3, 4], Log.empty) G = .ok b ∧
    b.value 1 = some false ∧ b.value 4 = some true :=
  ⟨_, _, rfl, rfl, by decide +kernel, by decide +kernel⟩
/-- the changelogs do differ: this is why the theorems exclude them -/
example : ∃ a b, solveRules (rawPolicy ver keep) 20 (PolState.start [1] [3, 4]) G = .ok a ∧
    solveRules (loggedPolicy (rawPolicy ver keep)) 20 (PolState.start [1] [3, 4], Log.empty) G = .ok b ∧
    a.getChangelog.2 ≠ b.getChangelog.2 :=
  ⟨_, _, rfl, rfl, by decide +kernel⟩
example : solveRules (loggedPolicy (rawPolicy ver keep)) 20 (PolState.start [1] [3, 4], Log.empty) ([1] :: G) =
    solveRules (rawPolicy ver keep) 20 (PolState.start [1] [3, 4]) ([1] :: G) := rfl

end LogExample

end Verif.Props
