import Mathlib.Data.Int.Order.Basic
import Verif.Sat.Report
import Verif.Props.Logger
/-
Property C100: the report of the policy logger tells the story of the search.
-/
namespace Verif.Props
open Verif Verif.Sat

variable {σ : Type}

/-! #### Specification -/

/-- A question put to the policy: the number of conflicts since the previous question (since the start, for the first), the
assignments at that moment, the answer. -/
structure Question where
  conflicts : Nat
  values : ASet
  answer : Int

/-- `Searched pol G ps0 H k ps s`: the search on the rules `G` has come back to the head of its loop in the state `s`, with the
state `ps` of the policy; `H` lists the questions put to the policy so far, and there have been `k` conflicts since the last. -/
inductive Searched (pol : Policy σ) (G : List (List Int)) (ps0 : σ) : List Question → Nat → σ → Solver → Prop
  | start {s} : Solver.fromRules G = .ok s → Searched pol G ps0 [] 0 ps0 s
  | decision {H k ps s s1 ps' a p} : Searched pol G ps0 H k ps s → Solver.propagate s.propFuel s = .ok (s1, none) →
      s1.allAssigned = false → pol.next ps s1.assignments (s1.clauses.map s1.heap) = .ok (ps', a, p) →
      Searched pol G ps0 (H ++ [⟨k, s1.assignments, p⟩]) 0 ps' ({ s1 with assignments := a }.assume p)
  | conflict {H k ps s s1 c ps' s'} : Searched pol G ps0 H k ps s → Solver.propagate s.propFuel s = .ok (s1, some c) →
      Solver.turn pol 0 ps s = .next ps' s' → Searched pol G ps0 H (k + 1) ps' s'

/-- a package that had a value when `q` was asked has none when `q'` is asked -/
def Lost (q q' : Question) : Prop := ∃ v, 0 < v ∧ q.values.value v ≠ none ∧ q'.values.value v = none

section
variable {K M : Type} [LinearOrder K] [DecidableEq M]

/-- `cs` lists, once each and in the order of names and versions, the packages whose value at `q'` is not the one at `q`, but
for those of the name that was decided at `q` -/
structure Differences (key : Int → K) (name : Int → M) (q q' : Question) (cs : List (Int × Change)) : Prop where
  sorted : cs.Pairwise (fun x y => key x.1 ≤ key y.1)
  once : (cs.map Prod.fst).Nodup
  exact : ∀ v old new, (v, (old, new)) ∈ cs ↔ 0 < v ∧ old = q.values.value v ∧ new = q'.values.value v ∧ old ≠ new ∧
    name v ≠ name (iabs q.answer)

/-- `Told … i H L`: the lines `L` tell what happened at the questions `H`, of which the first has number `i`: for every question
but the last the package decided, whether it is required, and what changed up to the next question; and BACKTRACKED just when a
package lost its value, and then there has been a conflict. -/
inductive Told (req : List Int) (key : Int → K) (name : Int → M) : Nat → List Question → List Line → Prop
  | last (i q) : Told req key name i [q] []
  | forward {i q q' H cs L} : Differences key name q q' cs → ¬ Lost q q' → Told req key name (i + 1) (q' :: H) L →
      Told req key name i (q :: q' :: H) (.suggestion i (decide (iabs q.answer ∈ req)) false (iabs q.answer) cs :: L)
  | backward {i q q' H cs L} : Differences key name q q' cs → Lost q q' → q'.conflicts ≠ 0 →
      Told req key name (i + 1) (q' :: H) L →
      Told req key name i (q :: q' :: H)
        (.suggestion i (decide (iabs q.answer ∈ req)) false (iabs q.answer) cs :: .backtracked :: L)

end

/-! #### Proofs -/

theorem searched_history {pol : Policy σ} {G : List (List Int)} {ps0 : σ} {H : List Question} {k : Nat} {ps : σ} {s : Solver}
    (h : Searched pol G ps0 H k ps s) : History pol G ps0 (H.map (fun q => (q.values, q.answer))) ps s := by
  induction h with
  | start h => exact .start h
  | decision _ hp ha hn ih => rw [List.map_append]; exact .decision ih hp ha hn
  | conflict _ hp ht ih => exact .conflict ih hp ht

theorem history_searched {pol : Policy σ} {G : List (List Int)} {ps0 : σ} {H : List (ASet × Int)} {ps : σ} {s : Solver}
    (h : History pol G ps0 H ps s) :
    ∃ H' k, Searched pol G ps0 H' k ps s ∧ H'.map (fun q => (q.values, q.answer)) = H := by
  induction h with
  | start h => exact ⟨[], 0, .start h, rfl⟩
  | decision _ hp ha hn ih =>
    obtain ⟨H', k, h1, rfl⟩ := ih
    exact ⟨_, _, .decision h1 hp ha hn, by simp⟩
  | conflict _ hp ht ih =>
    obtain ⟨H', k, h1, rfl⟩ := ih
    exact ⟨H', _, .conflict h1 hp ht, rfl⟩

/-- every value is kept -/
def Keeps (a b : ASet) : Prop := ∀ v x, a.value v = some x → b.value v = some x

theorem wf_sets {a b : ASet} (h : Sets a b) (hw : a.WF) : b.WF := by
  obtain ⟨ops, ho, rfl⟩ := h
  induction ops generalizing a with
  | nil => exact hw
  | cons o ops ih =>
    exact ih (ASet.wf_setItem hw o.1 (by have := ho o (by simp); omega) o.2) (fun o h => ho o (by simp [h]))

theorem enqueue_keeps {s : Solver} (hw : s.assignments.WF) (l : Int) (c : Nat) :
    Keeps s.assignments (s.enqueue l c).1.assignments := by
  unfold Solver.enqueue
  split
  · exact fun _ _ h => h
  · rename_i hv
    intro v x h
    have hv : s.assignments.data l = none := hv
    have h : s.assignments.data v = some x := h
    show (s.assignments.setItem (iabs l) (some (decide (0 < l)))).data v = some x
    rw [ASet.setItem_data_some]
    have hn : s.assignments.data (-l) = none := (hw.neg_none l).2 hv
    have h1 : v ≠ l := fun e => by rw [e, hv] at h; cases h
    have h2 : v ≠ -l := fun e => by rw [e, hn] at h; cases h
    rw [if_neg (by unfold iabs; omega), if_neg (by unfold iabs; omega)]
    exact h

theorem propClauses_keeps (lit : Int) (pend : List Nat) {s s' : Solver} {o : Option Nat} (h : s.NZ) (hw : s.assignments.WF)
    (e : Solver.propClauses lit pend s = .ok (s', o)) : Keeps s.assignments s'.assignments := by
  induction pend generalizing s with
  | nil => cases e; exact fun _ _ h => h
  | cons cid rest ih =>
    simp only [Solver.propClauses] at e
    cases hr : rewatch s.val (s.litsOf cid) lit with
    | error e' => rw [hr] at e; cases e
    | ok r =>
      obtain ⟨lits', u⟩ := r
      rw [hr] at e
      obtain ⟨k1, k2⟩ := Solver.rewatch_sub hr
      have k3 := Solver.setHeap_chg h cid (c := { s.heap cid with lits := lits' }) (fun l hl => h.cls cid l (k1 l hl))
      simp only at e
      split at e
      · rename_i x0 w t
        have k4 : Solver.Chg s (Solver.watch { s with heap := fset s.heap cid { s.heap cid with lits := _ } } (-w) cid) :=
          ⟨⟨k3.nz.cls, k3.nz.trail⟩, k3.sets⟩
        cases u with
        | none =>
          have := ih k4.nz hw e
          exact this
        | some u =>
          simp only at e
          split at e
          · cases e; exact fun _ _ h => h
          · have k5 := Solver.enqueue_chg k4.nz (h.cls cid u (k2 u rfl)) cid
            have k6 := enqueue_keeps
              (s := Solver.watch { s with heap := fset s.heap cid { s.heap cid with lits := x0 :: w :: t } } (-w) cid)
              hw u cid
            exact fun v x hv => ih k5.nz (wf_sets k5.sets hw) e v x (k6 v x hv)
      · cases e

theorem propagate_keeps (fuel : Nat) {s s' : Solver} {o : Option Nat} (h : s.NZ) (hw : s.assignments.WF)
    (e : Solver.propagate fuel s = .ok (s', o)) : Keeps s.assignments s'.assignments := by
  induction fuel generalizing s with
  | zero =>
    unfold Solver.propagate at e
    split at e
    · cases e; exact fun _ _ h => h
    · cases e
  | succ n ih =>
    unfold Solver.propagate at e
    split at e
    · cases e; exact fun _ _ h => h
    · rename_i lit queue _
      simp only at e
      have h1 : Solver.NZ { s with propQueue := queue, watches := fset s.watches lit [] } := ⟨h.cls, h.trail⟩
      split at e
      · cases e
      · rename_i hp; cases e; have := propClauses_keeps lit _ h1 hw hp; exact this
      · rename_i hp
        have k := Solver.propClauses_chg lit _ h1 hp
        have k' := propClauses_keeps lit _ h1 hw hp
        exact fun v x hv => ih k.nz (wf_sets k.sets hw) e v x (k' v x hv)

/-- consecutive questions without a conflict in between keep every value -/
def Kept : List Question → Prop
  | q :: q' :: H => (Lost q q' → q'.conflicts ≠ 0) ∧ Kept (q' :: H)
  | _ => True

theorem kept_append : ∀ {H : List Question} {q : Question}, Kept H →
    (∀ p, H.getLast? = some p → Lost p q → q.conflicts ≠ 0) → Kept (H ++ [q])
  | [], _, _, _ => trivial
  | [p], q, _, h => ⟨h p rfl, trivial⟩
  | p :: p' :: H, q, hk, h =>
    ⟨hk.1, kept_append (H := p' :: H) hk.2 (fun r hr => h r (by rw [List.getLast?_cons_cons]; exact hr))⟩

theorem searched_kept {pol : Policy σ} {G : List (List Int)} (hG : ∀ c ∈ G, ∀ l ∈ c, l ≠ 0)
    {PI : σ → Prop} (hpol : Reader pol PI) {ps0 : σ} (hps : PI ps0) {req : List Int} {H : List Question} {k : Nat} {ps : σ × Log}
    {s : Solver} (h : Searched (loggedPolicy pol) G (ps0, ⟨req, [], []⟩) H k ps s) :
    s.assignments.WF ∧ Kept H ∧ (k = 0 → ∀ q, H.getLast? = some q → ∀ v x, 0 < v → q.values.value v = some x →
      s.assignments.value v = some x) := by
  induction h with
  | start h =>
    obtain ⟨k1, k2⟩ := Solver.fromRules_chg G hG h
    exact ⟨wf_sets k2 ASet.wf_empty, trivial, by simp⟩
  | @decision H k ps s s1 ps' a p hS hp ha hn ih =>
    obtain ⟨i1, i2, i3⟩ := ih
    have hL := history_log hG hpol hps (searched_history hS)
    obtain ⟨j1, j0, ⟨m, j2, j3⟩, -⟩ := hL
    have k1 := Solver.propagate_chg _ j1 hp
    have kk := propagate_keeps _ j1 i1 hp
    obtain ⟨m1, k2, k3⟩ := alog_sets k1.sets j2
    simp only [loggedPolicy] at hn
    cases hx : pol.next ps.1 s1.assignments.getChangelog.1 (s1.clauses.map s1.heap) with
    | error e => rw [hx] at hn; cases hn
    | ok r =>
      obtain ⟨st', a', p'⟩ := r
      rw [hx] at hn
      simp only [Except.ok.injEq, Prod.mk.injEq] at hn
      obtain ⟨rfl, rfl, rfl⟩ := hn
      obtain ⟨hPI, hpn, hR⟩ := hpol _ _ _ _ _ _ j0 (by
        intro c hc l hl
        obtain ⟨cid, -, rfl⟩ := List.mem_map.1 hc
        exact k1.nz.cls cid l hl) hx
      obtain ⟨m2, k4, k5⟩ := alog_reads hR (alog_step k2 .get trivial)
      have k6 : ALog a'.consumeChangelog.1 { m2 with base := m2.val } := alog_step k4 .consume trivial
      have hwf : a'.consumeChangelog.1.WF := k6.rel.wf
      have hnz : Solver.NZ { s1 with assignments := a'.consumeChangelog.1, trailLim := s1.trail.length :: s1.trailLim } :=
        ⟨k1.nz.cls, k1.nz.trail⟩
      have k7 := Solver.enqueue_chg hnz hpn 0
      have k8 := enqueue_keeps (s := { s1 with
        assignments := a'.consumeChangelog.1
        trailLim := s1.trail.length :: s1.trailLim }) hwf p' 0
      refine ⟨wf_sets k7.sets hwf, ?_, ?_⟩
      · refine kept_append i2 ?_
        rintro q hq ⟨v, hv, h1, h2⟩ e
        obtain ⟨x, hx⟩ := Option.ne_none_iff_exists'.1 h1
        have := kk v x (i3 e q hq v x hv hx)
        have h2 : s1.assignments.value v = none := h2
        rw [h2] at this; cases this
      · intro _ q hq v x hv hx
        simp only [List.getLast?_append, List.getLast?_singleton, Option.some_or, Option.some.injEq] at hq
        subst hq
        apply k8 v x
        have e1 := same_val_pos k2 v hv
        have e2 := same_val_pos k6 v hv
        have e3 : m2.val v = m1.val v := by rw [k5]; rfl
        show a'.consumeChangelog.1.value v = some x
        rw [← e2]
        show m2.val v = some x
        rw [e3, e1]; exact hx
  | @conflict H k ps s s1 c ps' s' hS hp ht ih =>
    obtain ⟨i1, i2, i3⟩ := ih
    obtain ⟨j1, -⟩ := history_log hG hpol hps (searched_history hS)
    obtain ⟨-, k1⟩ := turn_conflict_chg j1 hp ht
    exact ⟨wf_sets k1.sets i1, i2, by simp⟩

section
variable {K M : Type} [LinearOrder K] [DecidableEq M] {key : Int → K} {name : Int → M}

theorem differences_of {q q' : Question} {c : List (Int × Change)} (h : IsDiff c q.values.value q'.values.value) :
    Differences key name q q'
      ((sortBy (fun e => key e.1) c).filter (fun e => decide (name e.1 ≠ name (iabs q.answer)))) := by
  refine ⟨(sortBy_sorted _ c).filter _, ?_, ?_⟩
  · exact ((List.filter_sublist.map Prod.fst).nodup (((sortBy_perm (fun e => key e.1) c).map Prod.fst).nodup_iff.2 h.1))
  · intro v old new
    rw [List.mem_filter, mem_sortBy, h.2]
    simp [and_assoc]

theorem any_lost {q q' : Question} {c : List (Int × Change)} (h : IsDiff c q.values.value q'.values.value) :
    (sortBy (fun e => key e.1) c).any (fun e => decide (e.2.2 = none)) = true ↔ Lost q q' := by
  rw [List.any_eq_true]
  constructor
  · rintro ⟨⟨v, o, n⟩, he, hn⟩
    rw [mem_sortBy, h.2] at he
    obtain ⟨h1, rfl, rfl, h4⟩ := he
    simp only [decide_eq_true_eq] at hn
    exact ⟨v, h1, fun e => h4 (by rw [e, hn]), hn⟩
  · rintro ⟨v, h1, h2, h3⟩
    refine ⟨(v, (q.values.value v, q'.values.value v)), ?_, by simp [h3]⟩
    rw [mem_sortBy, h.2]
    exact ⟨h1, rfl, rfl, by rw [h3]; exact h2⟩

theorem report_told (log : Log) (H : List Question) : ∀ (q : Question) (pre : List (List (Int × Change))) (cs : List (List (Int × Change))),
    log.changes = pre ++ cs → Faithful q.values.value cs (H.map (fun q => (q.values, q.answer))) → Kept (q :: H) →
    pre ≠ [] →
    Told log.required key name (pre.length - 1) (q :: H)
      (reportFrom key name log true (pre.length - 1) ((q :: H).map (fun q => iabs q.answer))) := by
  induction H with
  | nil =>
    intro q pre cs hc hf hk hp
    cases cs with
    | cons c cs => exact hf.elim
    | nil =>
      have hl : log.changes[pre.length - 1 + 1]? = none := by
        rw [hc, List.append_nil, List.getElem?_eq_none]; omega
      simp only [List.map_cons, List.map_nil, reportFrom, hl, List.append_nil]
      exact .last _ _
  | cons q' H ih =>
    intro q pre cs hc hf hk hp
    cases cs with
    | nil => exact hf.elim
    | cons c cs =>
      have hlen : 0 < pre.length := List.length_pos_iff.2 hp
      have hl : log.changes[pre.length - 1 + 1]? = some c := by
        rw [hc, Nat.sub_add_cancel hlen, List.getElem?_append_right (Nat.le_refl _)]; simp
      have hrec := ih q' (pre ++ [c]) cs (by rw [hc]; simp) hf.2 hk.2 (by simp)
      rw [show (pre ++ [c]).length - 1 = pre.length - 1 + 1 by simp; omega] at hrec
      rw [List.map_cons]
      simp only [reportFrom, hl, if_true]
      have hI : decide (iabs q.answer ∈ log.installed) = false := by simp [Log.installed, installedIdsAttribute]
      rw [hI]
      by_cases hx : Lost q q'
      · rw [if_pos ((any_lost hf.1).2 hx)]
        exact .backward (differences_of hf.1) hx (hk.1 hx) hrec
      · rw [if_neg (fun e => hx ((any_lost hf.1).1 e))]
        exact .forward (differences_of hf.1) hx hrec

/-- C100 (partial): at every moment of every search with a logged policy, the report lists the values at the first question and
then tells, for each question but the last, the decision and its consequences; it says BACKTRACKED only where there has been a
conflict. Missing: the last decision (`C100_violated_last`), the conflicts after which every package still has a value
(`C100_violated_backtracked`), and the mark of installed packages, which never appears (`C100_violated_installed`). -/
theorem C100_report_partial {pol : Policy σ} {G : List (List Int)} (hG : ∀ c ∈ G, ∀ l ∈ c, l ≠ 0)
    {PI : σ → Prop} (hpol : Reader pol PI) {ps0 : σ} (hps : PI ps0) {req : List Int} {q : Question} {H : List Question} {k : Nat}
    {ps : σ} {log : Log} {s : Solver} (h : Searched (loggedPolicy pol) G (ps0, ⟨req, [], []⟩) (q :: H) k (ps, log) s) :
    ∃ vs L, log.report key name true = .values vs :: L ∧
      (vs.map Prod.fst).Nodup ∧ (∀ v b, (v, b) ∈ vs ↔ 0 < v ∧ q.values.value v = some b) ∧
      Told req key name 0 (q :: H) L := by
  obtain ⟨h1, h2, h3⟩ := C73_log_is_faithful hG hpol hps (searched_history h)
  obtain ⟨-, hk, -⟩ := searched_kept hG hpol hps h
  cases hc : log.changes with
  | nil => rw [hc] at h3; exact h3.elim
  | cons c cs =>
    rw [hc] at h3
    have ht := report_told (key := key) (name := name) log H q [c] cs (by rw [hc]; rfl) h3.2 hk (by simp)
    refine ⟨c.filterMap (fun e => e.2.2.map (fun b => (e.1, b))),
      reportFrom key name log true 0 ((q :: H).map (fun q => iabs q.answer)), ?_, ?_, ?_, ?_⟩
    · simp only [Log.report, hc, h1, List.map_map]; rfl
    · have hd : (c.map Prod.fst).Nodup := h3.1.1
      clear h3 ht hc
      induction c with
      | nil => simp
      | cons e c ih =>
        simp only [List.map_cons, List.nodup_cons] at hd
        rw [List.filterMap_cons]
        cases he : e.2.2 with
        | none => exact ih hd.2
        | some b =>
          simp only [Option.map_some, List.map_cons, List.nodup_cons]
          refine ⟨?_, ih hd.2⟩
          intro hm
          apply hd.1
          simp only [List.mem_map, List.mem_filterMap, Option.map_eq_some_iff] at hm ⊢
          obtain ⟨x, ⟨y, hy, b', -, rfl⟩, hx⟩ := hm
          exact ⟨y, hy, hx⟩
    · intro v b
      simp only [List.mem_filterMap, Option.map_eq_some_iff, Prod.mk.injEq]
      constructor
      · rintro ⟨⟨v', o, n⟩, hm, b', hn, rfl, rfl⟩
        obtain ⟨k1, -, k3, -⟩ := (h3.1.2 _ _ _).1 hm
        exact ⟨k1, k3.symm.trans hn⟩
      · rintro ⟨hv, hb⟩
        exact ⟨(v, (none, some b)), (h3.1.2 _ _ _).2 ⟨hv, rfl, hb.symm, by simp⟩, b, rfl, rfl, rfl⟩
    · rw [← h2]; exact ht

/-- the list of the first values -/
def Line.isValues : Line → Bool
  | .values _ => true
  | _ => false

/-- the line without its changes -/
def Line.withoutChanges : Line → Line
  | .suggestion i r inst id _ => .suggestion i r inst id []
  | l => l

/-- the numbers and packages of the suggestions told -/
def Line.told : Line → Option (Nat × Int)
  | .suggestion i _ _ id _ => some (i, id)
  | _ => none

omit [DecidableEq M] in
theorem told_lines {req : List Int} {i : Nat} {q : Question} {H : List Question} {L : List Line}
    (h : Told req key name i (q :: H) L) :
    L.filterMap Line.told = (List.range' i H.length).zip ((q :: H).map (fun q => iabs q.answer)) ∧
    ∀ j r inst id cs, Line.suggestion j r inst id cs ∈ L → inst = false := by
  generalize hQ : q :: H = Q at h
  induction h generalizing q H with
  | last i q => cases hQ; simp
  | forward _ _ _ ih =>
    cases hQ
    obtain ⟨h1, h2⟩ := ih rfl
    refine ⟨by simp only [List.filterMap_cons, Line.told, h1]; simp [List.range'_succ], ?_⟩
    intro j r inst id cs hm
    rcases List.mem_cons.1 hm with e | hm
    · cases e; rfl
    · exact h2 _ _ _ _ _ hm
  | backward _ _ _ _ ih =>
    cases hQ
    obtain ⟨h1, h2⟩ := ih rfl
    refine ⟨by simp only [List.filterMap_cons, Line.told, h1]; simp [List.range'_succ], ?_⟩
    intro j r inst id cs hm
    simp only [List.mem_cons, reduceCtorEq, false_or] at hm
    rcases hm with e | hm
    · cases e; rfl
    · exact h2 _ _ _ _ _ hm

/-- C100 is violated: of the decisions of a search the report tells all but the last. -/
theorem C100_violated_last {pol : Policy σ} {G : List (List Int)} (hG : ∀ c ∈ G, ∀ l ∈ c, l ≠ 0)
    {PI : σ → Prop} (hpol : Reader pol PI) {ps0 : σ} (hps : PI ps0) {req : List Int} {q : Question} {H : List Question} {k : Nat}
    {ps : σ} {log : Log} {s : Solver} (h : Searched (loggedPolicy pol) G (ps0, ⟨req, [], []⟩) (q :: H) k (ps, log) s) :
    ((log.report key name true).filterMap Line.told).map Prod.snd = (q :: H).dropLast.map (fun q => iabs q.answer) := by
  obtain ⟨vs, L, h1, -, -, h4⟩ := C100_report_partial (key := key) (name := name) hG hpol hps h
  rw [h1, List.filterMap_cons]
  simp only [Line.told]
  rw [(told_lines h4).1]
  have e : ∀ (H : List Question) (q : Question) (i : Nat),
      ((List.range' i H.length).zip ((q :: H).map (fun q => iabs q.answer))).map Prod.snd =
        (q :: H).dropLast.map (fun q => iabs q.answer) := by
    intro H
    induction H with
    | nil => intro q i; rfl
    | cons q' H ih =>
      intro q i
      rw [List.length_cons, List.range'_succ, List.map_cons, List.zip_cons_cons, List.map_cons, ih q' (i + 1)]
      rfl
  exact e H q 0

/-- C100 is violated: no suggestion is ever marked as installed. -/
theorem C100_violated_installed {pol : Policy σ} {G : List (List Int)} (hG : ∀ c ∈ G, ∀ l ∈ c, l ≠ 0)
    {PI : σ → Prop} (hpol : Reader pol PI) {ps0 : σ} (hps : PI ps0) {req : List Int} {q : Question} {H : List Question} {k : Nat}
    {ps : σ} {log : Log} {s : Solver} (h : Searched (loggedPolicy pol) G (ps0, ⟨req, [], []⟩) (q :: H) k (ps, log) s) :
    ∀ j r inst id cs, Line.suggestion j r inst id cs ∈ log.report key name true → inst = false := by
  obtain ⟨vs, L, h1, -, -, h4⟩ := C100_report_partial (key := key) (name := name) hG hpol hps h
  rw [h1]
  intro j r inst id cs hm
  simp only [List.mem_cons, reduceCtorEq, false_or] at hm
  exact (told_lines h4).2 _ _ _ _ _ hm

/-- C100: without the assignments the report is the same but for the lists of values and changes. -/
theorem C100_without_assignments (log : Log) :
    log.report key name false = ((log.report key name true).filter (fun l => !Line.isValues l)).map Line.withoutChanges := by
  have e : ∀ (l : List Int) (i : Nat), reportFrom key name log false i l =
      ((reportFrom key name log true i l).filter (fun l => !Line.isValues l)).map Line.withoutChanges := by
    intro l
    induction l with
    | nil => intro i; rfl
    | cons x l ih =>
      intro i
      rw [reportFrom, reportFrom, List.filter_append, List.map_append, ← ih]
      congr 1
      cases log.changes[i + 1]? with
      | none => rfl
      | some c =>
        simp only [if_true, Bool.false_eq_true, if_false]
        cases (sortBy (fun e => key e.1) c).any (fun e => decide (e.2.2 = none)) <;> rfl
  unfold Log.report
  cases log.changes with
  | nil => exact e _ 0
  | cons c cs =>
    simp only [List.nil_append, List.singleton_append, List.filter_cons, Line.isValues]
    exact e _ 0

/-- C100 (partial) for the policy that the dependency solver uses. -/
theorem C100_package_policy_partial {V : Type} [LinearOrder V] {ver : Int → Option V} {order : Nat → List Int → List Int}
    (hord : ∀ n l, (order n l).Perm l) {G : List (List Int)} (hG : ∀ c ∈ G, ∀ l ∈ c, l ≠ 0) {prefer reqs : List Int}
    (h0 : ∀ x ∈ prefer ++ reqs, x ≠ 0) {q : Question} {H : List Question} {k : Nat} {st : PolState} {log : Log} {s : Solver}
    (h : Searched (loggedPolicy (rawPolicy ver order)) G (PolState.start prefer reqs, Log.empty.addRequirements reqs) (q :: H) k
      (st, log) s) :
    ∃ vs L, log.report key name true = .values vs :: L ∧
      (vs.map Prod.fst).Nodup ∧ (∀ v b, (v, b) ∈ vs ↔ 0 < v ∧ q.values.value v = some b) ∧
      Told reqs key name 0 (q :: H) L :=
  C100_report_partial hG (rawPolicy_reader (ver := ver) hord) (start_noZero h0) h

end

/-! #### Non-vacuity, and the violation -/
namespace ReportExample
open LogExample

/-- C100 is violated: package 1 is decided, the decision leads to a conflict, the solver goes back and forbids package 1, and
the report does not say so: the change of a package of the decided name is left out, and the package still has a value. -/
theorem C100_violated_backtracked : ∃ q q' ps s, Searched (loggedPolicy (rawPolicy ver keep)) G
    (PolState.start [1] [3, 4], Log.empty.addRequirements [3, 4]) [q, q'] 0 ps s ∧
    q'.conflicts = 1 ∧ q.answer = 1 ∧ q'.values.value 1 = some false ∧
    ps.2.report (fun x => x) (fun x => x) true = [.values [], .suggestion 0 false false 1 []] :=
  ⟨_, _, _, _, .decision (.conflict (.decision (.start rfl) rfl rfl rfl) rfl rfl) rfl rfl rfl, rfl, rfl, by decide +kernel, rfl⟩

/-- a conflict that takes the value of package 2 away -/
def G2 : List (List Int) := [[-1, -3, 4], [-1, -3, -4], [-1, 3, 5], [2, 6]]

example : (∀ c ∈ G2, ∀ l ∈ c, l ≠ 0) ∧ ∀ x ∈ [1, 2, 3] ++ [3], x ≠ (0 : Int) := by decide

theorem told : ∃ H ps s, Searched (loggedPolicy (rawPolicy ver keep)) G2
    (PolState.start [1, 2, 3] [3], Log.empty.addRequirements [3]) H 0 ps s ∧
    H.map Question.answer = [1, 2, 3, 2] ∧ H.map Question.conflicts = [0, 0, 0, 1] ∧
    ps.2.report (fun x => x) (fun x => x) true = [.values [], .suggestion 0 false false 1 [], .suggestion 1 false false 2 [],
      .suggestion 2 true false 3 [(2, (some true, none)), (5, (none, some true))], .backtracked] :=
  ⟨_, _, _, .decision (.conflict (.decision (.decision (.decision (.start rfl) rfl rfl rfl) rfl rfl rfl) rfl rfl rfl)
    rfl rfl) rfl rfl rfl, by decide +kernel, by decide +kernel, rfl⟩

end ReportExample
end Verif.Props
