import Verif.AssignmentSetLemmas
import Verif.Sat.Model
import Verif.Sat.Spec
/-
The invariant of the solver state, and how the elementary operations keep it.
-/
namespace Verif.Sat
open Verif
namespace Solver

/-- decision level of trail position `i`, given the positions of the decisions -/
def lv (lim : List Nat) (i : Nat) : Nat := lim.countP (fun n => decide (n ≤ i))

theorem lv_le (lim : List Nat) (i : Nat) : lv lim i ≤ lim.length := List.countP_le_length

theorem lv_mono (lim : List Nat) {i j : Nat} (h : i ≤ j) : lv lim i ≤ lv lim j := by
  unfold lv
  exact List.countP_mono_left (by intro x _ hx; simp at *; omega)

theorem lv_full (lim : List Nat) (i : Nat) (h : ∀ n ∈ lim, n ≤ i) : lv lim i = lim.length := by
  unfold lv; rw [List.countP_eq_length]; simpa using h

theorem lv_cons_lt (n : Nat) (lim : List Nat) {i : Nat} (h : i < n) : lv (n :: lim) i = lv lim i := by
  unfold lv
  rw [List.countP_cons_of_neg]
  simpa using h

theorem lv_lt (n : Nat) (lim : List Nat) {i : Nat} (h : i < n) : lv (n :: lim) i < (n :: lim).length := by
  rw [lv_cons_lt n lim h]; have := lv_le lim i; simp; omega

theorem lv_head (n : Nat) (lim : List Nat) (hp : (n :: lim).Pairwise (· > ·)) {i : Nat} (h : n ≤ i) :
    lv (n :: lim) i = (n :: lim).length := by
  apply lv_full
  intro x hx
  rcases List.mem_cons.1 hx with rfl | hx
  · exact h
  · have := (List.pairwise_cons.1 hp).1 x hx; omega

theorem mem_suffix {p : Int} {t : List Int} (h : p ∈ t) : ∃ r, (p :: r) <:+ t := by
  obtain ⟨a, b, rfl⟩ := List.append_of_mem h
  exact ⟨b, List.suffix_append a (p :: b)⟩

theorem suffix_mem {p : Int} {r t : List Int} (h : (p :: r) <:+ t) : p ∈ t := h.subset (by simp)

theorem suffix_rest {p : Int} {r t : List Int} (h : (p :: r) <:+ t) : r <:+ t :=
  (List.suffix_cons p r).trans h

theorem suffix_unique {p q : Int} {r r' t : List Int} (hn : (t.map iabs).Nodup)
    (h : (p :: r) <:+ t) (h' : (q :: r') <:+ t) (e : iabs p = iabs q) : p = q ∧ r = r' := by
  induction t with
  | nil => simp at h
  | cons x t ih =>
    rw [List.map_cons, List.nodup_cons] at hn
    rw [List.suffix_cons_iff] at h h'
    rcases h with h | h <;> rcases h' with h' | h'
    · simp only [List.cons.injEq] at h h'
      exact ⟨h.1.trans h'.1.symm, h.2.trans h'.2.symm⟩
    · exfalso
      simp only [List.cons.injEq] at h
      apply hn.1; rw [← h.1, e]; exact List.mem_map_of_mem (suffix_mem h')
    · exfalso
      simp only [List.cons.injEq] at h'
      apply hn.1; rw [← h'.1, ← e]; exact List.mem_map_of_mem (suffix_mem h)
    · exact ih hn.2 h h'

/-- Facts that hold in every state of the solver, including the intermediate states of `analyze`.
`F` is the formula, `U` the finite set of variables that may ever be assigned, `D p rest` a
property of the decisions (`p` decided when the trail was `rest`). -/
structure Base (F : List (List Int)) (U : List Int) (D : Int → List Int → Prop) (s : Solver) : Prop where
  aset : s.assignments.WF
  vT : ∀ l, s.val l = some true ↔ l ∈ s.trail
  tnz : ∀ l ∈ s.trail, l ≠ 0
  tnd : (s.trail.map iabs).Nodup
  seenU : ∀ v ∈ s.assignments.seen, v ∈ U
  limP : s.trailLim.Pairwise (· > ·)
  limLe : ∀ n ∈ s.trailLim, n ≤ s.trail.length
  lev : ∀ p rest, (p :: rest) <:+ s.trail → s.levels (iabs p) = (lv s.trailLim rest.length : Int)
  reas : ∀ p rest, (p :: rest) <:+ s.trail → ∃ cid, s.assigning (iabs p) = some cid ∧
    ((rest.length ∈ s.trailLim ∧ cid = 0 ∧ D p rest) ∨
     (cid ∈ s.clauses ∧ p ∈ s.litsOf cid ∧ ∀ l ∈ s.litsOf cid, l ≠ p → -l ∈ rest))
  h0 : s.litsOf 0 = []
  npos : 0 < s.nextId
  idr : ∀ cid ∈ s.clauses, 0 < cid ∧ cid < s.nextId
  cnd : ∀ cid ∈ s.clauses, (s.litsOf cid).Nodup
  cne : ∀ cid ∈ s.clauses, s.litsOf cid ≠ []
  cnz : ∀ cid ∈ s.clauses, ∀ l ∈ s.litsOf cid, l ≠ 0
  cU : ∀ cid ∈ s.clauses, ∀ l ∈ s.litsOf cid, iabs l ∈ U
  cent : ∀ cid ∈ s.clauses, Entails F (s.litsOf cid)

/-- every unit clause of the state is true at the level at which the search began, or below -/
def Units (R : Nat) (s : Solver) : Prop :=
  ∀ cid ∈ s.clauses, ∀ l, s.litsOf cid = [l] → l ∈ s.trail ∧ s.levels (iabs l) ≤ (R : Int)

/-- every clause of `G` is one of the clauses of the state, up to order and repetition -/
def Covers (G : List (List Int)) (s : Solver) : Prop :=
  ∀ c ∈ G, c ≠ [] → ∃ cid ∈ s.clauses, ∀ l, l ∈ s.litsOf cid ↔ l ∈ c

/-- every variable of a clause is a key of the assignments -/
def CSeen (s : Solver) : Prop :=
  ∀ cid ∈ s.clauses, ∀ l ∈ s.litsOf cid, iabs l ∈ s.assignments.seen

/-- `W` lists, for every literal, the clauses that watch its negation -/
structure WIdx (s : Solver) (W : Int → List Nat) : Prop where
  nd : ∀ k, (W k).Nodup
  iff : ∀ k cid, cid ∈ W k ↔ cid ∈ s.clauses ∧ ∃ a b r, s.litsOf cid = a :: b :: r ∧ (k = -a ∨ k = -b)

/-- a watched literal `x` may be false only if it is exempted or if the other one, `y`, is true and
was not assigned at a higher level, or at the level at which the search began, `R`, or below -/
def WOk (R : Nat) (s : Solver) (E : Nat → Int → Prop) (cid : Nat) (x y : Int) : Prop :=
  -x ∈ s.trail → E cid (-x) ∨ (y ∈ s.trail ∧ s.levels (iabs y) ≤ max (s.levels (iabs x)) (R : Int))

def WVal (R : Nat) (s : Solver) (E : Nat → Int → Prop) : Prop :=
  ∀ cid ∈ s.clauses, ∀ a b r, s.litsOf cid = a :: b :: r → WOk R s E cid a b ∧ WOk R s E cid b a

section
variable {F : List (List Int)} {U : List Int} {D : Int → List Int → Prop} {s : Solver}

theorem Base.congr {s' : Solver} (h : Base F U D s) (e1 : s'.assignments = s.assignments)
    (e2 : s'.trail = s.trail) (e3 : s'.trailLim = s.trailLim) (e4 : s'.levels = s.levels)
    (e5 : s'.assigning = s.assigning) (e6 : s'.heap = s.heap) (e7 : s'.clauses = s.clauses)
    (e8 : s'.nextId = s.nextId) : Base F U D s' := by
  obtain ⟨heap, nextId, clauses, watches, assignments, ct, levels, q, trail, lim, assigning, st⟩ := s
  obtain ⟨heap', nextId', clauses', watches', assignments', ct', levels', q', trail', lim', assigning', st'⟩ := s'
  simp only at e1 e2 e3 e4 e5 e6 e7 e8
  subst e1 e2 e3 e4 e5 e6 e7 e8
  exact ⟨h.aset, h.vT, h.tnz, h.tnd, h.seenU, h.limP, h.limLe, h.lev, h.reas, h.h0, h.npos, h.idr, h.cnd, h.cne,
    h.cnz, h.cU, h.cent⟩

theorem Base.vF (h : Base F U D s) (l : Int) : s.val l = some false ↔ -l ∈ s.trail := by
  rw [← h.vT]; exact h.aset.false_iff l

theorem Base.vN (h : Base F U D s) (l : Int) : s.val l = none ↔ l ∉ s.trail ∧ -l ∉ s.trail := by
  rw [← h.vT, ← h.vF]
  cases s.val l with
  | none => simp
  | some b => cases b <;> simp

theorem Base.cons (h : Base F U D s) {l : Int} (h1 : l ∈ s.trail) : -l ∉ s.trail := by
  intro h2
  rw [← h.vF] at h2; rw [← h.vT] at h1
  rw [h1] at h2; simp at h2

theorem Base.levLe (h : Base F U D s) {l : Int} (h1 : l ∈ s.trail) :
    s.levels (iabs l) ≤ (s.decisionLevel : Int) := by
  obtain ⟨r, hr⟩ := mem_suffix h1
  rw [h.lev l r hr]
  have := lv_le s.trailLim r.length
  unfold decisionLevel; omega

theorem Base.levNonneg (h : Base F U D s) {l : Int} (h1 : l ∈ s.trail) : 0 ≤ s.levels (iabs l) := by
  obtain ⟨r, hr⟩ := mem_suffix h1
  rw [h.lev l r hr]; omega

theorem Base.trailSeen (h : Base F U D s) {l : Int} (h1 : l ∈ s.trail) : iabs l ∈ s.assignments.seen :=
  h.aset.seen_of_data (by rw [← h.vT] at h1; unfold val ASet.value at h1; rw [h1]; simp)

theorem Base.trailU (h : Base F U D s) {l : Int} (h1 : l ∈ s.trail) : iabs l ∈ U :=
  h.seenU _ (h.trailSeen h1)

/-- at level 0 or when the state has decisions, levels are determined by the position -/
theorem Base.lev_lt_iff (h : Base F U D s) {n : Nat} {lim : List Nat} (hl : s.trailLim = n :: lim)
    {p : Int} {r : List Int} (hp : (p :: r) <:+ s.trail) :
    s.levels (iabs p) < (s.decisionLevel : Int) ↔ r.length < n := by
  rw [h.lev p r hp]
  unfold decisionLevel
  have hP := h.limP
  rw [hl] at hP ⊢
  constructor
  · intro hlt
    by_cases hn : r.length < n
    · exact hn
    · rw [lv_head n lim hP (by omega)] at hlt; omega
  · intro hn
    have := lv_lt n lim hn; omega

end

theorem push_val (s : Solver) (l : Int) (c : Nat) (hl : l ≠ 0) (x : Int) :
    (s.push l c).val x = if x = -l then some false else if x = l then some true else s.val x := by
  unfold push val ASet.value
  rw [ASet.setItem_data_some]
  by_cases hp : 0 < l
  · rw [iabs_of_pos hp]; simp [hp]
  · have : iabs l = -l := by unfold iabs; omega
    rw [this]
    have e : - -l = l := by omega
    rw [e]
    simp only [hp, decide_false, Bool.not_false]
    by_cases h1 : x = l
    · subst h1; rw [if_pos rfl, if_neg (by omega), if_pos rfl]
    · simp only [h1, if_false]

theorem push_base {F U D} {s : Solver} (h : Base F U D s) {l : Int} {c : Nat} (hv : s.val l = none)
    (hl : l ≠ 0) (hU : iabs l ∈ U)
    (hc : (s.trail.length ∈ s.trailLim ∧ c = 0 ∧ D l s.trail) ∨
      (c ∈ s.clauses ∧ l ∈ s.litsOf c ∧ ∀ x ∈ s.litsOf c, x ≠ l → -x ∈ s.trail)) :
    Base F U D (s.push l c) := by
  have hN := (h.vN l).1 hv
  have hnm : iabs l ∉ s.trail.map iabs := by
    intro hm
    obtain ⟨y, hy, e⟩ := List.mem_map.1 hm
    rcases (iabs_eq_iff y l).1 e with e | e
    · subst e; exact hN.1 hy
    · subst e; exact hN.2 hy
  have hne : ∀ {p : Int}, p ∈ s.trail → iabs p ≠ iabs l := by
    intro p hp e; exact hnm (e ▸ List.mem_map_of_mem hp)
  refine ⟨?_, ?_, ?_, ?_, ?_, h.limP, ?_, ?_, ?_, h.h0, h.npos, h.idr, h.cnd, h.cne, h.cnz, h.cU, h.cent⟩
  · show (s.assignments.setItem (iabs l) (some (decide (0 < l)))).WF
    exact ASet.wf_setItem h.aset (iabs l) (by have := iabs_pos l hl; omega) _
  · intro x
    rw [push_val s l c hl]
    show _ ↔ x ∈ l :: s.trail
    rw [List.mem_cons, ← h.vT]
    by_cases h1 : x = -l
    · subst h1
      simp only [if_true]
      rw [h.vT]
      have : ¬ (-l = l) := by omega
      simp [this, hN.2]
    · by_cases h2 : x = l
      · simp [h2]; omega
      · simp [h1, h2]
  · intro x hx
    rcases List.mem_cons.1 hx with rfl | hx
    · exact hl
    · exact h.tnz x hx
  · show ((l :: s.trail).map iabs).Nodup
    rw [List.map_cons, List.nodup_cons]
    exact ⟨hnm, h.tnd⟩
  · intro v hv
    have hv : v ∈ (s.assignments.setItem (iabs l) (some (decide (0 < l)))).seen := hv
    rw [ASet.setItem_seen, iabs_iabs] at hv
    rcases hv with rfl | hv
    · exact hU
    · exact h.seenU v hv
  · intro n hn
    have := h.limLe n hn
    show n ≤ (l :: s.trail).length
    simp; omega
  · intro p rest hp
    have hp : (p :: rest) <:+ l :: s.trail := hp
    show fset s.levels (iabs l) (s.decisionLevel : Int) (iabs p) = (lv s.trailLim rest.length : Int)
    rw [List.suffix_cons_iff] at hp
    rcases hp with hp | hp
    · simp only [List.cons.injEq] at hp
      obtain ⟨rfl, rfl⟩ := hp
      rw [fset_same, lv_full _ _ h.limLe]; rfl
    · rw [fset_ne _ _ (hne (suffix_mem hp))]; exact h.lev p rest hp
  · intro p rest hp
    have hp : (p :: rest) <:+ l :: s.trail := hp
    show ∃ cid, fset s.assigning (iabs l) (some c) (iabs p) = some cid ∧ _
    rw [List.suffix_cons_iff] at hp
    rcases hp with hp | hp
    · simp only [List.cons.injEq] at hp
      obtain ⟨rfl, rfl⟩ := hp
      rw [fset_same]
      exact ⟨c, rfl, hc⟩
    · rw [fset_ne _ _ (hne (suffix_mem hp))]; exact h.reas p rest hp

theorem push_levels {F U D} {s : Solver} (h : Base F U D s) {l : Int} {c : Nat} (hv : s.val l = none)
    {p : Int} (hp : p ∈ s.trail) : (s.push l c).levels (iabs p) = s.levels (iabs p) := by
  have hN := (h.vN l).1 hv
  show fset s.levels (iabs l) (s.decisionLevel : Int) (iabs p) = _
  rw [fset_ne]
  intro e
  rcases (iabs_eq_iff p l).1 e with e | e
  · subst e; exact hN.1 hp
  · subst e; exact hN.2 hp

theorem push_level_new (s : Solver) (l : Int) (c : Nat) : (s.push l c).levels (iabs l) = (s.decisionLevel : Int) := by
  show fset s.levels (iabs l) (s.decisionLevel : Int) (iabs l) = _
  rw [fset_same]

theorem undoOne_val {F U D} {s : Solver} (h : Base F U D s) {p : Int} {rest : List Int}
    (ht : s.trail = p :: rest) (x : Int) :
    s.undoOne.val x = if x = -p ∨ x = p then none else s.val x := by
  unfold undoOne
  rw [ht]
  unfold val ASet.value
  simp only
  rw [ASet.setItem_data_none _ h.aset]
  rcases iabs_eq p with e | e <;> rw [e]
  have e : - -p = p := by omega
  rw [e]; simp only [Or.comm]

theorem undoOne_base {F U D} {s : Solver} (h : Base F U D s) {p : Int} {rest : List Int}
    (ht : s.trail = p :: rest) (hlim : ∀ n ∈ s.trailLim, n ≤ rest.length) :
    Base F U D s.undoOne := by
  have htr : s.undoOne.trail = rest := by unfold undoOne; rw [ht]
  have hnd := h.tnd
  rw [ht, List.map_cons, List.nodup_cons] at hnd
  have hsuf : ∀ {q r}, (q :: r) <:+ rest → (q :: r) <:+ s.trail := by
    intro q r hq; rw [ht]; exact hq.trans (List.suffix_cons p rest)
  have hne : ∀ {q : Int}, q ∈ rest → iabs q ≠ iabs p := by
    intro q hq e; exact hnd.1 (e ▸ List.mem_map_of_mem hq)
  have hp0 : p ≠ 0 := h.tnz p (by rw [ht]; simp)
  have hlv : ∀ {q : Int}, q ∈ rest → s.undoOne.levels (iabs q) = s.levels (iabs q) := by
    intro q hq
    unfold undoOne; rw [ht]
    exact fset_ne _ _ (hne hq)
  have hlm : s.undoOne.trailLim = s.trailLim := by unfold undoOne; rw [ht]
  have hcl : s.undoOne.clauses = s.clauses := by unfold undoOne; rw [ht]
  have hhp : s.undoOne.heap = s.heap := by unfold undoOne; rw [ht]
  have hni : s.undoOne.nextId = s.nextId := by unfold undoOne; rw [ht]
  have has : s.undoOne.assigning = s.assigning := by unfold undoOne; rw [ht]
  have hasg : s.undoOne.assignments = s.assignments.setItem (iabs p) none := by unfold undoOne; rw [ht]
  have hlo : ∀ c, s.undoOne.litsOf c = s.litsOf c := by intro c; unfold litsOf; rw [hhp]
  constructor
  · rw [hasg]; exact ASet.wf_setItem h.aset (iabs p) (by have := iabs_pos p hp0; omega) _
  · intro l
    rw [undoOne_val h ht, htr]
    by_cases hc : l = -p ∨ l = p
    · rw [if_pos hc]
      simp only [reduceCtorEq, false_iff]
      intro hl
      apply hne hl
      rw [iabs_eq_iff]; omega
    · rw [if_neg hc, h.vT, ht, List.mem_cons]
      have : l ≠ p := fun e => hc (Or.inr e)
      simp [this]
  · intro l hl; rw [htr] at hl; exact h.tnz l (by rw [ht]; simp [hl])
  · rw [htr]; exact hnd.2
  · intro v hv
    rw [hasg, ASet.setItem_seen, iabs_iabs] at hv
    rcases hv with rfl | hv
    · exact h.trailU (by rw [ht]; simp)
    · exact h.seenU v hv
  · rw [hlm]; exact h.limP
  · rw [hlm, htr]; exact hlim
  · intro q r hq
    rw [htr] at hq
    rw [hlv (suffix_mem hq), hlm]
    exact h.lev q r (hsuf hq)
  · intro q r hq
    rw [htr] at hq
    simp only [has, hlm, hcl, hlo]
    exact h.reas q r (hsuf hq)
  · rw [hlo]; exact h.h0
  · rw [hni]; exact h.npos
  · rw [hcl, hni]; exact h.idr
  · simp only [hcl, hlo]; exact h.cnd
  · simp only [hcl, hlo]; exact h.cne
  · simp only [hcl, hlo]; exact h.cnz
  · simp only [hcl, hlo]; exact h.cU
  · simp only [hcl, hlo]; exact h.cent

/-- `s'` is `s` after some calls of `undo_one`. -/
structure Undone (s s' : Solver) : Prop where
  trail : s'.trail <:+ s.trail
  lev : ∀ p ∈ s'.trail, s'.levels (iabs p) = s.levels (iabs p)
  levs : ∀ v, s'.levels v = s.levels v ∨ s'.levels v = -1
  heap : s'.heap = s.heap
  nextId : s'.nextId = s.nextId
  clauses : s'.clauses = s.clauses
  watches : s'.watches = s.watches
  queue : s'.propQueue = s.propQueue
  assigning : s'.assigning = s.assigning
  ct : s'.clauseTrails = s.clauseTrails
  seen : ∀ v, v ∈ s'.assignments.seen ↔ v ∈ s.assignments.seen

theorem Undone.refl (s : Solver) : Undone s s :=
  ⟨List.suffix_rfl, fun _ _ => rfl, fun _ => Or.inl rfl, rfl, rfl, rfl, rfl, rfl, rfl, rfl, fun _ => Iff.rfl⟩

theorem Undone.trans {s s' s'' : Solver} (h : Undone s s') (h' : Undone s' s'') : Undone s s'' where
  trail := h'.trail.trans h.trail
  lev p hp := (h'.lev p hp).trans (h.lev p (h'.trail.subset hp))
  levs v := by
    rcases h'.levs v with e | e
    · rw [e]; exact h.levs v
    · exact Or.inr e
  heap := h'.heap.trans h.heap
  nextId := h'.nextId.trans h.nextId
  clauses := h'.clauses.trans h.clauses
  watches := h'.watches.trans h.watches
  queue := h'.queue.trans h.queue
  assigning := h'.assigning.trans h.assigning
  ct := h'.ct.trans h.ct
  seen v := (h'.seen v).trans (h.seen v)

theorem undoOne_undone {F U D} {s : Solver} (h : Base F U D s) {p : Int} {rest : List Int}
    (ht : s.trail = p :: rest) : Undone s s.undoOne := by
  have hnd := h.tnd
  rw [ht, List.map_cons, List.nodup_cons] at hnd
  have hne : ∀ {q : Int}, q ∈ rest → iabs q ≠ iabs p := by
    intro q hq e; exact hnd.1 (e ▸ List.mem_map_of_mem hq)
  have hps := h.trailSeen (l := p) (by rw [ht]; simp)
  unfold undoOne
  simp only [ht]
  constructor
  · simp only [ht]; exact List.suffix_cons p rest
  · intro q hq; exact fset_ne _ _ (hne hq)
  · intro v
    simp only
    by_cases hv : v = iabs p
    · subst hv; right; simp
    · left; exact fset_ne _ _ hv
  all_goals first | rfl | skip
  intro v
  simp only
  rw [ASet.setItem_seen, iabs_iabs]
  constructor
  · rintro (rfl | h)
    · exact hps
    · exact h
  · exact Or.inr

/-- `n` calls of `undo_one` down to a trail no shorter than the last decision position. -/
theorem undoN_spec {F U D} (n : Nat) {s : Solver} (h : Base F U D s) (hn : n ≤ s.trail.length)
    (hlim : ∀ m ∈ s.trailLim, m ≤ s.trail.length - n) :
    Base F U D (undoN n s) ∧ Undone s (undoN n s) ∧ (undoN n s).trail.length = s.trail.length - n ∧
      (undoN n s).trailLim = s.trailLim := by
  induction n generalizing s with
  | zero => exact ⟨h, Undone.refl s, rfl, rfl⟩
  | succ n ih =>
    cases ht : s.trail with
    | nil => rw [ht] at hn; simp at hn
    | cons p rest =>
      rw [ht] at hn hlim
      simp only [List.length_cons] at hn hlim
      have hb := undoOne_base h ht (fun m hm => by have := hlim m hm; omega)
      have hu := undoOne_undone h ht
      have htr : s.undoOne.trail = rest := by unfold undoOne; rw [ht]
      have hlm : s.undoOne.trailLim = s.trailLim := by unfold undoOne; rw [ht]
      have := ih hb (by rw [htr]; omega) (by rw [htr, hlm]; intro m hm; have := hlim m hm; omega)
      refine ⟨this.1, hu.trans this.2.1, ?_, ?_⟩
      · show (undoN n s.undoOne).trail.length = _
        rw [this.2.2.1, htr]; simp
      · show (undoN n s.undoOne).trailLim = _
        rw [this.2.2.2, hlm]

end Solver
end Verif.Sat
