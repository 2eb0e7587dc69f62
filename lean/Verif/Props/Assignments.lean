import Verif.AssignmentSetLemmas
import Verif.Sat.Policy
import Mathlib.Data.List.Induction
/-
Properties C11-C13 of AssignmentSet, for every sequence of operations.
-/
namespace Verif.Props
open Verif

/-- The operations of an AssignmentSet. `set k none` is `a[k] = None`. -/
inductive AOp where
  | set (k : Int) (v : Option Bool)
  | del (k : Int)
  | get
  | consume
  | copy

/-- one operation on the model of the class -/
def AOp.run (a : ASet) : AOp → ASet
  | .set k v => a.setItem k v
  | .del k => a.delItem k
  | .get => a.getChangelog.1
  | .consume => a.consumeChangelog.1
  | .copy => a.copy

/-- the state after a sequence of operations on a new AssignmentSet -/
def runOps (ops : List AOp) : ASet := ops.foldl AOp.run ASet.empty

/-! #### Specification: a map from variables (positive integers) to a value or `None`. -/

/-- `known v`: the variable has been set (possibly to `None`) since it was last deleted. `val v` its value. `base v` its
value when the changelog was last consumed. -/
structure AbsMap where
  known : Int → Bool
  val : Int → Option Bool
  base : Int → Option Bool

def AbsMap.empty : AbsMap := ⟨fun _ => false, fun _ => none, fun _ => none⟩

/-- `a[k] = v` through the literal `k` gives the variable `|k|` the value `v`, negated if `k` is negative. -/
def AbsMap.step (m : AbsMap) : AOp → AbsMap
  | .set k v => { m with
      known := fun x => if x = iabs k then true else m.known x
      val := fun x => if x = iabs k then (if 0 < k then v else v.map (!·)) else m.val x }
  | .del k => { m with
      known := fun x => if x = iabs k then false else m.known x
      val := fun x => if x = iabs k then none else m.val x }
  | .get => m
  | .consume => { m with base := m.val }
  | .copy => m

def AbsMap.run (ops : List AOp) : AbsMap := ops.foldl AbsMap.step AbsMap.empty

/-- keys are nonzero -/
def AOp.nonzero : AOp → Prop
  | .set k _ => k ≠ 0
  | .del k => k ≠ 0
  | _ => True

/-- moreover deletions (also by `a[k] = None`) are by variable, not by negative literal -/
def AOp.byVar : AOp → Prop
  | .set k (some _) => k ≠ 0
  | .set k none => 0 < k
  | .del k => 0 < k
  | _ => True

/-! #### Refinement -/

/-- what the concrete state has to do with the specification -/
structure ARel (a : ASet) (m : AbsMap) : Prop where
  wf : a.WF
  val : ∀ v, 0 < v → a.data v = m.val v
  known : ∀ v, v ∈ a.seen ↔ 0 < v ∧ m.known v = true

theorem ARel.same {a b : ASet} {m m' : AbsMap} (h : ARel a m) (e : ASet.Same a b) (e1 : m'.val = m.val)
    (e2 : m'.known = m.known) : ARel b m' :=
  ⟨h.wf.same e, fun v hv => by rw [e.data, e1]; exact h.val v hv, fun v => by rw [e.seen, e2]; exact h.known v⟩

theorem arel_step {a : ASet} {m : AbsMap} (h : ARel a m) (op : AOp) (hop : op.nonzero) : ARel (op.run a) (m.step op) := by
  cases op with
  | set k v =>
    have hk : k ≠ 0 := hop
    refine ⟨ASet.wf_setItem h.wf k hk v, ?_, ?_⟩
    · intro x hx
      show (a.setItem k v).data x = if x = iabs k then (if 0 < k then v else v.map (!·)) else m.val x
      cases v with
      | none =>
        rw [ASet.setItem_data_none a h.wf]
        by_cases hxk : x = iabs k
        · rw [if_pos (by unfold iabs at hxk; omega), if_pos hxk]; simp
        · rw [if_neg (by unfold iabs at hxk; omega), if_neg hxk]; exact h.val x hx
      | some b =>
        rw [ASet.setItem_data_some]
        by_cases hxk : x = iabs k
        · rw [if_pos hxk]
          by_cases hp : 0 < k
          · rw [if_neg (by unfold iabs at hxk; omega), if_pos (by unfold iabs at hxk; omega), if_pos hp]
          · rw [if_pos (by unfold iabs at hxk; omega), if_neg hp]; rfl
        · rw [if_neg (by unfold iabs at hxk; omega), if_neg (by unfold iabs at hxk; omega), if_neg hxk]
          exact h.val x hx
    · intro x
      show x ∈ (a.setItem k v).seen ↔ 0 < x ∧ (if x = iabs k then true else m.known x) = true
      rw [ASet.setItem_seen, h.known]
      by_cases hxk : x = iabs k
      · have := iabs_pos k hk
        simp [hxk, this]
      · simp [hxk]
  | del k =>
    refine ⟨ASet.wf_delItem h.wf k, ?_, ?_⟩
    · intro x hx
      show (a.delItem k).data x = if x = iabs k then none else m.val x
      rw [ASet.delItem_data' a h.wf]
      by_cases hxk : x = iabs k
      · rw [if_pos (by unfold iabs at hxk; omega), if_pos hxk]
      · rw [if_neg (by unfold iabs at hxk; omega), if_neg hxk]; exact h.val x hx
    · intro x
      show x ∈ (a.delItem k).seen ↔ 0 < x ∧ (if x = iabs k then false else m.known x) = true
      rw [ASet.delItem_seen, mem_sdiscard, h.known]
      by_cases hxk : x = iabs k <;> simp [hxk]
  | get => exact h.same a.getChangelog_same rfl rfl
  | consume => exact h.same a.consumeChangelog_same rfl rfl
  | copy => exact h.same a.copy_same rfl rfl

theorem arel_run (ops : List AOp) (hops : ∀ op ∈ ops, op.nonzero) : ARel (runOps ops) (AbsMap.run ops) := by
  unfold runOps AbsMap.run
  have h0 : ARel ASet.empty AbsMap.empty := ⟨ASet.wf_empty, fun _ _ => rfl, fun v => by simp [ASet.empty, AbsMap.empty]⟩
  generalize ASet.empty = a at h0
  generalize AbsMap.empty = m at h0
  induction ops generalizing a m with
  | nil => exact h0
  | cons op ops ih =>
    exact ih (fun o ho => hops o (by simp [ho])) _ _ (arel_step h0 op (hops op (by simp)))

/-- C11: after any operations with nonzero keys, `value` of a variable is the value of the specification (the one most
recently set through either sign, `None` after a deletion), and `value` of its negation is the opposite. -/
theorem C11_two_sided_map (ops : List AOp) (hops : ∀ op ∈ ops, op.nonzero) (v : Int) (hv : 0 < v) :
    (runOps ops).value v = (AbsMap.run ops).val v ∧
    (runOps ops).value (-v) = ((AbsMap.run ops).val v).map (!·) := by
  have h := arel_run ops hops
  refine ⟨h.val v hv, ?_⟩
  show (runOps ops).data (-v) = _
  rw [h.wf.neg, h.val v hv]

/-- C11: reading `a[k]` raises KeyError exactly for unknown variables, and otherwise gives the value. -/
theorem C11_getitem (ops : List AOp) (hops : ∀ op ∈ ops, op.nonzero) (v : Int) (hv : 0 < v) :
    (runOps ops).getItem v = if (AbsMap.run ops).known v then some ((AbsMap.run ops).val v) else none := by
  have h := arel_run ops hops
  unfold ASet.getItem
  rw [h.val v hv, iabs_of_pos hv]
  have hk := h.known v
  have hd : (runOps ops).data v ≠ none → v ∈ (runOps ops).seen := fun hne => by
    have := h.wf.seen_of_data hne
    rwa [iabs_of_pos hv] at this
  rw [h.val v hv] at hd
  by_cases hkn : (AbsMap.run ops).known v = true
  · simp [hk, hkn, hv]
  · have hns : v ∉ (runOps ops).seen := by rw [hk]; simp [hkn]
    have : (AbsMap.run ops).val v = none := by
      apply Classical.byContradiction; intro hne; exact hns (hd hne)
    simp [this, hns, hkn]

theorem isort_sorted (l : List Int) (h : l.Nodup) : (ASet.isort l).Pairwise (· < ·) := by
  have ins : ∀ (x : Int) (l : List Int), x ∉ l → l.Pairwise (· < ·) → (ASet.insertSorted x l).Pairwise (· < ·) := by
    intro x l hx hl
    induction l with
    | nil => simp [ASet.insertSorted]
    | cons y l ih =>
      rw [List.pairwise_cons] at hl
      simp only [ASet.insertSorted]
      simp only [List.mem_cons, not_or] at hx
      split
      · rw [List.pairwise_cons]
        refine ⟨?_, List.pairwise_cons.2 hl⟩
        intro z hz
        rcases List.mem_cons.1 hz with rfl | hz
        · omega
        · have := hl.1 z hz; omega
      · rw [List.pairwise_cons]
        refine ⟨?_, ih hx.2 hl.2⟩
        intro z hz
        rw [Sat.insertSorted_mem] at hz
        rcases hz with rfl | hz
        · omega
        · exact hl.1 z hz
  induction l with
  | nil => exact List.Pairwise.nil
  | cons x l ih =>
    rw [List.nodup_cons] at h
    exact ins x (ASet.isort l) (by rw [Sat.isort_mem]; exact h.1) (ih h.2)

/-- C12: `items()` lists each known variable once, in increasing order, with its value; `len` counts the known
variables, `num_assigned` those among them with a value, `unassigned_ids` are the others. (The number of elements of
a finite set is given as the length of a duplicate-free list of its elements.) -/
theorem C12_counters (ops : List AOp) (hops : ∀ op ∈ ops, op.nonzero) :
    let a := runOps ops
    let m := AbsMap.run ops
    ((a.items.map Prod.fst).Pairwise (· < ·) ∧ ∀ v x, (v, x) ∈ a.items ↔ 0 < v ∧ m.known v = true ∧ x = m.val v) ∧
    a.len = a.items.length ∧
    a.numAssigned = (a.items.filter (fun kv => kv.2.isSome)).length ∧
    (a.unassignedIds.Nodup ∧ ∀ v, v ∈ a.unassignedIds ↔ 0 < v ∧ m.known v = true ∧ m.val v = none) ∧
    (∀ v, 0 < v → m.val v ≠ none → m.known v = true) := by
  simp only
  have h := arel_run ops hops
  generalize runOps ops = a at h
  generalize AbsMap.run ops = m at h
  have hkeys : a.items.map Prod.fst = ASet.isort a.seen := by
    unfold ASet.items; rw [List.map_map]; exact List.map_id' _
  have hperm : (ASet.isort a.seen).Perm a.seen := by
    rw [List.perm_ext_iff_of_nodup ((isort_sorted _ h.wf.snd).imp (fun h => by omega)) h.wf.snd]
    intro x; exact Sat.isort_mem x _
  refine ⟨⟨by rw [hkeys]; exact isort_sorted _ h.wf.snd, ?_⟩, ?_, ?_, ⟨h.wf.snd.filter _, ?_⟩, ?_⟩
  · intro v x
    unfold ASet.items
    simp only [List.mem_map, Sat.isort_mem, Prod.mk.injEq]
    constructor
    · rintro ⟨k, hk, rfl, rfl⟩
      have := (h.known k).1 hk
      exact ⟨this.1, this.2, h.val k this.1⟩
    · rintro ⟨h1, h2, rfl⟩
      exact ⟨v, (h.known v).2 ⟨h1, h2⟩, rfl, h.val v h1⟩
  · unfold ASet.len ASet.items
    rw [List.length_map]; exact hperm.length_eq.symm
  · unfold ASet.numAssigned ASet.items
    rw [List.filter_map, List.length_map]
    have hp2 : a.assigned.Perm ((ASet.isort a.seen).filter ((fun kv : Int × Option Bool => kv.2.isSome) ∘ fun k => (k, a.data k))) := by
      rw [List.perm_ext_iff_of_nodup h.wf.asnd (((isort_sorted _ h.wf.snd).imp (fun h => by omega)).filter _)]
      intro x
      simp only [List.mem_filter, Sat.isort_mem, Function.comp]
      rw [h.wf.asg]
      constructor
      · rintro ⟨h1, h2⟩
        refine ⟨?_, by rw [Option.isSome_iff_ne_none]; exact h2⟩
        have := h.wf.seen_of_data h2
        rwa [iabs_of_pos h1] at this
      · rintro ⟨h1, h2⟩
        exact ⟨h.wf.spos _ h1, by rw [Option.isSome_iff_ne_none] at h2; exact h2⟩
    exact hp2.length_eq
  · intro v
    unfold ASet.unassignedIds
    simp only [List.mem_filter, decide_eq_true_eq, h.known, h.wf.asg]
    constructor
    · rintro ⟨⟨h1, h2⟩, h3⟩
      refine ⟨h1, h2, ?_⟩
      rw [← h.val v h1]
      apply Classical.byContradiction; intro hne; exact h3 ⟨h1, hne⟩
    · rintro ⟨h1, h2, h3⟩
      exact ⟨⟨h1, h2⟩, fun h4 => h4.2 (by rw [h.val v h1]; exact h3)⟩
  · intro v hv hne
    rw [← h.val v hv] at hne
    have := h.wf.seen_of_data hne
    rw [iabs_of_pos hv] at this
    exact ((h.known v).1 this).2

/-! #### The changelog -/

/-- the changelog computed from `_orig` and `_data` -/
def diffOf (a : ASet) : List (Int × Change) :=
  a.orig.filterMap (fun (key, old) => if a.data key ≠ old then some (key, (old, a.data key)) else none)

structure ALog (a : ASet) (m : AbsMap) : Prop where
  rel : ARel a m
  pos : ∀ k ∈ a.orig.map Prod.fst, 0 < k
  nd : (a.orig.map Prod.fst).Nodup
  old : ∀ k o, (k, o) ∈ a.orig → o = m.base k
  rest : ∀ k, 0 < k → k ∉ a.orig.map Prod.fst → m.val k = m.base k
  cache : ∀ c, a.cached = some c → c = diffOf a

theorem getChangelog_eq {a : ASet} {m : AbsMap} (h : ALog a m) : a.getChangelog.2 = diffOf a := by
  unfold ASet.getChangelog
  cases hc : a.cached with
  | none => rfl
  | some c => exact h.cache c hc

/-- `_update_diff` for a positive key after normalisation -/
theorem setdefault_keys (d : List (Int × Option Bool)) (k : Int) (p : Option Bool) (x : Int) :
    x ∈ (ASet.setdefault d k p).map Prod.fst ↔ x = k ∨ x ∈ d.map Prod.fst := by
  unfold ASet.setdefault
  split
  · rename_i h
    constructor
    · exact Or.inr
    · rintro (rfl | h') <;> assumption
  · simp [or_comm]

theorem setdefault_nodup (d : List (Int × Option Bool)) (k : Int) (p : Option Bool)
    (h : (d.map Prod.fst).Nodup) : ((ASet.setdefault d k p).map Prod.fst).Nodup := by
  unfold ASet.setdefault
  split
  · exact h
  · rename_i hk
    rw [List.map_append, List.nodup_append]
    refine ⟨h, by simp, ?_⟩
    intro a ha b hb e
    simp at hb; subst hb; subst e; exact hk ha

theorem setdefault_mem (d : List (Int × Option Bool)) (k : Int) (p : Option Bool) (x : Int) (o : Option Bool)
    (h : (x, o) ∈ ASet.setdefault d k p) : (x, o) ∈ d ∨ (k ∉ d.map Prod.fst ∧ x = k ∧ o = p) := by
  unfold ASet.setdefault at h
  split at h
  · exact Or.inl h
  · rename_i hk
    rcases List.mem_append.1 h with h | h
    · exact Or.inl h
    · simp at h; exact Or.inr ⟨hk, h.1, h.2⟩

theorem updateDiff_log {a : ASet} {m : AbsMap} (h : ALog a m) (k : Int) (v : Option Bool) (hk : k ≠ 0)
    (hv : v = none → 0 < k) :
    let o := (a.updateDiff k v).orig
    (∀ x ∈ o.map Prod.fst, 0 < x) ∧ (o.map Prod.fst).Nodup ∧ (∀ x ol, (x, ol) ∈ o → ol = m.base x) ∧
    (∀ x, 0 < x → x ∉ o.map Prod.fst → x ≠ iabs k ∧ m.val x = m.base x) := by
  simp only [ASet.updateDiff]
  have e : (if k < 0 ∧ v ≠ none then -k else k) = iabs k := by
    split
    · unfold iabs; omega
    · rename_i hh
      by_cases hv0 : v = none
      · exact (iabs_of_pos (hv hv0)).symm
      · have : ¬ k < 0 := fun hlt => hh ⟨hlt, hv0⟩
        unfold iabs; omega
  rw [e]
  have hp := iabs_pos k hk
  refine ⟨?_, setdefault_nodup _ _ _ h.nd, ?_, ?_⟩
  · intro x hx
    rw [setdefault_keys] at hx
    rcases hx with rfl | hx
    · exact hp
    · exact h.pos x hx
  · intro x ol hx
    rcases setdefault_mem _ _ _ _ _ hx with hx | ⟨h1, rfl, rfl⟩
    · exact h.old x ol hx
    · rw [h.rel.val _ hp]; exact h.rest _ hp h1
  · intro x hx hn
    rw [setdefault_keys] at hn
    simp only [not_or] at hn
    exact ⟨hn.1, h.rest x hx hn.2⟩

theorem delItem_orig (a : ASet) (k : Int) :
    (a.delItem k).orig = if a.data k = none then a.orig else (a.updateDiff k none).orig := by
  simp only [ASet.delItem]; split <;> rfl

theorem delItem_cached (a : ASet) (k : Int) :
    (a.delItem k).cached = if a.data k = none then a.cached else none := by
  simp only [ASet.delItem]; split <;> rfl

theorem delItem_diff (a : ASet) (k : Int) (h : a.data k = none) : diffOf (a.delItem k) = diffOf a := by
  have e1 : (a.delItem k).orig = a.orig := by rw [delItem_orig, if_pos h]
  have e2 : (a.delItem k).data = a.data := by
    funext x; rw [ASet.delItem_data, if_pos h]
  unfold diffOf; rw [e1, e2]

theorem setItem_none_fields (a : ASet) (k : Int) :
    (a.setItem k none).orig = (a.delItem k).orig ∧ (a.setItem k none).cached = (a.delItem k).cached ∧
    (a.setItem k none).data = (a.delItem k).data := by
  simp only [ASet.setItem]
  split
  · exact ⟨rfl, rfl, rfl⟩
  · simp only [ASet.delItem, ASet.updateDiff]
    split <;> exact ⟨rfl, rfl, rfl⟩

theorem setItem_some_fields (a : ASet) (k : Int) (b : Bool) :
    (a.setItem k (some b)).orig = (a.updateDiff k (some b)).orig ∧ (a.setItem k (some b)).cached = none := by
  simp only [ASet.setItem]
  split <;> exact ⟨rfl, rfl⟩

theorem alog_step {a : ASet} {m : AbsMap} (h : ALog a m) (op : AOp) (hop : op.byVar) : ALog (op.run a) (m.step op) := by
  have hnz : op.nonzero := by
    cases op with
    | set k v => cases v with
      | none => have : 0 < k := hop; show k ≠ 0; omega
      | some b => exact hop
    | del k => have : 0 < k := hop; show k ≠ 0; omega
    | _ => trivial
  have hr := arel_step h.rel op hnz
  -- deletion, directly or by assigning `None`
  have del : ∀ (k : Int) (b : ASet) (m' : AbsMap), 0 < k → ARel b m' → b.orig = (a.delItem k).orig →
      b.cached = (a.delItem k).cached → b.data = (a.delItem k).data →
      (∀ x, m'.val x = if x = iabs k then none else m.val x) → m'.base = m.base → ALog b m' := by
    intro k b m' hk hb e1 e2 e3 e4 e5
    by_cases hd : a.data k = none
    · rw [delItem_orig, if_pos hd] at e1
      rw [delItem_cached, if_pos hd] at e2
      have e3' : b.data = a.data := by rw [e3]; funext x; rw [ASet.delItem_data, if_pos hd]
      refine ⟨hb, by rw [e1]; exact h.pos, by rw [e1]; exact h.nd, by rw [e1, e5]; exact h.old, ?_, ?_⟩
      · intro x hx hn
        rw [e1] at hn
        rw [← hb.val x hx, e3', h.rel.val x hx, e5]; exact h.rest x hx hn
      · intro c hc
        rw [e2] at hc
        have := h.cache c hc
        rw [this]; unfold diffOf; rw [e1, e3']
    · rw [delItem_orig, if_neg hd] at e1
      rw [delItem_cached, if_neg hd] at e2
      obtain ⟨u1, u2, u3, u4⟩ := updateDiff_log h k none (by omega) (fun _ => hk)
      rw [← e1] at u1 u2 u3 u4
      refine ⟨hb, u1, u2, by rw [e5]; exact u3, ?_, by rw [e2]; simp⟩
      intro x hx hn
      obtain ⟨w1, w2⟩ := u4 x hx hn
      rw [e4, if_neg w1, e5]; exact w2
  cases op with
  | set k v =>
    cases v with
    | none =>
      obtain ⟨f1, f2, f3⟩ := setItem_none_fields a k
      refine del k _ _ hop hr f1 f2 f3 ?_ rfl
      intro x
      show (if x = iabs k then (if 0 < k then none else Option.map (!·) none) else m.val x) = _
      simp
    | some b =>
      obtain ⟨f1, f2⟩ := setItem_some_fields a k b
      obtain ⟨u1, u2, u3, u4⟩ := updateDiff_log h k (some b) hop (by simp)
      refine ⟨hr, ?_, ?_, ?_, ?_, ?_⟩
      · show ∀ k' ∈ (a.setItem k (some b)).orig.map Prod.fst, _
        rw [f1]; exact u1
      · show ((a.setItem k (some b)).orig.map Prod.fst).Nodup
        rw [f1]; exact u2
      · show ∀ k' o, (k', o) ∈ (a.setItem k (some b)).orig → _
        rw [f1]; exact u3
      · intro x hx hn
        have hn : x ∉ (a.setItem k (some b)).orig.map Prod.fst := hn
        rw [f1] at hn
        obtain ⟨w1, w2⟩ := u4 x hx hn
        show (if x = iabs k then _ else m.val x) = m.base x
        rw [if_neg w1]; exact w2
      · intro c hc
        have hc : (a.setItem k (some b)).cached = some c := hc
        rw [f2] at hc; simp at hc
  | del k => exact del k _ _ hop hr rfl rfl rfl (fun x => rfl) rfl
  | get =>
    have hg := getChangelog_eq h
    unfold ASet.getChangelog at hg
    cases hc : a.cached with
    | none =>
      have e : AOp.run a .get = { a with cached := some (diffOf a) } := by
        show a.getChangelog.1 = _
        unfold ASet.getChangelog; rw [hc]; rfl
      rw [e] at hr ⊢
      refine ⟨hr, h.pos, h.nd, h.old, h.rest, ?_⟩
      intro c hcc
      have hcc : some (diffOf a) = some c := hcc
      cases hcc; rfl
    | some c =>
      have e : AOp.run a .get = a := by
        show a.getChangelog.1 = _
        unfold ASet.getChangelog; rw [hc]
      rw [e]; exact h
  | consume =>
    refine ⟨hr, ?_, ?_, ?_, fun _ _ _ => rfl, ?_⟩
    · intro k hk; have hk : k ∈ ([] : List (Int × Option Bool)).map Prod.fst := hk; simp at hk
    · exact List.nodup_nil
    · intro k o hk; have hk : (k, o) ∈ ([] : List (Int × Option Bool)) := hk; simp at hk
    · intro c hc
      have hc : some [] = some c := hc
      cases hc; rfl
  | copy =>
    refine ⟨hr, h.pos, h.nd, h.old, h.rest, ?_⟩
    intro c hc
    have hc : none = some c := hc
    simp at hc

theorem alog_run (ops : List AOp) (hops : ∀ op ∈ ops, op.byVar) : ALog (runOps ops) (AbsMap.run ops) := by
  unfold runOps AbsMap.run
  have h0 : ALog ASet.empty AbsMap.empty := by
    refine ⟨⟨ASet.wf_empty, fun _ _ => rfl, fun v => by simp [ASet.empty, AbsMap.empty]⟩, ?_, ?_, ?_, fun _ _ _ => rfl, ?_⟩ <;>
      simp [ASet.empty]
  generalize ASet.empty = a at h0
  generalize AbsMap.empty = m at h0
  induction ops generalizing a m with
  | nil => exact h0
  | cons op ops ih =>
    exact ih (fun o ho => hops o (by simp [ho])) _ _ (alog_step h0 op (hops op (by simp)))

/-- the changelog is the net difference -/
theorem alog_diff {a : ASet} {m : AbsMap} (h : ALog a m) :
    (a.getChangelog.2.map Prod.fst).Nodup ∧
    ∀ k old new, (k, (old, new)) ∈ a.getChangelog.2 ↔ 0 < k ∧ old = m.base k ∧ new = m.val k ∧ old ≠ new := by
  rw [getChangelog_eq h]
  constructor
  · unfold diffOf
    have : ∀ l : List (Int × Option Bool), (l.map Prod.fst).Nodup →
        ((l.filterMap (fun (key, old) => if a.data key ≠ old then some (key, (old, a.data key)) else none)).map Prod.fst).Nodup := by
      intro l hl
      have hsub : ((l.filterMap (fun (key, old) => if a.data key ≠ old then some (key, (old, a.data key)) else none)).map Prod.fst).Sublist
          (l.map Prod.fst) := by
        clear hl
        induction l with
        | nil => simp
        | cons x l ih =>
          obtain ⟨k, o⟩ := x
          simp only [List.filterMap_cons, List.map_cons]
          by_cases hd : a.data k ≠ o
          · simp only [if_pos hd, List.map_cons]; exact ih.cons_cons _
          · simp only [if_neg hd]; exact ih.cons _
      exact hsub.nodup hl
    exact this _ h.nd
  · intro k old new
    unfold diffOf
    rw [List.mem_filterMap]
    constructor
    · rintro ⟨⟨k', o⟩, hm, he⟩
      simp only at he
      split at he
      · rename_i hd
        simp only [Option.some.injEq, Prod.mk.injEq] at he
        obtain ⟨rfl, rfl, rfl⟩ := he
        have hp := h.pos k' (List.mem_map_of_mem hm)
        exact ⟨hp, h.old _ _ hm, h.rel.val _ hp, fun e => hd e.symm⟩
      · simp at he
    · rintro ⟨hp, rfl, rfl, hne⟩
      have hk : k ∈ a.orig.map Prod.fst := by
        apply Classical.byContradiction
        intro hn; exact hne (h.rest k hp hn).symm
      obtain ⟨⟨k', o⟩, hm, rfl⟩ := List.mem_map.1 hk
      refine ⟨(k', o), hm, ?_⟩
      have ho := h.old _ _ hm
      have hv := h.rel.val k' hp
      simp only at hp hv hne ⊢
      rw [hv, if_pos (by rw [ho]; exact fun e => hne e.symm), ho]

/-- C13: `get_changelog()` contains `k ↦ (old, new)` exactly when `k` is a variable whose value was `old` when the
changelog was last consumed, is now `new`, and these differ; every variable appears at most once. -/
theorem C13_changelog_is_net_difference (ops : List AOp) (hops : ∀ op ∈ ops, op.byVar) :
    ((runOps ops).getChangelog.2.map Prod.fst).Nodup ∧
    ∀ k old new, (k, (old, new)) ∈ (runOps ops).getChangelog.2 ↔
      0 < k ∧ old = (AbsMap.run ops).base k ∧ new = (AbsMap.run ops).val k ∧ old ≠ new :=
  alog_diff (alog_run ops hops)

/-- C13: `consume_changelog()` returns the same thing, and the next changelog starts empty. -/
theorem C13_consume (ops : List AOp) :
    (runOps ops).consumeChangelog.2 = (runOps ops).getChangelog.2 ∧
    (runOps ops).consumeChangelog.1.getChangelog.2 = [] := ⟨rfl, rfl⟩

/-- Why C13 speaks of deletions by variable: deleting through a negative literal files the change under the negative
key. -/
theorem C13_negative_deletion_misfiled :
    (runOps [.set 1 (some true), .consume, .del (-1)]).getChangelog.2 = [(-1, (some false, none))] := by decide

/-! #### New keys -/

/-- `v` was set, possibly to `None`, when it was unknown, and the changelog has not been consumed since -/
def IsNew (ops : List AOp) (v : Int) : Prop :=
  ∃ pre k x post, ops = pre ++ AOp.set k x :: post ∧ iabs k = v ∧ (AbsMap.run pre).known v = false ∧ AOp.consume ∉ post

theorem delItem_newKeys (a : ASet) (k : Int) : (a.delItem k).newKeys = a.newKeys := by
  unfold ASet.delItem
  simp only
  split <;> rfl

theorem setItem_newKeys (a : ASet) (k : Int) (v : Option Bool) :
    (a.setItem k v).newKeys = if iabs k ∈ a.seen then a.newKeys else sadd (iabs k) a.newKeys := by
  unfold ASet.setItem
  simp only
  cases v with
  | none =>
    simp only [delItem_newKeys]
    split <;> rfl
  | some b =>
    simp only [ASet.updateDiff]
    split <;> rfl

/-- C75: `new_keys` holds exactly the variables that were set while unknown since the changelog was last consumed. -/
theorem C75_new_keys (ops : List AOp) (hops : ∀ op ∈ ops, op.nonzero) :
    (runOps ops).newKeys.Nodup ∧ ∀ v, v ∈ (runOps ops).newKeys ↔ IsNew ops v := by
  induction ops using List.reverseRecOn with
  | nil =>
    refine ⟨List.nodup_nil, fun v => ⟨fun h => by simp [runOps, ASet.empty] at h, ?_⟩⟩
    rintro ⟨pre, k, x, post, h, -⟩
    simp at h
  | append_singleton ops op ih =>
    have hrel := arel_run ops (fun o ho => hops o (by simp [ho]))
    have hop := hops op (by simp)
    obtain ⟨i1, i2⟩ := ih (fun o ho => hops o (by simp [ho]))
    have e : runOps (ops ++ [op]) = op.run (runOps ops) := by simp [runOps]
    -- splitting a list that ends in `op`
    have split : ∀ v, IsNew (ops ++ [op]) v ↔ (op ≠ .consume ∧ IsNew ops v) ∨
        (∃ k x, op = .set k x ∧ iabs k = v ∧ (AbsMap.run ops).known v = false) := by
      intro v
      constructor
      · rintro ⟨pre, k, x, post, h, h2, h3, h4⟩
        rcases List.eq_nil_or_concat post with rfl | ⟨post', o, rfl⟩
        · have h5 : ops = pre ∧ [op] = [AOp.set k x] := List.append_inj' h rfl
          obtain ⟨rfl, h6⟩ := h5
          simp only [List.cons.injEq, and_true] at h6
          exact Or.inr ⟨k, x, h6, h2, h3⟩
        · have h5 : ops ++ [op] = (pre ++ AOp.set k x :: post') ++ [o] := by rw [h]; simp
          obtain ⟨rfl, h6⟩ := List.append_inj' h5 rfl
          simp only [List.cons.injEq, and_true] at h6
          subst h6
          simp only [List.concat_eq_append, List.mem_append, List.mem_singleton, not_or] at h4
          exact Or.inl ⟨fun h => h4.2 h.symm, pre, k, x, post', rfl, h2, h3, h4.1⟩
      · rintro (⟨h0, pre, k, x, post, rfl, h2, h3, h4⟩ | ⟨k, x, rfl, h2, h3⟩)
        · refine ⟨pre, k, x, post ++ [op], by simp, h2, h3, ?_⟩
          simp only [List.mem_append, List.mem_singleton, not_or]
          exact ⟨h4, fun h => h0 h.symm⟩
        · exact ⟨ops, k, x, [], rfl, h2, h3, by simp⟩
    rw [e]
    -- operations that keep `new_keys`
    have keep : (op.run (runOps ops)).newKeys = (runOps ops).newKeys → op ≠ .consume → (∀ k x, op ≠ .set k x) →
        (op.run (runOps ops)).newKeys.Nodup ∧ ∀ v, v ∈ (op.run (runOps ops)).newKeys ↔ IsNew (ops ++ [op]) v := by
      intro h1 h2 h3
      rw [h1]
      refine ⟨i1, fun v => ?_⟩
      rw [split, i2]
      constructor
      · exact fun h => Or.inl ⟨h2, h⟩
      · rintro (h | ⟨k, x, h, -⟩)
        · exact h.2
        · exact absurd h (h3 k x)
    cases op with
    | set k x =>
      have hk : iabs k ∈ (runOps ops).seen ↔ (AbsMap.run ops).known (iabs k) = true := by
        rw [hrel.known]; simp [iabs_pos k hop]
      show ((runOps ops).setItem k x).newKeys.Nodup ∧ ∀ v, v ∈ ((runOps ops).setItem k x).newKeys ↔ _
      rw [setItem_newKeys]
      by_cases hs : iabs k ∈ (runOps ops).seen
      · rw [if_pos hs]
        refine ⟨i1, fun v => ?_⟩
        rw [split, i2]
        constructor
        · exact fun h => Or.inl ⟨by simp, h⟩
        · rintro (h | ⟨k', x', h, h2, h3⟩)
          · exact h.2
          · cases h; subst h2; rw [hk] at hs; rw [hs] at h3; cases h3
      · rw [if_neg hs]
        refine ⟨nodup_sadd _ _ i1, fun v => ?_⟩
        rw [split, mem_sadd, i2]
        rw [hk, Bool.not_eq_true] at hs
        constructor
        · rintro (rfl | h)
          · exact Or.inr ⟨k, x, rfl, rfl, hs⟩
          · exact Or.inl ⟨by simp, h⟩
        · rintro (h | ⟨k', x', h, h2, h3⟩)
          · exact Or.inr h.2
          · cases h; exact Or.inl h2.symm
    | del k => exact keep (delItem_newKeys _ k) (by simp) (by simp)
    | get =>
      refine keep ?_ (by simp) (by simp)
      show (runOps ops).getChangelog.1.newKeys = _
      unfold ASet.getChangelog
      split <;> rfl
    | consume =>
      refine ⟨List.nodup_nil, fun v => ?_⟩
      rw [split]
      constructor
      · intro h; exact absurd (show v ∈ ([] : List Int) from h) (by simp)
      · rintro (h | ⟨k, x, h, -⟩)
        · exact absurd rfl h.1
        · cases h
    | copy => exact keep rfl (by simp) (by simp)

example : (runOps [AOp.set 3 (some true), .consume, .set 3 none, .set (-2) (some true), .del 3, .set 3 none]).newKeys = [2, 3] := by
  decide

/-! #### Non-vacuity -/
example : ∀ op ∈ [AOp.set 3 (some true), .set (-2) (some true), .consume, .set 3 none, .set 2 (some true), .del 3],
    op.byVar := by simp [AOp.byVar]
example : (runOps [AOp.set 3 (some true), .set (-2) (some true), .consume, .set 3 none, .set 2 (some true), .del 3]).getChangelog.2
    = [(3, (some true, none)), (2, (some false, some true))] := by decide
example : (runOps [AOp.set 3 (some true), .set (-2) (some true), .set 5 none]).items
    = [(2, some false), (3, some true), (5, none)] := by decide

end Verif.Props
