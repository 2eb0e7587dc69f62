import Verif.AssignmentViews
import Verif.Props.Assignments
/-
Property C98: an AssignmentSet can be read like a dictionary. `AbsMap.run ops` (Props/Assignments.lean) is the specification:
which variables are known after the operations, and their values.
-/
namespace Verif.Props
open Verif

/-- C98: the ways to list an AssignmentSet agree with one another and with the operations it went through: `list(a)` and `keys()`
are the known variables in increasing order, `items()` pairs them with `values()`, `to_dict()` maps exactly them to their values,
`assigned_ids` and `unassigned_ids` share them out, `len(a)` and `num_assigned` count them. -/
theorem C98_views (ops : List AOp) (hops : ∀ op ∈ ops, op.nonzero) :
    let a := runOps ops
    let m := AbsMap.run ops
    (a.keys.Pairwise (· < ·) ∧ ∀ k, k ∈ a.keys ↔ 0 < k ∧ m.known k = true) ∧
    a.iter = a.keys ∧
    a.vals = a.keys.map m.val ∧
    a.items = a.keys.zip a.vals ∧
    (∀ k, dget a.toDict k = if 0 < k ∧ m.known k = true then some (m.val k) else none) ∧
    (a.assignedIds.Nodup ∧ ∀ k, k ∈ a.assignedIds ↔ k ∈ a.keys ∧ m.val k ≠ none) ∧
    (∀ k, k ∈ a.keys ↔ k ∈ a.assignedIds ∨ k ∈ a.unassignedIds) ∧
    (∀ k, ¬ (k ∈ a.assignedIds ∧ k ∈ a.unassignedIds)) ∧
    a.len = a.keys.length ∧ a.numAssigned = a.assignedIds.length := by
  intro a m
  obtain ⟨⟨h1, h2⟩, h3, -, ⟨-, h5⟩, -⟩ := C12_counters ops hops
  have hrel := arel_run ops hops
  have hk : ∀ k, k ∈ a.keys ↔ 0 < k ∧ m.known k = true := by
    intro k
    unfold ASet.keys
    rw [List.mem_map]
    constructor
    · rintro ⟨⟨k', x⟩, hm, rfl⟩
      have := (h2 _ _).1 hm
      exact ⟨this.1, this.2.1⟩
    · rintro ⟨p1, p2⟩
      exact ⟨(k, m.val k), (h2 _ _).2 ⟨p1, p2, rfl⟩, rfl⟩
  have hval : ∀ kv ∈ a.items, kv.2 = m.val kv.1 := fun kv hm => ((h2 kv.1 kv.2).1 hm).2.2
  have hasg : ∀ k, k ∈ a.assignedIds ↔ k ∈ a.keys ∧ m.val k ≠ none := by
    intro k
    show k ∈ (runOps ops).assigned ↔ _
    rw [hrel.wf.asg, hk]
    constructor
    · rintro ⟨p1, p2⟩
      have p3 := hrel.wf.sub k ((hrel.wf.asg k).2 ⟨p1, p2⟩)
      rw [hrel.known] at p3
      rw [hrel.val k p1] at p2
      exact ⟨p3, p2⟩
    · rintro ⟨⟨p1, -⟩, p3⟩
      exact ⟨p1, by rw [hrel.val k p1]; exact p3⟩
  refine ⟨⟨h1, hk⟩, rfl, ?_, ?_, ?_, ⟨hrel.wf.asnd, hasg⟩, ?_, ?_, ?_, rfl⟩
  · unfold ASet.vals ASet.keys
    rw [List.map_map]
    exact List.map_congr_left (fun kv hm => hval kv hm)
  · unfold ASet.vals ASet.keys
    have e := List.zip_unzip a.items
    rw [List.unzip_eq_map] at e
    exact e.symm
  · intro k
    split
    · next hc =>
      have hmem : (k, m.val k) ∈ a.items := (h2 _ _).2 ⟨hc.1, hc.2, rfl⟩
      unfold ASet.toDict
      cases hd : dget (dictOf a.items) k with
      | none =>
        rw [dget_none_iff, mem_dkeys_dictOf] at hd
        exact absurd ⟨_, hmem⟩ hd
      | some x =>
        have : x = m.val k := hval _ (dget_dictOf_some hd)
        rw [this]
    · next hc =>
      unfold ASet.toDict
      rw [dget_none_iff, mem_dkeys_dictOf]
      rintro ⟨x, hx⟩
      have := (h2 _ _).1 hx
      exact hc ⟨this.1, this.2.1⟩
  · intro k
    rw [hasg, hk, h5]
    by_cases hn : m.val k = none
    · simp only [hn, ne_eq, not_true_eq_false, and_false, false_or]
      exact ⟨fun h => ⟨h.1, h.2, hn⟩, fun h => ⟨h.1, h.2.1⟩⟩
    · constructor
      · intro h; exact Or.inl ⟨h, hn⟩
      · rintro (h | h)
        · exact h.1
        · exact ⟨h.1, h.2.1⟩
  · rintro k ⟨p1, p2⟩
    exact ((hasg k).1 p1).2 ((h5 k).1 p2).2.2
  · rw [h3]
    unfold ASet.keys
    rw [List.length_map]

/-- C98: `k in a` holds for the literals of the variables that are listed, and `a[k]` for a listed variable is its value in
`to_dict()`; for others it is KeyError. -/
theorem C98_subscript (ops : List AOp) (hops : ∀ op ∈ ops, op.nonzero) (k : Int) :
    ((runOps ops).contains k = true ↔ iabs k ∈ (runOps ops).keys) ∧
    (0 < k → (runOps ops).getItem k = dget (runOps ops).toDict k) := by
  obtain ⟨⟨-, h1⟩, -, -, -, h2, -⟩ := C98_views ops hops
  constructor
  · unfold ASet.contains
    rw [h1, decide_eq_true_eq, (arel_run ops hops).known]
  · intro hk
    rw [C11_getitem ops hops k hk, h2]
    simp only [hk, true_and]

/-- C98, what holds of `get`: it gives the value of an assigned variable (negated for its negative literal), and the default for
all others. (Missing: that a known variable without value counts as known, so that `a.get(k, d)` is `a[k]` if `k in a`. It is
false unless the default is None.) -/
theorem C98_get_partial (ops : List AOp) (hops : ∀ op ∈ ops, op.nonzero) (k : Int) (hk : 0 < k) (default : Option Bool) :
    (∀ b, (AbsMap.run ops).val k = some b →
      (runOps ops).get k default = some b ∧ (runOps ops).get (-k) default = some (!b)) ∧
    ((AbsMap.run ops).val k = none →
      (runOps ops).get k default = default ∧ (runOps ops).get (-k) default = default) := by
  obtain ⟨h1, h2⟩ := C11_two_sided_map ops hops k hk
  unfold ASet.value at h1 h2
  unfold ASet.get
  constructor
  · intro b hb
    rw [h1, h2, hb]
    exact ⟨rfl, rfl⟩
  · intro hb
    rw [h1, h2, hb]
    exact ⟨rfl, rfl⟩

/-- C98: with the default None, `get` is as for a dictionary. -/
theorem C98_get_none_partial (ops : List AOp) (hops : ∀ op ∈ ops, op.nonzero) (k : Int) (hk : 0 < k) :
    (runOps ops).get k = ((runOps ops).getItem k).getD none := by
  obtain ⟨h1, -⟩ := C11_two_sided_map ops hops k hk
  obtain ⟨h3, h4⟩ := C98_get_partial ops hops k hk none
  rw [C11_getitem ops hops k hk]
  have h5 := (C12_counters ops hops).2.2.2.2 k hk
  cases hv : (AbsMap.run ops).val k with
  | none =>
    rw [(h4 hv).1]
    split <;> rfl
  | some b =>
    rw [(h3 b hv).1, if_pos (h5 (by rw [hv]; simp))]
    rfl

/-- C98 (the code violates it): variable 1 is known and its value is None, but `a.get(1, True)` is True. -/
theorem C98_violated_get : ∃ ops : List AOp, (∀ op ∈ ops, op.nonzero) ∧
    (runOps ops).contains 1 = true ∧ (runOps ops).getItem 1 = some none ∧ (runOps ops).get 1 (some true) = some true :=
  ⟨[.set 1 none], by simp [AOp.nonzero], by decide, by decide, by decide⟩

/-- C98: `AssignmentSet(d)` sets the items of the dictionary one after the other. -/
theorem C98_constructor (d : Dict Int (Option Bool)) : ASet.ofDict d = runOps (d.map (fun kv => .set kv.1 kv.2)) := by
  unfold ASet.ofDict runOps
  rw [List.foldl_map]
  rfl

theorem abs_sets (d : List (Int × Option Bool)) : ∀ (m : AbsMap) (k : Int),
    (∀ kv ∈ d, kv.1 ≠ k ∧ kv.1 ≠ -k) → 0 ≤ k →
    ((d.map (fun kv => AOp.set kv.1 kv.2)).foldl AbsMap.step m).val k = m.val k ∧
    ((d.map (fun kv => AOp.set kv.1 kv.2)).foldl AbsMap.step m).known k = m.known k := by
  induction d with
  | nil => intro m k _ _; exact ⟨rfl, rfl⟩
  | cons kv d ih =>
    intro m k h hk
    obtain ⟨h1, h2⟩ := ih (m.step (.set kv.1 kv.2)) k (fun x hx => h x (by simp [hx])) hk
    rw [List.map_cons, List.foldl_cons, h1, h2]
    have hne : k ≠ iabs kv.1 := by
      have := h kv (by simp)
      unfold iabs; omega
    simp [AbsMap.step, hne]

/-- C98: so if no variable has two entries, `to_dict()` gives the dictionary back (here for a dictionary whose keys are
variables). -/
theorem C98_roundtrip (d : Dict Int (Option Bool)) (hnd : (dkeys d).Nodup) (hpos : ∀ k ∈ dkeys d, 0 < k) (k : Int) :
    dget (ASet.ofDict d).toDict k = dget d k := by
  rw [C98_constructor]
  have hops : ∀ op ∈ d.map (fun kv => AOp.set kv.1 kv.2), op.nonzero := by
    intro op hop
    obtain ⟨kv, hkv, rfl⟩ := List.mem_map.1 hop
    have := hpos kv.1 (List.mem_map.2 ⟨kv, hkv, rfl⟩)
    show kv.1 ≠ 0
    omega
  obtain ⟨-, -, -, -, h, -⟩ := C98_views _ hops
  rw [h]
  have key : ∀ (d : List (Int × Option Bool)) (m : AbsMap), (d.map Prod.fst).Nodup → (∀ k ∈ d.map Prod.fst, 0 < k) →
      0 < k → (∀ x, dget d k = some x →
        ((d.map (fun kv => AOp.set kv.1 kv.2)).foldl AbsMap.step m).val k = x ∧
        ((d.map (fun kv => AOp.set kv.1 kv.2)).foldl AbsMap.step m).known k = true) ∧
      (dget d k = none → ((d.map (fun kv => AOp.set kv.1 kv.2)).foldl AbsMap.step m).known k = m.known k) := by
    intro d
    induction d with
    | nil => intro m _ _ _; exact ⟨by simp [dget], fun _ => rfl⟩
    | cons kv d ih =>
      intro m hn hp hk
      rw [List.map_cons, List.nodup_cons] at hn
      have hp' : ∀ k ∈ d.map Prod.fst, 0 < k := fun k hk => hp k (by simp [List.mem_map.1 hk])
      have hkv := hp kv.1 (by simp)
      rw [List.map_cons, List.foldl_cons]
      by_cases e : kv.1 = k
      · have hnot : ∀ x ∈ d, x.1 ≠ k ∧ x.1 ≠ -k := by
          intro x hx
          refine ⟨fun h => hn.1 (by rw [e, ← h]; exact List.mem_map.2 ⟨x, hx, rfl⟩), ?_⟩
          have := hp' x.1 (List.mem_map.2 ⟨x, hx, rfl⟩)
          omega
        obtain ⟨h1, h2⟩ := abs_sets d (m.step (.set kv.1 kv.2)) k hnot (by omega)
        have hi : k = iabs kv.1 := by unfold iabs; omega
        rw [h1, h2]
        unfold dget
        rw [if_pos e]
        refine ⟨?_, by simp⟩
        intro x hx
        cases hx
        simp [AbsMap.step, ← hi, hkv]
      · obtain ⟨h1, h2⟩ := ih (m.step (.set kv.1 kv.2)) hn.2 hp' hk
        unfold dget
        rw [if_neg e]
        refine ⟨h1, fun hx => ?_⟩
        rw [h2 hx]
        have hi : k ≠ iabs kv.1 := by unfold iabs; omega
        simp [AbsMap.step, hi]
  by_cases hk : 0 < k
  · obtain ⟨h1, h2⟩ := key d AbsMap.empty hnd hpos hk
    cases hd : dget d k with
    | none =>
      have := h2 hd
      rw [if_neg]
      rintro ⟨-, h3⟩
      have h3 : (AbsMap.run (d.map (fun kv => AOp.set kv.1 kv.2))).known k = true := h3
      unfold AbsMap.run at h3
      rw [this] at h3
      cases h3
    | some x =>
      obtain ⟨h3, h4⟩ := h1 x hd
      rw [if_pos ⟨hk, h4⟩]
      congr 1
  · rw [if_neg (fun h => hk h.1)]
    symm
    rw [dget_none_iff]
    exact fun h => hk (hpos k h)

/-- the hypotheses can be met -/
example : dget (ASet.ofDict [(3, some true), (1, none), (2, some false)]).toDict 2 = some (some false) ∧
    (ASet.ofDict [(3, some true), (1, none), (2, some false)]).items = [(1, none), (2, some false), (3, some true)] ∧
    ∀ k ∈ dkeys ([(3, some true), (1, none), (2, some false)] : Dict Int (Option Bool)), 0 < k := by decide

end Verif.Props
