import Verif.AssignmentSet
import Batteries.Data.List.Perm
/-
Facts about the AssignmentSet model: well-formedness is kept by every operation, and what each
operation does to the stored values.
-/
namespace Verif
namespace ASet

/-- Consistency of the internal tables. -/
structure WF (a : ASet) : Prop where
  neg : ∀ k, a.data (-k) = (a.data k).map (!·)
  asg : ∀ k, k ∈ a.assigned ↔ 0 < k ∧ a.data k ≠ none
  sub : ∀ k, k ∈ a.assigned → k ∈ a.seen
  spos : ∀ k, k ∈ a.seen → 0 < k
  snd : a.seen.Nodup
  asnd : a.assigned.Nodup

theorem WF.zero {a : ASet} (h : a.WF) : a.data 0 = none := by
  have := h.neg 0
  cases h0 : a.data 0 with
  | none => rfl
  | some b => rw [show (-0 : Int) = 0 from rfl, h0] at this; cases b <;> simp at this

theorem WF.neg_none {a : ASet} (h : a.WF) (k : Int) : a.data (-k) = none ↔ a.data k = none := by
  rw [h.neg]; simp

theorem WF.iabs_none {a : ASet} (h : a.WF) (k : Int) : a.data (iabs k) = none ↔ a.data k = none := by
  rcases iabs_eq k with e | e <;> rw [e]
  exact h.neg_none k

theorem WF.false_iff {a : ASet} (h : a.WF) (k : Int) : a.data k = some false ↔ a.data (-k) = some true := by
  rw [h.neg]; cases a.data k with
  | none => simp
  | some b => cases b <;> simp

theorem WF.mem_assigned {a : ASet} (h : a.WF) (k : Int) : iabs k ∈ a.assigned ↔ a.data k ≠ none := by
  rw [h.asg, ne_eq, h.iabs_none]
  constructor
  · exact fun h => h.2
  · intro hk
    refine ⟨?_, hk⟩
    rcases Int.lt_trichotomy k 0 with h1 | h1 | h1
    · unfold iabs; omega
    · subst h1; exact absurd h.zero hk
    · unfold iabs; omega

theorem WF.seen_of_data {a : ASet} (h : a.WF) {k : Int} (hk : a.data k ≠ none) : iabs k ∈ a.seen :=
  h.sub _ ((h.mem_assigned k).2 hk)

theorem wf_empty : empty.WF := by
  constructor <;> simp [empty]

@[simp] theorem updateDiff_data (a : ASet) (k v) : (a.updateDiff k v).data = a.data := rfl
@[simp] theorem updateDiff_seen (a : ASet) (k v) : (a.updateDiff k v).seen = a.seen := rfl
@[simp] theorem updateDiff_assigned (a : ASet) (k v) : (a.updateDiff k v).assigned = a.assigned := rfl

theorem delItem_seen (a : ASet) (k : Int) : (a.delItem k).seen = sdiscard (iabs k) a.seen := by
  simp only [delItem]; split <;> rfl

theorem delItem_data (a : ASet) (k : Int) (x : Int) :
    (a.delItem k).data x = if a.data k = none then a.data x else if x = -k ∨ x = k then none else a.data x := by
  simp only [delItem]; split
  · simp
  · simp only [updateDiff_data, fset]; grind

theorem delItem_data' (a : ASet) (h : a.WF) (k : Int) (x : Int) :
    (a.delItem k).data x = if x = -k ∨ x = k then none else a.data x := by
  rw [delItem_data]
  split
  · rename_i hk
    have := (h.neg_none k).2 hk
    grind
  · rfl

theorem delItem_assigned (a : ASet) (h : a.WF) (k : Int) (x : Int) :
    x ∈ (a.delItem k).assigned ↔ x ∈ a.assigned ∧ x ≠ iabs k := by
  simp only [delItem]; split
  · rename_i hk
    have hk : a.data k = none := hk
    have := (h.mem_assigned k)
    simp only [hk, ne_eq, not_true, iff_false] at this
    grind
  · simp

theorem delItem_assigned_nodup (a : ASet) (h : a.WF) (k : Int) : (a.delItem k).assigned.Nodup := by
  simp only [delItem]; split
  · exact h.asnd
  · exact nodup_sdiscard _ _ h.asnd

theorem wf_delItem {a : ASet} (h : a.WF) (k : Int) : (a.delItem k).WF where
  neg x := by
    rw [delItem_data' a h, delItem_data' a h, h.neg]
    by_cases h1 : x = -k ∨ x = k
    · rw [if_pos h1, if_pos (by omega)]; rfl
    · rw [if_neg h1, if_neg (by omega)]
  asg x := by
    rw [delItem_assigned a h, delItem_data' a h, h.asg]
    unfold iabs
    by_cases h1 : x = -k ∨ x = k
    · simp only [h1, if_true, ne_eq, not_true, and_false, iff_false]; rintro ⟨⟨h2, -⟩, h3⟩; omega
    · simp only [h1, if_false]; constructor
      · exact fun h => h.1
      · intro h; refine ⟨h, ?_⟩; omega
  sub x hx := by
    rw [delItem_assigned a h] at hx
    rw [delItem_seen, mem_sdiscard]
    exact ⟨h.sub x hx.1, hx.2⟩
  spos x hx := by
    rw [delItem_seen, mem_sdiscard] at hx; exact h.spos x hx.1
  snd := by rw [delItem_seen]; exact nodup_sdiscard _ _ h.snd
  asnd := delItem_assigned_nodup a h k

theorem setItem_seen (a : ASet) (k : Int) (v) (x : Int) :
    x ∈ (a.setItem k v).seen ↔ x = iabs k ∨ x ∈ a.seen := by
  cases v <;> simp only [setItem] <;> split <;> simp [delItem_seen] <;> grind

theorem setItem_seen_nodup {a : ASet} (h : a.WF) (k : Int) (v) : (a.setItem k v).seen.Nodup := by
  cases v <;> simp only [setItem] <;> split <;> apply nodup_sadd <;>
    simp only [delItem_seen, updateDiff_seen] <;> first | exact h.snd | exact nodup_sdiscard _ _ h.snd

theorem setItem_data_some (a : ASet) (k : Int) (b : Bool) (x : Int) :
    (a.setItem k (some b)).data x = if x = -k then some (!b) else if x = k then some b else a.data x := by
  simp only [setItem]; split <;> simp [fset]

theorem wf_newKeys {a : ASet} (h : a.WF) (l) : ({ a with newKeys := l } : ASet).WF :=
  ⟨h.neg, h.asg, h.sub, h.spos, h.snd, h.asnd⟩

theorem setItem_data_none (a : ASet) (h : a.WF) (k : Int) (x : Int) :
    (a.setItem k none).data x = if x = -k ∨ x = k then none else a.data x := by
  simp only [setItem]; split
  · simp only [delItem_data' a h]
  · rw [delItem_data' _ (wf_newKeys h _)]

theorem setItem_assigned_some (a : ASet) (k : Int) (b : Bool) (x : Int) :
    x ∈ (a.setItem k (some b)).assigned ↔ x = iabs k ∨ x ∈ a.assigned := by
  simp only [setItem]; split <;> simp

theorem setItem_assigned_none (a : ASet) (h : a.WF) (k : Int) (x : Int) :
    x ∈ (a.setItem k none).assigned ↔ x ∈ a.assigned ∧ x ≠ iabs k := by
  simp only [setItem]; split
  · simp only [delItem_assigned a h]
  · rw [delItem_assigned _ (wf_newKeys h _)]

theorem setItem_assigned_nodup {a : ASet} (h : a.WF) (k : Int) (v) : (a.setItem k v).assigned.Nodup := by
  cases v <;> simp only [setItem] <;> split
  · exact delItem_assigned_nodup _ h k
  · exact delItem_assigned_nodup _ (wf_newKeys h _) k
  · exact nodup_sadd _ _ h.asnd
  · exact nodup_sadd _ _ h.asnd

theorem wf_setItem {a : ASet} (h : a.WF) (k : Int) (hk : k ≠ 0) (v) : (a.setItem k v).WF where
  neg x := by
    cases v with
    | none =>
      rw [setItem_data_none a h, setItem_data_none a h, h.neg]
      by_cases h1 : x = -k ∨ x = k
      · rw [if_pos h1, if_pos (by omega)]; rfl
      · rw [if_neg h1, if_neg (by omega)]
    | some b =>
      rw [setItem_data_some, setItem_data_some, h.neg]
      by_cases h1 : x = k
      · rw [if_pos (by omega), if_neg (by omega), if_pos h1]; rfl
      · by_cases h2 : x = -k
        · rw [if_neg (by omega), if_pos (by omega), if_pos h2]; simp
        · rw [if_neg (by omega), if_neg (by omega), if_neg h2, if_neg h1]
  asg x := by
    cases v with
    | none =>
      rw [setItem_data_none a h, setItem_assigned_none a h, h.asg]
      unfold iabs
      by_cases h1 : x = -k ∨ x = k
      · simp only [h1, if_true, ne_eq, not_true, and_false, iff_false]; rintro ⟨⟨h2, -⟩, h3⟩; omega
      · simp only [h1, if_false]; constructor
        · exact fun h => h.1
        · intro h; refine ⟨h, ?_⟩; omega
    | some b =>
      rw [setItem_data_some, setItem_assigned_some, h.asg]
      unfold iabs
      by_cases h2 : x = -k
      · simp only [h2, if_true]; have := h.neg_none k; grind
      · by_cases h1 : x = k
        · simp only [h1]; have := h.neg_none k; grind
        · simp only [h1, h2, if_false]; constructor
          · rintro (h | h)
            · omega
            · exact h
          · exact fun h => Or.inr h
  sub x hx := by
    rw [setItem_seen]
    cases v with
    | none => rw [setItem_assigned_none a h] at hx; exact Or.inr (h.sub x hx.1)
    | some b =>
      rw [setItem_assigned_some] at hx
      rcases hx with hx | hx
      · exact Or.inl hx
      · exact Or.inr (h.sub x hx)
  spos x hx := by
    rw [setItem_seen] at hx
    rcases hx with hx | hx
    · have := iabs_pos k hk; omega
    · exact h.spos x hx
  snd := setItem_seen_nodup h k v
  asnd := setItem_assigned_nodup h k v

/-- All ids assigned, as tested by `number_assigned == number_variables`. -/
theorem WF.length_eq_iff {a : ASet} (h : a.WF) :
    a.assigned.length = a.seen.length ↔ ∀ k ∈ a.seen, a.data k ≠ none := by
  have sub : a.assigned ⊆ a.seen := fun k hk => h.sub k hk
  constructor
  · intro hl k hk
    have hp : a.assigned.Perm a.seen :=
      (List.subperm_of_subset h.asnd sub).perm_of_length_le (by omega)
    exact ((h.asg k).1 (hp.mem_iff.2 hk)).2
  · intro hall
    have sub' : a.seen ⊆ a.assigned := fun k hk => (h.asg k).2 ⟨h.spos k hk, hall k hk⟩
    have l1 := (List.subperm_of_subset h.asnd sub).length_le
    have l2 := (List.subperm_of_subset h.snd sub').length_le
    omega

/-- Two sets that hold the same keys and values (the changelog may differ). -/
structure Same (a b : ASet) : Prop where
  data : b.data = a.data
  seen : b.seen = a.seen
  assigned : b.assigned = a.assigned

theorem Same.refl (a : ASet) : Same a a := ⟨rfl, rfl, rfl⟩
theorem Same.trans {a b c : ASet} (h : Same a b) (h' : Same b c) : Same a c :=
  ⟨h'.data.trans h.data, h'.seen.trans h.seen, h'.assigned.trans h.assigned⟩

theorem WF.same {a b : ASet} (h : a.WF) (e : Same a b) : b.WF := by
  obtain ⟨e1, e2, e3⟩ := e
  constructor
  · intro k; rw [e1]; exact h.neg k
  · intro k; rw [e1, e3]; exact h.asg k
  · intro k; rw [e2, e3]; exact h.sub k
  · intro k; rw [e2]; exact h.spos k
  · rw [e2]; exact h.snd
  · rw [e3]; exact h.asnd

theorem getChangelog_same (a : ASet) : Same a a.getChangelog.1 := by
  unfold getChangelog; split <;> exact ⟨rfl, rfl, rfl⟩
theorem consumeChangelog_same (a : ASet) : Same a a.consumeChangelog.1 := by
  have := getChangelog_same a
  simp only [consumeChangelog]
  exact ⟨this.data, this.seen, this.assigned⟩
theorem copy_same (a : ASet) : Same a a.copy := ⟨rfl, rfl, rfl⟩

end ASet
end Verif
