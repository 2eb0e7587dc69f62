/-
Python dictionaries (insertion ordered) as association lists.
-/
set_option linter.unusedSectionVars false
namespace Verif

abbrev Dict (κ β : Type) := List (κ × β)

variable {κ β : Type} [DecidableEq κ]

/-- `d.get(k)` -/
def dget : Dict κ β → κ → Option β
  | [], _ => none
  | kv :: t, k => if kv.1 = k then some kv.2 else dget t k

/-- `d[k] = v`: an existing key keeps its place, a new one goes last. -/
def dset : Dict κ β → κ → β → Dict κ β
  | [], k, v => [(k, v)]
  | kv :: t, k, v => if kv.1 = k then (k, v) :: t else kv :: dset t k v

/-- `d.setdefault(k, v)` -/
def dsetdefault (d : Dict κ β) (k : κ) (v : β) : Dict κ β :=
  match dget d k with
  | some _ => d
  | none => dset d k v

/-- `d.keys()` -/
def dkeys (d : Dict κ β) : List κ := d.map Prod.fst

/-- `{k: v for (k, v) in items}` -/
def dictOf (items : List (κ × β)) : Dict κ β := items.foldl (fun d kv => dset d kv.1 kv.2) []

theorem dget_dset (d : Dict κ β) (k k' : κ) (v : β) :
    dget (dset d k v) k' = if k = k' then some v else dget d k' := by
  induction d with
  | nil => simp [dset, dget]
  | cons kv t ih =>
    unfold dset
    split
    · next h =>
      subst h
      simp only [dget]
      split <;> simp_all
    · next h =>
      simp only [dget, ih]
      by_cases h1 : kv.1 = k'
      · have : k ≠ k' := fun e => h (h1.trans e.symm)
        simp [h1, this]
      · simp [h1]

theorem dkeys_dset (d : Dict κ β) (k : κ) (v : β) :
    dkeys (dset d k v) = if k ∈ dkeys d then dkeys d else dkeys d ++ [k] := by
  induction d with
  | nil => simp [dset, dkeys]
  | cons kv t ih =>
    unfold dset
    unfold dkeys at *
    by_cases h : kv.1 = k
    · simp [h]
    · simp only [h, if_false, List.map_cons, ih, List.mem_cons]
      by_cases h2 : k ∈ t.map Prod.fst
      · simp [h2]
      · simp [h2, Ne.symm h]

theorem nodup_dkeys_dset {d : Dict κ β} (h : (dkeys d).Nodup) (k : κ) (v : β) : (dkeys (dset d k v)).Nodup := by
  rw [dkeys_dset]
  split
  · exact h
  · next hk =>
    rw [List.nodup_append]
    refine ⟨h, by simp, ?_⟩
    intro a ha b hb e
    simp at hb
    subst hb; subst e
    exact hk ha

theorem mem_dkeys_iff (d : Dict κ β) (k : κ) : k ∈ dkeys d ↔ ∃ v, dget d k = some v := by
  induction d with
  | nil => simp [dkeys, dget]
  | cons kv t ih =>
    unfold dkeys at *
    simp only [dget, List.map_cons, List.mem_cons]
    by_cases h : kv.1 = k
    · simp [h]
    · simp [h, Ne.symm h, ih]

theorem dget_none_iff (d : Dict κ β) (k : κ) : dget d k = none ↔ k ∉ dkeys d := by
  rw [mem_dkeys_iff]
  cases dget d k <;> simp

theorem mem_of_dget {d : Dict κ β} {k : κ} {v : β} (h : dget d k = some v) : (k, v) ∈ d := by
  induction d with
  | nil => simp [dget] at h
  | cons kv t ih =>
    unfold dget at h
    split at h
    · next e => cases h; subst e; simp
    · exact List.mem_cons_of_mem _ (ih h)

theorem dget_of_mem {d : Dict κ β} (hn : (dkeys d).Nodup) {k : κ} {v : β} (h : (k, v) ∈ d) : dget d k = some v := by
  induction d with
  | nil => simp at h
  | cons kv t ih =>
    unfold dkeys at *
    rw [List.map_cons, List.nodup_cons] at hn
    unfold dget
    rcases List.mem_cons.1 h with e | h
    · rw [← e]; simp
    · have : kv.1 ≠ k := by
        rintro rfl
        exact hn.1 (List.mem_map.2 ⟨_, h, rfl⟩)
      simp [this, ih hn.2 h]

theorem mem_dset {d : Dict κ β} {k k' : κ} {v v' : β} (h : (k', v') ∈ dset d k v) : (k' = k ∧ v' = v) ∨ (k', v') ∈ d := by
  induction d with
  | nil => simp [dset] at h; exact Or.inl h
  | cons kv t ih =>
    unfold dset at h
    split at h
    · rcases List.mem_cons.1 h with e | h
      · simp at e; exact Or.inl e
      · exact Or.inr (List.mem_cons_of_mem _ h)
    · rcases List.mem_cons.1 h with e | h
      · exact Or.inr (by rw [e]; simp)
      · rcases ih h with k | k
        · exact Or.inl k
        · exact Or.inr (List.mem_cons_of_mem _ k)

theorem dictOf_append (l : List (κ × β)) (kv : κ × β) : dictOf (l ++ [kv]) = dset (dictOf l) kv.1 kv.2 := by
  simp [dictOf]

theorem foldl_dset_get (l : List (κ × β)) : ∀ (d : Dict κ β) (k : κ),
    dget (l.foldl (fun d kv => dset d kv.1 kv.2) d) k =
      match dget (l.reverse) k with
      | some v => some v
      | none => dget d k := by
  induction l with
  | nil => intro d k; simp [dget]
  | cons kv t ih =>
    intro d k
    rw [List.foldl_cons, ih, dget_dset]
    have happ : ∀ (a b : Dict κ β), dget (a ++ b) k = match dget a k with
        | some v => some v
        | none => dget b k := by
      intro a b
      induction a with
      | nil => simp [dget]
      | cons x a iha =>
        rw [List.cons_append]
        simp only [dget]
        split
        · rfl
        · exact iha
    rw [List.reverse_cons, happ]
    cases dget t.reverse k with
    | some v => rfl
    | none =>
      simp only [dget]
      split <;> simp_all

/-- a comprehension keeps the last value given for a key -/
theorem dget_dictOf (l : List (κ × β)) (k : κ) : dget (dictOf l) k = dget l.reverse k := by
  unfold dictOf
  rw [foldl_dset_get]
  cases dget l.reverse k <;> rfl

theorem dget_dictOf_some {l : List (κ × β)} {k : κ} {v : β} (h : dget (dictOf l) k = some v) : (k, v) ∈ l := by
  rw [dget_dictOf] at h
  have := mem_of_dget h
  simpa using this

theorem mem_dkeys_dictOf (l : List (κ × β)) (k : κ) : k ∈ dkeys (dictOf l) ↔ ∃ v, (k, v) ∈ l := by
  rw [mem_dkeys_iff, dget_dictOf, ← mem_dkeys_iff]
  unfold dkeys
  simp

theorem nodup_dkeys_dictOf (l : List (κ × β)) : (dkeys (dictOf l)).Nodup := by
  unfold dictOf
  have : ∀ d : Dict κ β, (dkeys d).Nodup → (dkeys (l.foldl (fun d kv => dset d kv.1 kv.2) d)).Nodup := by
    induction l with
    | nil => intro d h; exact h
    | cons kv t ih => intro d h; exact ih _ (nodup_dkeys_dset h _ _)
  exact this [] (by simp [dkeys])

end Verif
