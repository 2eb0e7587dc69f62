/-
Small executable counterparts of the Python containers used by simplesat.
-/
namespace Verif

/-- `abs` on Python ints, staying in `Int`. -/
def iabs (k : Int) : Int := (k.natAbs : Int)

/-- `set.add` on a set kept as a duplicate-free list. -/
def sadd {α : Type} [DecidableEq α] (x : α) (l : List α) : List α :=
  if x ∈ l then l else l ++ [x]

/-- `set.discard`. -/
def sdiscard {α : Type} [DecidableEq α] (x : α) (l : List α) : List α :=
  l.filter (fun y => decide (y ≠ x))

/-- `set.update`. -/
def supdate {α : Type} [DecidableEq α] (xs : List α) (l : List α) : List α :=
  xs.foldl (fun acc x => sadd x acc) l

/-- `list(OrderedDict.fromkeys(xs).keys())`: drop repeated values, keep first occurrences in order. -/
def fromkeys {α : Type} [DecidableEq α] (xs : List α) : List α :=
  xs.foldl (fun acc x => sadd x acc) []

/-- Assignment `f[k] = v` in a dictionary modelled as a function. -/
def fset {α β : Type} [DecidableEq α] (f : α → β) (k : α) (v : β) : α → β :=
  fun x => if x = k then v else f x

section lemmas
variable {α β : Type} [DecidableEq α]

@[simp] theorem fset_same (f : α → β) (k : α) (v : β) : fset f k v k = v := by simp [fset]
theorem fset_ne (f : α → β) {k x : α} (v : β) (h : x ≠ k) : fset f k v x = f x := by simp [fset, h]

@[simp] theorem mem_sadd (x y : α) (l : List α) : y ∈ sadd x l ↔ y = x ∨ y ∈ l := by
  unfold sadd; split
  · constructor
    · exact Or.inr
    · rintro (rfl | h) <;> assumption
  · simp [or_comm]

theorem nodup_sadd (x : α) (l : List α) (h : l.Nodup) : (sadd x l).Nodup := by
  unfold sadd; split
  · exact h
  · rename_i hx
    rw [List.nodup_append]
    exact ⟨h, by simp, by intro a ha b hb hab; simp at hb; subst hb; subst hab; exact hx ha⟩

@[simp] theorem mem_sdiscard (x y : α) (l : List α) : y ∈ sdiscard x l ↔ y ∈ l ∧ y ≠ x := by
  simp [sdiscard]

theorem nodup_sdiscard (x : α) (l : List α) (h : l.Nodup) : (sdiscard x l).Nodup := by
  unfold sdiscard; exact h.filter _

@[simp] theorem mem_supdate (xs l : List α) (y : α) : y ∈ supdate xs l ↔ y ∈ xs ∨ y ∈ l := by
  unfold supdate
  induction xs generalizing l with
  | nil => simp
  | cons x xs ih => simp only [List.foldl_cons, ih, mem_sadd, List.mem_cons]; grind

theorem nodup_supdate (xs l : List α) (h : l.Nodup) : (supdate xs l).Nodup := by
  unfold supdate
  induction xs generalizing l with
  | nil => simpa
  | cons x xs ih => exact ih _ (nodup_sadd x l h)

@[simp] theorem mem_fromkeys (xs : List α) (y : α) : y ∈ fromkeys xs ↔ y ∈ xs := by
  have := mem_supdate xs [] y
  simpa [fromkeys, supdate] using this

theorem nodup_fromkeys (xs : List α) : (fromkeys xs).Nodup := nodup_supdate xs [] List.nodup_nil

theorem foldl_sadd_of_nodup (xs acc : List α) (h : (acc ++ xs).Nodup) :
    xs.foldl (fun acc x => sadd x acc) acc = acc ++ xs := by
  induction xs generalizing acc with
  | nil => simp
  | cons x xs ih =>
    have hx : x ∉ acc := by
      rw [List.nodup_append] at h
      intro hx; exact h.2.2 x hx x (by simp) rfl
    have h1 : sadd x acc = acc ++ [x] := by simp [sadd, hx]
    rw [List.foldl_cons, h1, ih (acc ++ [x]) (by simpa using h)]
    simp

theorem fromkeys_of_nodup (xs : List α) (h : xs.Nodup) : fromkeys xs = xs := by
  have := foldl_sadd_of_nodup xs [] (by simpa using h)
  simpa [fromkeys] using this

end lemmas

@[simp] theorem iabs_neg (k : Int) : iabs (-k) = iabs k := by simp [iabs]
theorem iabs_nonneg (k : Int) : 0 ≤ iabs k := by simp [iabs]
theorem iabs_pos (k : Int) (h : k ≠ 0) : 0 < iabs k := by unfold iabs; omega
theorem iabs_eq (k : Int) : iabs k = k ∨ iabs k = -k := by unfold iabs; omega
theorem iabs_eq_iff (a b : Int) : iabs a = iabs b ↔ a = b ∨ a = -b := by unfold iabs; omega
theorem iabs_of_pos {k : Int} (h : 0 < k) : iabs k = k := by unfold iabs; omega
@[simp] theorem iabs_iabs (k : Int) : iabs (iabs k) = iabs k := by unfold iabs; omega

end Verif
