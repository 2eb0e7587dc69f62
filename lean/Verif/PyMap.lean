/-
A comprehension whose element expression may raise: `[f(x) for x in xs]`.
-/
namespace Verif

variable {ε α β : Type}

/-- `[f(x) for x in xs]`, stopping at the first exception -/
def mapE (f : α → Except ε β) : List α → Except ε (List β)
  | [] => .ok []
  | x :: xs => match f x with
    | .error e => .error e
    | .ok y => match mapE f xs with
      | .error e => .error e
      | .ok ys => .ok (y :: ys)

theorem mapE_cons_ok {f : α → Except ε β} {x : α} {xs : List α} {l : List β} :
    mapE f (x :: xs) = .ok l ↔ ∃ y ys, f x = .ok y ∧ mapE f xs = .ok ys ∧ l = y :: ys := by
  simp only [mapE]
  cases hx : f x with
  | error e => simp
  | ok y =>
    cases hxs : mapE f xs with
    | error e => simp
    | ok ys =>
      constructor
      · intro h; cases h; exact ⟨y, ys, rfl, rfl, rfl⟩
      · rintro ⟨y', ys', h1, h2, rfl⟩
        cases h1; cases h2; rfl

theorem mem_mapE {f : α → Except ε β} {xs : List α} {l : List β} (h : mapE f xs = .ok l) (y : β) :
    y ∈ l ↔ ∃ x ∈ xs, f x = .ok y := by
  induction xs generalizing l with
  | nil => simp [mapE] at h; subst h; simp
  | cons x xs ih =>
    obtain ⟨y', ys, h1, h2, rfl⟩ := mapE_cons_ok.1 h
    rw [List.mem_cons, ih h2]
    constructor
    · rintro (rfl | ⟨z, hz, e⟩)
      · exact ⟨x, by simp, h1⟩
      · exact ⟨z, by simp [hz], e⟩
    · rintro ⟨z, hz, e⟩
      rcases List.mem_cons.1 hz with rfl | hz
      · rw [h1] at e; cases e; exact Or.inl rfl
      · exact Or.inr ⟨z, hz, e⟩

theorem mapE_all {f : α → Except ε β} {xs : List α} {l : List β} (h : mapE f xs = .ok l) {x : α} (hx : x ∈ xs) :
    ∃ y ∈ l, f x = .ok y := by
  induction xs generalizing l with
  | nil => simp at hx
  | cons z xs ih =>
    obtain ⟨y', ys, h1, h2, rfl⟩ := mapE_cons_ok.1 h
    rcases List.mem_cons.1 hx with rfl | hx
    · exact ⟨y', by simp, h1⟩
    · obtain ⟨y, hy, e⟩ := ih h2 hx
      exact ⟨y, by simp [hy], e⟩

theorem mapE_ok_of {f : α → Except ε β} {xs : List α} (h : ∀ x ∈ xs, ∃ y, f x = .ok y) : ∃ l, mapE f xs = .ok l := by
  induction xs with
  | nil => exact ⟨[], rfl⟩
  | cons x xs ih =>
    obtain ⟨y, hy⟩ := h x (by simp)
    obtain ⟨ys, hys⟩ := ih (fun z hz => h z (by simp [hz]))
    exact ⟨y :: ys, mapE_cons_ok.2 ⟨y, ys, hy, hys, rfl⟩⟩

theorem mapE_error {f : α → Except ε β} {xs : List α} {e : ε} (h : mapE f xs = .error e) :
    ∃ x ∈ xs, f x = .error e := by
  induction xs with
  | nil => simp [mapE] at h
  | cons x xs ih =>
    simp only [mapE] at h
    cases hx : f x with
    | error e' => rw [hx] at h; cases h; exact ⟨x, by simp, hx⟩
    | ok y =>
      rw [hx] at h
      cases hxs : mapE f xs with
      | error e' =>
        rw [hxs] at h; cases h
        obtain ⟨z, hz, e⟩ := ih hxs
        exact ⟨z, by simp [hz], e⟩
      | ok ys => rw [hxs] at h; simp at h

theorem mapE_length {f : α → Except ε β} {xs : List α} {l : List β} (h : mapE f xs = .ok l) : l.length = xs.length := by
  induction xs generalizing l with
  | nil => simp [mapE] at h; subst h; rfl
  | cons x xs ih =>
    obtain ⟨y', ys, h1, h2, rfl⟩ := mapE_cons_ok.1 h
    simp [ih h2]

theorem mapE_append_ok {f : α → Except ε β} {xs ys : List α} {l : List β} (h : mapE f (xs ++ ys) = .ok l) :
    ∃ l1 l2, mapE f xs = .ok l1 ∧ mapE f ys = .ok l2 ∧ l = l1 ++ l2 := by
  induction xs generalizing l with
  | nil => exact ⟨[], l, rfl, h, rfl⟩
  | cons x xs ih =>
    obtain ⟨y, t, h1, h2, rfl⟩ := mapE_cons_ok.1 h
    obtain ⟨l1, l2, h3, h4, rfl⟩ := ih h2
    exact ⟨y :: l1, l2, mapE_cons_ok.2 ⟨y, l1, h1, h3, rfl⟩, h4, rfl⟩

theorem mapE_sublist {f : α → Except ε β} {xs ys : List α} {l : List β} (h : mapE f xs = .ok l) (hs : ys.Sublist xs) :
    ∃ l', mapE f ys = .ok l' ∧ l'.Sublist l := by
  induction hs generalizing l with
  | slnil => exact ⟨l, h, List.Sublist.refl _⟩
  | cons x _ ih =>
    obtain ⟨y, t, h1, h2, rfl⟩ := mapE_cons_ok.1 h
    obtain ⟨l', h3, h4⟩ := ih h2
    exact ⟨l', h3, h4.cons _⟩
  | cons_cons x _ ih =>
    obtain ⟨y, t, h1, h2, rfl⟩ := mapE_cons_ok.1 h
    obtain ⟨l', h3, h4⟩ := ih h2
    exact ⟨y :: l', mapE_cons_ok.2 ⟨y, l', h1, h3, rfl⟩, h4.cons_cons _⟩

theorem mapE_pair {f : α → Except ε β} {xs : List α} {l : List β} (h : mapE f xs = .ok l) {a b : α} {a' b' : β}
    (hs : [a, b].Sublist xs) (ha : f a = .ok a') (hb : f b = .ok b') : [a', b'].Sublist l := by
  obtain ⟨l', h1, h2⟩ := mapE_sublist h hs
  rw [mapE_cons_ok] at h1
  obtain ⟨y, ys, e1, e2, rfl⟩ := h1
  rw [mapE_cons_ok] at e2
  obtain ⟨z, zs, e3, e4, rfl⟩ := e2
  simp only [mapE, Except.ok.injEq] at e4
  rw [ha] at e1; rw [hb] at e3
  cases e1; cases e3; subst e4
  exact h2

theorem mapE_nodup {f : α → Except ε β} {γ : Type} {g : β → γ} {xs : List α} {l : List β} (h : mapE f xs = .ok l)
    (hnd : xs.Nodup) (hinj : ∀ a ∈ xs, ∀ b ∈ xs, ∀ a' b', f a = .ok a' → f b = .ok b' → g a' = g b' → a = b) :
    (l.map g).Nodup := by
  induction xs generalizing l with
  | nil => simp [mapE] at h; subst h; simp
  | cons x xs ih =>
    obtain ⟨y, t, h1, h2, rfl⟩ := mapE_cons_ok.1 h
    rw [List.nodup_cons] at hnd
    rw [List.map_cons, List.nodup_cons]
    refine ⟨?_, ih h2 hnd.2 (fun a ha b hb => hinj a (by simp [ha]) b (by simp [hb]))⟩
    intro hy
    obtain ⟨z, hz, e⟩ := List.mem_map.1 hy
    obtain ⟨b, hb, hbz⟩ := (mem_mapE h2 z).1 hz
    have := hinj x (by simp) b (by simp [hb]) y z h1 hbz e.symm
    subst this
    exact hnd.1 hb

end Verif
