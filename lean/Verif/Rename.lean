import Verif.Py
import Verif.PySort
import Verif.PyDict
import Verif.PyMap
import Mathlib.Data.Int.Order.Basic
/-
Order-preserving renamings of numbers, and what they do to lists, sets and dictionaries.
-/
set_option linter.unusedSectionVars false
namespace Verif

/-- a renaming of the positive numbers that keeps their order -/
structure Ren where
  nat : Nat → Nat
  mono : ∀ {a b : Nat}, a < b → nat a < nat b
  zero : nat 0 = 0

namespace Ren
variable (f : Ren)

/-- the renaming of literals: the sign stays -/
def lit (l : Int) : Int := if 0 ≤ l then f.nat l.natAbs else -(f.nat l.natAbs)

theorem nat_lt {a b : Nat} : f.nat a < f.nat b ↔ a < b := by
  constructor
  · intro h
    by_contra hn
    rcases Nat.lt_or_ge b a with h1 | h1
    · have := f.mono h1; omega
    · have : a = b := by omega
      subst this; omega
  · exact f.mono

theorem nat_inj {a b : Nat} : f.nat a = f.nat b ↔ a = b := by
  constructor
  · intro h
    rcases Nat.lt_trichotomy a b with h1 | h1 | h1
    · have := f.mono h1; omega
    · exact h1
    · have := f.mono h1; omega
  · rintro rfl; rfl

theorem nat_pos {a : Nat} : 0 < f.nat a ↔ 0 < a := by
  have := f.nat_lt (a := 0) (b := a)
  rwa [f.zero] at this

theorem lit_natAbs (l : Int) : (f.lit l).natAbs = f.nat l.natAbs := by
  unfold lit; split <;> omega

@[simp] theorem lit_natCast (i : Nat) : f.lit (i : Int) = (f.nat i : Int) := by
  unfold lit; simp

theorem lit_pos {l : Int} : 0 < f.lit l ↔ 0 < l := by
  unfold lit
  have := f.nat_pos (a := l.natAbs)
  split <;> omega

theorem lit_neg (l : Int) : f.lit (-l) = -f.lit l := by
  unfold lit
  have h0 := f.nat_pos (a := l.natAbs)
  have h := f.zero
  rw [Int.natAbs_neg]
  split <;> split <;> omega

theorem lit_lt {a b : Int} : f.lit a < f.lit b ↔ a < b := by
  unfold lit
  have h1 := f.nat_lt (a := a.natAbs) (b := b.natAbs)
  have h2 := f.nat_lt (a := b.natAbs) (b := a.natAbs)
  have h3 := f.nat_pos (a := a.natAbs)
  have h4 := f.nat_pos (a := b.natAbs)
  split <;> split <;> omega

theorem lit_le {a b : Int} : f.lit a ≤ f.lit b ↔ a ≤ b := by
  have := f.lit_lt (a := b) (b := a); omega

theorem lit_inj {a b : Int} : f.lit a = f.lit b ↔ a = b := by
  have := f.lit_lt (a := b) (b := a); have := f.lit_lt (a := a) (b := b); omega

theorem lit_injective {a b : Int} (h : f.lit a = f.lit b) : a = b := f.lit_inj.1 h

@[simp] theorem iabs_lit (l : Int) : iabs (f.lit l) = f.lit (iabs l) := by
  unfold iabs
  rw [f.lit_natAbs, f.lit_natCast]

theorem lit_neg_iff {l : Int} : f.lit l < 0 ↔ l < 0 := by
  have := f.lit_lt (a := l) (b := 0)
  have h0 : f.lit 0 = 0 := by unfold lit; simp [f.zero]
  rwa [h0] at this

end Ren

/-! ### lists -/

section
variable {α β γ : Type} [DecidableEq α] [DecidableEq β] {f : α → β} (hf : ∀ {x y : α}, f x = f y → x = y)
include hf

theorem mem_map_inj {x : α} {l : List α} : f x ∈ l.map f ↔ x ∈ l := by
  rw [List.mem_map]
  constructor
  · rintro ⟨y, hy, e⟩; rw [← hf e]; exact hy
  · exact fun h => ⟨x, h, rfl⟩

theorem sadd_map (x : α) (l : List α) : sadd (f x) (l.map f) = (sadd x l).map f := by
  unfold sadd
  by_cases h : x ∈ l
  · rw [if_pos h, if_pos ((mem_map_inj hf).2 h)]
  · rw [if_neg h, if_neg (fun k => h ((mem_map_inj hf).1 k))]; simp

theorem sdiscard_map (x : α) (l : List α) : sdiscard (f x) (l.map f) = (sdiscard x l).map f := by
  unfold sdiscard
  rw [List.filter_map]
  congr 1
  apply List.filter_congr
  intro y _
  simp only [Function.comp, decide_eq_decide, ne_eq, not_iff_not]
  exact ⟨fun h => hf h, fun h => by rw [h]⟩

theorem supdate_map (xs : List α) : ∀ l : List α, supdate (xs.map f) (l.map f) = (supdate xs l).map f := by
  induction xs with
  | nil => intro l; rfl
  | cons x xs ih =>
    intro l
    unfold supdate at *
    rw [List.map_cons, List.foldl_cons, List.foldl_cons, sadd_map hf, ih]

theorem fromkeys_map (xs : List α) : fromkeys (xs.map f) = (fromkeys xs).map f := supdate_map hf xs []

theorem filter_notin_map (l m : List α) :
    (l.map f).filter (fun x => decide (x ∉ m.map f)) = (l.filter (fun x => decide (x ∉ m))).map f := by
  rw [List.filter_map]
  congr 1
  apply List.filter_congr
  intro y _
  simp only [Function.comp, mem_map_inj hf]

theorem fset_map {g : α → γ} {g' : β → γ} (h : ∀ x, g' (f x) = g x) (k : α) (v : γ) (x : α) :
    fset g' (f k) v (f x) = fset g k v x := by
  unfold fset
  by_cases e : x = k
  · rw [if_pos e, if_pos (by rw [e])]
  · rw [if_neg e, if_neg (fun k => e (hf k)), h]

theorem dget_map {κ : Type} (g : γ → κ) (d : Dict α γ) (k : α) :
    dget (d.map (fun kv => (f kv.1, g kv.2))) (f k) = (dget d k).map g := by
  induction d with
  | nil => rfl
  | cons kv d ih =>
    rw [List.map_cons, dget, dget]
    by_cases e : kv.1 = k
    · rw [if_pos e, if_pos (by rw [e])]; rfl
    · rw [if_neg e, if_neg (fun k => e (hf k)), ih]

theorem dset_map {κ : Type} (g : γ → κ) (d : Dict α γ) (k : α) (v : γ) :
    dset (d.map (fun kv => (f kv.1, g kv.2))) (f k) (g v) = (dset d k v).map (fun kv => (f kv.1, g kv.2)) := by
  induction d with
  | nil => rfl
  | cons kv d ih =>
    rw [List.map_cons, dset, dset]
    by_cases e : kv.1 = k
    · rw [if_pos e, if_pos (by rw [e])]; rfl
    · rw [if_neg e, if_neg (fun k => e (hf k)), ih]; rfl

theorem dictOf_map {κ : Type} (g : γ → κ) (l : List (α × γ)) :
    dictOf (l.map (fun kv => (f kv.1, g kv.2))) = (dictOf l).map (fun kv => (f kv.1, g kv.2)) := by
  unfold dictOf
  have : ∀ d : Dict α γ, (l.map (fun kv => (f kv.1, g kv.2))).foldl (fun d kv => dset d kv.1 kv.2) (d.map (fun kv => (f kv.1, g kv.2)))
      = (l.foldl (fun d kv => dset d kv.1 kv.2) d).map (fun kv => (f kv.1, g kv.2)) := by
    induction l with
    | nil => intro d; rfl
    | cons kv l ih =>
      intro d
      rw [List.map_cons, List.foldl_cons, List.foldl_cons]
      simp only
      rw [dset_map hf g, ih]
  exact this []

end

theorem sortBy_map {α β κ κ' : Type} [LinearOrder κ] [LinearOrder κ'] {f : α → β} {key : α → κ} {key' : β → κ'}
    (h : ∀ x y, key' (f x) ≤ key' (f y) ↔ key x ≤ key y) (l : List α) : sortBy key' (l.map f) = (sortBy key l).map f := by
  have ins : ∀ x (l : List α), insertBy key' (f x) (l.map f) = (insertBy key x l).map f := by
    intro x l
    induction l with
    | nil => rfl
    | cons y l ih =>
      rw [List.map_cons, insertBy, insertBy]
      by_cases e : key x ≤ key y
      · rw [if_pos e, if_pos ((h x y).2 e)]; rfl
      · rw [if_neg e, if_neg (fun k => e ((h x y).1 k)), ih]; rfl
  induction l with
  | nil => rfl
  | cons x l ih => rw [List.map_cons, sortBy, sortBy, ih, ins]

/-! ### results -/

/-- the same exception, or related values -/
inductive ERel {ε α β : Type} (R : α → β → Prop) : Except ε α → Except ε β → Prop where
  | error (e : ε) : ERel R (.error e) (.error e)
  | ok {a : α} {b : β} : R a b → ERel R (.ok a) (.ok b)

theorem ERel.bind {ε α β α' β' : Type} {R : α → β → Prop} {R' : α' → β' → Prop} {x : Except ε α} {y : Except ε β}
    {g : α → Except ε α'} {g' : β → Except ε β'} (h : ERel R x y) (hg : ∀ a b, R a b → ERel R' (g a) (g' b)) :
    ERel R' (x >>= g) (y >>= g') := by
  cases h with
  | error e => exact .error e
  | ok h => exact hg _ _ h

theorem ERel.mono {ε α β : Type} {R R' : α → β → Prop} {x : Except ε α} {y : Except ε β} (h : ERel R x y)
    (hr : ∀ a b, R a b → R' a b) : ERel R' x y := by
  cases h with
  | error e => exact .error e
  | ok h => exact .ok (hr _ _ h)

theorem ERel.eq {ε α : Type} {x y : Except ε α} (h : ERel (fun a b => a = b) x y) : x = y := by
  cases h with
  | error e => rfl
  | ok h => rw [h]

theorem ERel.of_eq {ε α : Type} {x y : Except ε α} (h : x = y) : ERel (fun a b => a = b) x y := by
  subst h
  cases x with
  | error e => exact .error e
  | ok a => exact .ok rfl

theorem mapE_map {ε α α' β β' : Type} {g : α → Except ε β} {g' : α' → Except ε β'} (φ : α → α') (ψ : β → β') (l : List α)
    (h : ∀ x ∈ l, g' (φ x) = (g x).map ψ) : mapE g' (l.map φ) = (mapE g l).map (List.map ψ) := by
  induction l with
  | nil => rfl
  | cons x l ih =>
    rw [List.map_cons, mapE, mapE, h x (by simp), ih (fun y hy => h y (by simp [hy]))]
    cases g x with
    | error e => rfl
    | ok a =>
      cases mapE g l with
      | error e => rfl
      | ok b => rfl

end Verif
