import Verif.Release.Model
import Mathlib.Data.List.Basic
import Mathlib.Tactic.Tauto
/-
Properties C132, C133: the programs with which releases are made.
-/
set_option linter.unusedSectionVars false
namespace Verif.Props
open Verif.Release

/-! ### C132: uploading assets -/

section Upload
variable {N B D : Type} [DecidableEq N] [DecidableEq D]

theorem look_filter (as : List (N × B)) (n m : N) :
    look (as.filter (fun a => decide (a.1 ≠ n))) m = if m = n then none else look as m := by
  induction as with
  | nil => simp [look]
  | cons a as ih =>
    unfold look at ih ⊢
    by_cases h : a.1 = n
    · rw [List.filter_cons_of_neg (by simp [h]), ih]
      split
      · rfl
      · next hm => rw [List.find?_cons_of_neg (by simp only [decide_eq_true_eq]; exact fun e => hm (e ▸ h))]
    · rw [List.filter_cons_of_pos (by simp [h])]
      by_cases hm : a.1 = m
      · rw [List.find?_cons_of_pos (by simp [hm]), List.find?_cons_of_pos (by simp [hm]), if_neg (fun e => h (hm.trans e))]
      · rw [List.find?_cons_of_neg (by simp [hm]), List.find?_cons_of_neg (by simp [hm]), ih]

theorem look_append (as : List (N × B)) (f : N × B) (m : N) (h : look as f.1 = none) :
    look (as ++ [f]) m = if m = f.1 then some f.2 else look as m := by
  unfold look at *
  rw [List.find?_append]
  split
  · next e =>
    subst e
    rw [Option.map_eq_none_iff] at h
    rw [h]
    simp
  · next e =>
    have : List.find? (fun a => decide (a.1 = m)) [f] = none := by
      rw [List.find?_singleton]
      simp [Ne.symm e]
    rw [this, Option.or_none]

theorem deleteAsset_spec (env : Nat → Answer) (n : N) (w : World N B) :
    (∀ m, m ≠ n → look (deleteAsset env n w).2.assets m = look w.assets m) ∧
    (look (deleteAsset env n w).2.assets n = look w.assets n ∨ look (deleteAsset env n w).2.assets n = none) ∧
    ((deleteAsset env n w).1 = .ok () → look (deleteAsset env n w).2.assets n = none) ∧
    (∀ e, (deleteAsset env n w).1 = .error e → e = .raised) ∧
    (env w.calls = .ok → look w.assets n ≠ none → (deleteAsset env n w).1 = .ok ()) := by
  unfold deleteAsset request
  cases hl : look w.assets n with
  | none => cases env w.calls <;> simp [hl]
  | some c =>
    have h1 := fun m => look_filter w.assets n m
    simp only [ne_eq, decide_not] at h1
    cases env w.calls <;> simp +contextual [hl, h1]

theorem uploadAsset_spec (env : Nat → Answer) (f : N × B) (w : World N B) :
    (∀ m, m ≠ f.1 → look (uploadAsset env f w).2.assets m = look w.assets m) ∧
    (look (uploadAsset env f w).2.assets f.1 = look w.assets f.1 ∨
      look w.assets f.1 = none ∧ look (uploadAsset env f w).2.assets f.1 = some f.2) ∧
    ((uploadAsset env f w).1 = .ok () → look (uploadAsset env f w).2.assets f.1 = some f.2) ∧
    (∀ e, (uploadAsset env f w).1 = .error e → e = .raised) ∧
    (env w.calls = .ok → look w.assets f.1 = none → (uploadAsset env f w).1 = .ok ()) := by
  unfold uploadAsset request
  cases hl : look w.assets f.1 with
  | some c => cases env w.calls <;> simp [hl]
  | none =>
    have h1 := fun m => look_append w.assets f m hl
    cases env w.calls <;> simp +contextual [hl, h1]

theorem exchange_spec (env : Nat → Answer) (f : N × B) (w : World N B) :
    (∀ m, m ≠ f.1 → look (exchange env f w).2.assets m = look w.assets m) ∧
    (look (exchange env f w).2.assets f.1 = look w.assets f.1 ∨ look (exchange env f w).2.assets f.1 = none ∨
      look (exchange env f w).2.assets f.1 = some f.2) ∧
    ((exchange env f w).1 = .ok () → look (exchange env f w).2.assets f.1 = some f.2) ∧
    (∀ e, (exchange env f w).1 = .error e → e = .raised) ∧
    ((∀ k, env k = .ok) → look w.assets f.1 ≠ none → (exchange env f w).1 = .ok ()) := by
  obtain ⟨d1, d2, d3, d4, d5⟩ := deleteAsset_spec env f.1 w
  unfold exchange
  cases hd : deleteAsset env f.1 w with
  | mk res w1 =>
    rw [hd] at d1 d2 d3 d4 d5
    cases res with
    | error e =>
      refine ⟨d1, d2.imp id Or.inl, (fun h => by cases h), fun e' he => ?_, fun h1 h2 => ?_⟩
      · cases he; exact d4 _ rfl
      · exact absurd (d5 (h1 _) h2) (by simp)
    | ok u =>
      have hn := d3 rfl
      obtain ⟨u1, u2, u3, u4, u5⟩ := uploadAsset_spec env f w1
      refine ⟨fun m hm => (u1 m hm).trans (d1 m hm), ?_, u3, u4, fun h1 _ => u5 (h1 _) hn⟩
      rcases u2 with h | ⟨-, h⟩
      · exact Or.inr (Or.inl (h.trans hn))
      · exact Or.inr (Or.inr h)

/-- what handling the files `fs` does, for a release that came with the assets `S` -/
structure Handled (o : Options) (sha : B → D) (env : Nat → Answer) (S : List (N × B)) (fs : List (N × B)) (w : World N B)
    (r : Except Halt Unit × World N B) : Prop where
  others : ∀ n, (∀ f ∈ fs, f.1 ≠ n) → look r.2.assets n = look w.assets n
  each : ∀ f ∈ fs, look r.2.assets f.1 = look S f.1 ∨ look r.2.assets f.1 = some f.2 ∨
    (look r.2.assets f.1 = none ∧ (o.force = true ∨ o.replace = true) ∧ r.1 = .error .raised)
  done : r.1 = .ok () → ∀ f ∈ fs, ∃ c, look r.2.assets f.1 = some c ∧ sha c = sha f.2
  missing : ∀ n m, look w.assets n ≠ none → look r.2.assets n = none → look w.assets m ≠ none → look r.2.assets m = none → n = m
  exits : ∀ c, r.1 = .error (.exit c) → c = -1 ∧ o.force = false ∧ o.replace = false ∧
    ∃ f ∈ fs, ∃ c, look S f.1 = some c ∧ sha c ≠ sha f.2
  same : o.force = false → ∀ f ∈ fs, ∀ c, look S f.1 = some c → sha c = sha f.2 → look r.2.assets f.1 = some c
  kept : o.force = false → o.replace = false → ∀ n c, look w.assets n = some c → look r.2.assets n = some c
  completes : (∀ k, env k = .ok) → o.force = true ∨ o.replace = true → r.1 = .ok ()
  nothing : o.force = false → (∀ f ∈ fs, ∃ c, look S f.1 = some c ∧ sha c = sha f.2) →
    r.2.assets = w.assets ∧ ((∀ k, env k = .ok) → r.1 = .ok ())

theorem download_spec (env : Nat → Answer) (n : N) (w : World N B) :
    (download env n w).2.assets = w.assets ∧
    (∀ c, (download env n w).1 = .ok c → look w.assets n = some c) ∧
    (∀ e, (download env n w).1 = .error e → e = .raised) ∧
    ((∀ k, env k = .ok) → look w.assets n ≠ none → ∃ c, (download env n w).1 = .ok c) := by
  unfold download
  cases hl : look w.assets n with
  | none => cases env w.calls <;> simp
  | some c =>
    cases he : env w.calls <;> simp
    all_goals exact ⟨w.calls, by rw [he]; simp⟩

theorem handle_spec (o : Options) (sha : B → D) (env : Nat → Answer) (S : List (N × B)) (f : N × B) (w : World N B)
    (hS : look w.assets f.1 = look S f.1) : Handled o sha env S [f] w (handle o sha env S f w) := by
  -- the four ways in which a file is handled
  have up : look S f.1 = none → Handled o sha env S [f] w (uploadAsset env f w) := by
    intro hn
    obtain ⟨u1, u2, u3, u4, u5⟩ := uploadAsset_spec env f w
    refine ⟨fun n hnf => u1 n (fun e => hnf f (by simp) e.symm), ?_, ?_, ?_, ?_, ?_, ?_, fun h _ => u5 (h _) (hS.trans hn), ?_⟩
    · intro g hg
      rw [List.mem_singleton] at hg; subst hg
      rcases u2 with h | ⟨-, h⟩
      · exact Or.inl (h.trans hS)
      · exact Or.inr (Or.inl h)
    · intro h g hg
      rw [List.mem_singleton] at hg; subst hg
      exact ⟨_, u3 h, rfl⟩
    · intro n m h1 h2
      exfalso
      have : n ≠ f.1 := fun e => h1 (by rw [e, hS, hn])
      exact h1 ((u1 n this).symm.trans h2)
    · intro c hc
      have := u4 _ hc
      cases this
    · intro _ g hg c hc
      rw [List.mem_singleton] at hg; subst hg
      rw [hn] at hc; cases hc
    · intro _ _ n c hc
      have : n ≠ f.1 := fun e => by rw [e, hS, hn] at hc; cases hc
      rw [u1 n this]; exact hc
    · intro _ h
      obtain ⟨c, hc, -⟩ := h f (by simp)
      rw [hn] at hc; cases hc
  have ex : ∀ w1 : World N B, w1.assets = w.assets → look S f.1 ≠ none → (o.force = true ∨ o.replace = true) →
      (o.force = false → ∀ c, look S f.1 = some c → sha c ≠ sha f.2) → Handled o sha env S [f] w (exchange env f w1) := by
    intro w1 hw1 hn ho hne
    obtain ⟨u1, u2, u3, u4, u5⟩ := exchange_spec env f w1
    rw [hw1] at u1 u2 u5
    refine ⟨fun n hnf => u1 n (fun e => hnf f (by simp) e.symm), ?_, ?_, ?_, ?_, ?_, ?_, fun h _ => u5 h (by rw [hS]; exact hn), ?_⟩
    · intro g hg
      rw [List.mem_singleton] at hg; subst hg
      rcases u2 with h | h | h
      · exact Or.inl (h.trans hS)
      · refine Or.inr (Or.inr ⟨h, ho, ?_⟩)
        cases hr : (exchange env g w1).1 with
        | ok u => rw [u3 hr] at h; cases h
        | error e => rw [u4 e hr]
      · exact Or.inr (Or.inl h)
    · intro h g hg
      rw [List.mem_singleton] at hg; subst hg
      exact ⟨_, u3 h, rfl⟩
    · have key : ∀ n, look w.assets n ≠ none → look (exchange env f w1).2.assets n = none → n = f.1 := by
        intro n h1 h2
        by_contra hne
        exact h1 ((u1 n hne).symm.trans h2)
      intro n m h1 h2 h3 h4
      rw [key n h1 h2, key m h3 h4]
    · intro c hc
      have := u4 _ hc
      cases this
    · intro hf g hg c hc hs
      rw [List.mem_singleton] at hg; subst hg
      exact absurd hs (hne hf c hc)
    · intro hf hr
      rcases ho with h | h
      · rw [hf] at h; cases h
      · rw [hr] at h; cases h
    · intro hf h
      obtain ⟨c, hc, hs⟩ := h f (by simp)
      exact absurd hs (hne hf c hc)
  have still : ∀ (r : Except Halt Unit) (w1 : World N B), w1.assets = w.assets →
      (r = .ok () → ∃ c, look S f.1 = some c ∧ sha c = sha f.2) →
      (∀ c, r = .error (.exit c) → c = -1 ∧ o.force = false ∧ o.replace = false ∧ ∃ c, look S f.1 = some c ∧ sha c ≠ sha f.2) →
      ((∀ k, env k = .ok) → o.force = true ∨ o.replace = true → r = .ok ()) →
      (o.force = false → (∃ c, look S f.1 = some c ∧ sha c = sha f.2) → (∀ k, env k = .ok) → r = .ok ()) →
      Handled o sha env S [f] w (r, w1) := by
    intro r w1 hw h1 h2 h3 h4
    refine ⟨fun n _ => by rw [hw], ?_, ?_, ?_, ?_, ?_, ?_, h3, ?_⟩
    · intro g hg
      rw [List.mem_singleton] at hg; subst hg
      exact Or.inl (by rw [hw]; exact hS)
    · intro h g hg
      rw [List.mem_singleton] at hg; subst hg
      obtain ⟨c, hc, hs⟩ := h1 h
      exact ⟨c, by rw [hw, hS]; exact hc, hs⟩
    · intro n m k1 k2
      rw [hw] at k2
      exact absurd k2 k1
    · intro c hc
      obtain ⟨k1, k2, k3, c', k4⟩ := h2 c hc
      exact ⟨k1, k2, k3, f, by simp, c', k4⟩
    · intro _ g hg c hc _
      rw [List.mem_singleton] at hg; subst hg
      rw [hw, hS]; exact hc
    · intro _ _ n c hc
      rw [hw]; exact hc
    · intro hf h
      exact ⟨hw, h4 hf (h f (by simp))⟩
  unfold handle
  cases hl : look S f.1 with
  | none => exact up hl
  | some c0 =>
    have hne : look S f.1 ≠ none := by rw [hl]; simp
    simp only
    split
    · next hf => exact ex w rfl hne (Or.inl hf) (fun h => by rw [hf] at h; cases h)
    · next hf =>
      rw [Bool.not_eq_true] at hf
      obtain ⟨d1, d2, d3, d4⟩ := download_spec env f.1 w
      cases hd : download env f.1 w with
      | mk res w1 =>
        rw [hd] at d1 d2 d3 d4
        cases res with
        | error e =>
          have he := d3 e rfl
          subst he
          have hno : ¬ ∀ k, env k = .ok := by
            intro h
            obtain ⟨c, hc⟩ := d4 h (by rw [hS, hl]; simp)
            cases hc
          exact still _ w1 d1 (fun h => by cases h) (fun c h => by cases h) (fun h => absurd h hno) (fun _ _ h => absurd h hno)
        | ok c =>
          have hc : look S f.1 = some c := by rw [← hS]; exact d2 c rfl
          simp only
          split
          · next hsha =>
            exact still _ w1 d1 (fun _ => ⟨c, hc, hsha.symm⟩) (fun c h => by cases h) (fun _ _ => rfl) (fun _ _ _ => rfl)
          · next hsha =>
            have hd : ∀ c', look S f.1 = some c' → sha c' ≠ sha f.2 := by
              intro c' hc'
              rw [hc] at hc'
              cases hc'
              exact fun e => hsha e.symm
            split
            · next hr => exact ex w1 d1 hne (Or.inr hr) (fun _ => hd)
            · next hr =>
              rw [Bool.not_eq_true] at hr
              refine still _ w1 d1 (fun h => by cases h) (fun c' h => ?_) (fun _ h => ?_) (fun _ ⟨c', h1, h2⟩ => absurd h2 (hd c' h1))
              · cases h
                exact ⟨rfl, hf, hr, c, hc, hd c hc⟩
              · rcases h with h | h
                · rw [hf] at h; cases h
                · rw [hr] at h; cases h

theorem handleAll_spec (o : Options) (sha : B → D) (env : Nat → Answer) (S : List (N × B)) : ∀ (fs : List (N × B)) (w : World N B),
    (fs.map Prod.fst).Nodup → (∀ f ∈ fs, look w.assets f.1 = look S f.1) → Handled o sha env S fs w (handleAll o sha env S fs w)
  | [], w, _, _ =>
    ⟨fun _ _ => rfl, by simp, by simp, fun _ _ h1 h2 => absurd h2 h1, (fun c h => by cases h), by simp, fun _ _ _ _ h => h,
      fun _ _ => rfl, fun _ _ => ⟨rfl, fun _ => rfl⟩⟩
  | f :: fs, w, hnd, hS => by
    rw [List.map_cons, List.nodup_cons] at hnd
    have hf : ∀ g ∈ fs, g.1 ≠ f.1 := fun g hg e => hnd.1 (List.mem_map.2 ⟨g, hg, e⟩)
    have h1 := handle_spec o sha env S f w (hS f (by simp))
    unfold handleAll
    cases hh : handle o sha env S f w with
    | mk res w1 =>
      rw [hh] at h1
      have hoth : ∀ g ∈ fs, look w1.assets g.1 = look w.assets g.1 := fun g hg => h1.others g.1 (by
        intro f' hf'; rw [List.mem_singleton] at hf'; subst hf'; exact fun e => hf g hg e.symm)
      cases res with
      | error e =>
        refine ⟨?_, ?_, (fun h => by cases h), h1.missing, ?_, ?_, h1.kept, ?_, ?_⟩
        · intro n hn
          exact h1.others n (fun g hg => hn g (List.mem_cons.2 (Or.inl (List.mem_singleton.1 hg))))
        · intro g hg
          rcases List.mem_cons.1 hg with rfl | hg
          · exact h1.each g (by simp)
          · exact Or.inl ((hoth g hg).trans (hS g (List.mem_cons_of_mem _ hg)))
        · intro c hc
          obtain ⟨k1, k2, k3, g, hg, k4⟩ := h1.exits c hc
          exact ⟨k1, k2, k3, g, List.mem_cons.2 (Or.inl (List.mem_singleton.1 hg)), k4⟩
        · intro hfo g hg c hc hs
          rcases List.mem_cons.1 hg with rfl | hg
          · exact h1.same hfo g (by simp) c hc hs
          · exact ((hoth g hg).trans (hS g (List.mem_cons_of_mem _ hg))).trans hc
        · intro ha ho
          have := h1.completes ha ho
          cases this
        · intro hfo ha
          have := h1.nothing hfo (fun g hg => ha g (List.mem_cons.2 (Or.inl (List.mem_singleton.1 hg))))
          exact ⟨this.1, fun hok => by have := this.2 hok; cases this⟩
      | ok u =>
        have ih := handleAll_spec o sha env S fs w1 hnd.2 (fun g hg => (hoth g hg).trans (hS g (List.mem_cons_of_mem _ hg)))
        have hfl : look (handleAll o sha env S fs w1).2.assets f.1 = look w1.assets f.1 := ih.others f.1 hf
        obtain ⟨c0, hc0, hs0⟩ := h1.done rfl f (by simp)
        have present : ∀ n, look w.assets n ≠ none → look w1.assets n ≠ none := by
          intro n hn h0
          by_cases e : n = f.1
          · rw [e, hc0] at h0; cases h0
          · exact hn ((h1.others n (by intro g hg; rw [List.mem_singleton] at hg; subst hg; exact fun k => e k.symm)).symm.trans h0)
        refine ⟨?_, ?_, ?_, ?_, ?_, ?_, ?_, ?_, ?_⟩
        · intro n hn
          refine (ih.others n (fun g hg => hn g (List.mem_cons_of_mem _ hg))).trans ?_
          exact h1.others n (fun g hg => hn g (List.mem_cons.2 (Or.inl (List.mem_singleton.1 hg))))
        · intro g hg
          rcases List.mem_cons.1 hg with rfl | hg
          · rcases h1.each g (by simp) with k | k | ⟨-, -, k⟩
            · exact Or.inl (hfl.trans k)
            · exact Or.inr (Or.inl (hfl.trans k))
            · cases k
          · exact ih.each g hg
        · intro h g hg
          rcases List.mem_cons.1 hg with rfl | hg
          · exact ⟨c0, hfl.trans hc0, hs0⟩
          · exact ih.done h g hg
        · intro n m k1 k2 k3 k4
          exact ih.missing n m (present n k1) k2 (present m k3) k4
        · intro c hc
          obtain ⟨k1, k2, k3, g, hg, k4⟩ := ih.exits c hc
          exact ⟨k1, k2, k3, g, List.mem_cons_of_mem _ hg, k4⟩
        · intro hfo g hg c hc hs
          rcases List.mem_cons.1 hg with rfl | hg
          · exact hfl.trans (h1.same hfo g (by simp) c hc hs)
          · exact ih.same hfo g hg c hc hs
        · intro k1 k2 n c hc
          exact ih.kept k1 k2 n c (h1.kept k1 k2 n c hc)
        · intro ha ho
          exact ih.completes ha ho
        · intro hfo ha
          have k1 := h1.nothing hfo (fun g hg => ha g (List.mem_cons.2 (Or.inl (List.mem_singleton.1 hg))))
          have k2 := ih.nothing hfo (fun g hg => ha g (List.mem_cons_of_mem _ hg))
          exact ⟨k2.1.trans k1.1, k2.2⟩

end Upload

/-! #### Specification -/

section Spec
variable {T N B D : Type} [DecidableEq T] [DecidableEq N] [DecidableEq D]

/-- the release with that tag that is listed first, among the first 30: its place -/
def Listed (rs : List (Rel T N B)) (tag : T) (i : Nat) : Prop :=
  i < 30 ∧ (∃ r, rs[i]? = some r ∧ r.tag = tag) ∧ ∀ j < i, ∀ r, rs[j]? = some r → r.tag ≠ tag

/-- the content of the asset `n` of the release at place `i`, if there is one -/
def Content (rs : List (Rel T N B)) (i : Nat) (n : N) : Option B := (rs[i]?).bind (fun r => look r.assets n)

/-- every request is answered -/
def AllWell (env : Nat → Answer) : Prop := ∀ k, env k = .ok

theorem listed_iff (rs : List (Rel T N B)) (tag : T) (i : Nat) :
    (rs.take 30).findIdx? (fun r => decide (r.tag = tag)) = some i ↔ Listed rs tag i := by
  rw [List.findIdx?_eq_some_iff_getElem]
  unfold Listed
  simp only [List.length_take, List.getElem_take, decide_eq_true_eq]
  constructor
  · rintro ⟨h, h1, h2⟩
    have hi : i < rs.length := by omega
    refine ⟨by omega, ⟨_, List.getElem?_eq_getElem hi, h1⟩, ?_⟩
    intro j hj r hr
    obtain ⟨hjl, rfl⟩ := List.getElem?_eq_some_iff.1 hr
    exact h2 j hj
  · rintro ⟨h, ⟨r, hr, h1⟩, h2⟩
    obtain ⟨hl, rfl⟩ := List.getElem?_eq_some_iff.1 hr
    refine ⟨by omega, h1, fun j hj => ?_⟩
    exact h2 j hj _ (List.getElem?_eq_getElem (by omega))

theorem listed_none (rs : List (Rel T N B)) (tag : T) :
    (rs.take 30).findIdx? (fun r => decide (r.tag = tag)) = none ↔ ¬ ∃ i, Listed rs tag i := by
  constructor
  · rintro h ⟨i, hi⟩
    rw [← listed_iff, h] at hi
    cases hi
  · intro h
    cases hh : (rs.take 30).findIdx? (fun r => decide (r.tag = tag)) with
    | none => rfl
    | some i => exact absurd ⟨i, (listed_iff rs tag i).1 hh⟩ h

/-- a run of the program either did not touch anything, or handled the files for the release that is listed -/
theorem uploadMain_cases (o : Options) (sha : B → D) (env : Nat → Answer) (tag : T) (files : List (N × B)) (rs : List (Rel T N B))
    (hnd : (files.map Prod.fst).Nodup) :
    ((uploadMain o sha env tag files rs).2 = rs ∧
      ((uploadMain o sha env tag files rs).1 = .raised ∧ ¬ AllWell env ∨
       (uploadMain o sha env tag files rs).1 = .exit (-1) ∧ ((¬ ∃ i, Listed rs tag i) ∨ ¬ AllWell env))) ∨
    ∃ i r hr, Listed rs tag i ∧ rs[i]? = some r ∧ Handled o sha env r.assets files ⟨r.assets, 1⟩ hr ∧
      (uploadMain o sha env tag files rs).2 = rs.set i { r with assets := hr.2.assets } ∧
      ((hr.1 = .ok () ∧ (uploadMain o sha env tag files rs).1 = .exit 0) ∨
        ∃ e, hr.1 = .error e ∧ (uploadMain o sha env tag files rs).1 = e) := by
  unfold uploadMain getRelease
  cases he : env 0 with
  | lost => exact Or.inl ⟨rfl, Or.inl ⟨rfl, fun h => by rw [h] at he; cases he⟩⟩
  | late => exact Or.inl ⟨rfl, Or.inl ⟨rfl, fun h => by rw [h] at he; cases he⟩⟩
  | garbled => exact Or.inl ⟨rfl, Or.inr ⟨rfl, Or.inr (fun h => by rw [h] at he; cases he)⟩⟩
  | ok =>
    simp only
    cases hi : (rs.take 30).findIdx? (fun r => decide (r.tag = tag)) with
    | none => exact Or.inl ⟨rfl, Or.inr ⟨rfl, Or.inl ((listed_none rs tag).1 hi)⟩⟩
    | some i =>
      have hL := (listed_iff rs tag i).1 hi
      obtain ⟨r, hr, -⟩ := hL.2.1
      refine Or.inr ⟨i, r, handleAll o sha env r.assets files ⟨r.assets, 1⟩, hL, hr,
        handleAll_spec o sha env r.assets files _ hnd (fun _ _ => rfl), ?_, ?_⟩
      · simp only [hr]
        split <;> next h => rw [h]
      · simp only [hr]
        split
        · next e w h => rw [h]; exact Or.inr ⟨e, rfl, rfl⟩
        · next u w h => rw [h]; exact Or.inl ⟨rfl, rfl⟩

theorem content_set {rs : List (Rel T N B)} {i : Nat} {r : Rel T N B} (hr : rs[i]? = some r) (as : List (N × B)) (j : Nat) (n : N) :
    Content (rs.set i { r with assets := as }) j n = if j = i then look as n else Content rs j n := by
  unfold Content
  obtain ⟨hl, -⟩ := List.getElem?_eq_some_iff.1 hr
  rw [List.getElem?_set]
  by_cases h : i = j
  · subst h; simp [hl]
  · simp [h, Ne.symm h]

theorem tags_set {rs : List (Rel T N B)} {i : Nat} {r : Rel T N B} (hr : rs[i]? = some r) (as : List (N × B)) :
    (rs.set i { r with assets := as }).map (fun r => r.tag) = rs.map (fun r => r.tag) := by
  obtain ⟨hl, rfl⟩ := List.getElem?_eq_some_iff.1 hr
  apply List.ext_getElem?
  intro j
  rw [List.getElem?_map, List.getElem?_map, List.getElem?_set]
  by_cases h : i = j
  · subst h; simp [hl]
  · simp [h]

theorem content_of {rs : List (Rel T N B)} {i : Nat} {r : Rel T N B} (hr : rs[i]? = some r) (n : N) : Content rs i n = look r.assets n := by
  unfold Content; rw [hr]; rfl

theorem listed_unique {rs : List (Rel T N B)} {tag : T} {i j : Nat} (hi : Listed rs tag i) (hj : Listed rs tag j) : i = j := by
  obtain ⟨-, ⟨r, hr, h1⟩, h2⟩ := hi
  obtain ⟨-, ⟨r', hr', h1'⟩, h2'⟩ := hj
  rcases Nat.lt_trichotomy i j with h | h | h
  · exact absurd h1 (h2' i h r hr)
  · exact h
  · exact absurd h1' (h2 j h r' hr')

theorem listed_tags {rs rs' : List (Rel T N B)} (h : rs'.map (fun r => r.tag) = rs.map (fun r => r.tag)) {tag : T} {i : Nat} :
    Listed rs' tag i ↔ Listed rs tag i := by
  have key : ∀ (l : List (Rel T N B)) (j : Nat), (∃ r : Rel T N B, l[j]? = some r ∧ r.tag = tag) ↔ (l.map (fun r => r.tag))[j]? = some tag := by
    intro l j
    rw [List.getElem?_map]
    cases l[j]? <;> simp
  have key2 : ∀ (l : List (Rel T N B)) (j : Nat), (∀ r : Rel T N B, l[j]? = some r → r.tag ≠ tag) ↔ (l.map (fun r => r.tag))[j]? ≠ some tag := by
    intro l j
    rw [List.getElem?_map]
    cases l[j]? <;> simp
  unfold Listed
  simp only [key, key2, h]

variable {o : Options} {sha : B → D} {env : Nat → Answer} {tag : T} {files : List (N × B)} {rs rs' : List (Rel T N B)} {halt : Halt}

/-- C132: if the program ends well, every file of the folder is an asset of the release, with the same hash. -/
theorem C132_uploaded (hnd : (files.map Prod.fst).Nodup) (h : uploadMain o sha env tag files rs = (.exit 0, rs')) :
    ∃ i, Listed rs tag i ∧ ∀ f ∈ files, ∃ c, Content rs' i f.1 = some c ∧ sha c = sha f.2 := by
  rcases uploadMain_cases o sha env tag files rs hnd with ⟨-, h1⟩ | ⟨i, r, hr, hL, hri, hH, h2, h3⟩
  · rw [h] at h1
    rcases h1 with ⟨h1, -⟩ | ⟨h1, -⟩ <;> simp at h1
  · rw [h] at h2 h3
    refine ⟨i, hL, fun f hf => ?_⟩
    simp only at h2
    rw [h2, content_set hri, if_pos rfl]
    rcases h3 with ⟨h3, -⟩ | ⟨e, h3, h4⟩
    · exact hH.done h3 f hf
    · simp only at h4
      subst h4
      obtain ⟨h5, -⟩ := hH.exits 0 h3
      simp at h5

/-- C132: at every moment, whatever becomes of the requests: no release is added, removed or renamed; releases other than the one
of the tag, and assets that are not named like a file, are as they were; an asset that is named like a file is as it was, or is the
file, or is missing; it is missing only if the program has raised, and only with `--force` or `--replace`. -/
theorem C132_any_moment_partial (hnd : (files.map Prod.fst).Nodup) (h : uploadMain o sha env tag files rs = (halt, rs')) :
    rs'.map (fun r => r.tag) = rs.map (fun r => r.tag) ∧
    ∀ i n, Content rs' i n = Content rs i n ∨
      (Listed rs tag i ∧ ∃ f ∈ files, f.1 = n ∧ (Content rs' i n = some f.2 ∨
        (Content rs' i n = none ∧ (o.force = true ∨ o.replace = true) ∧ halt = .raised))) := by
  rcases uploadMain_cases o sha env tag files rs hnd with ⟨h1, -⟩ | ⟨i, r, hr, hL, hri, hH, h2, h3⟩
  · rw [h] at h1
    simp only at h1
    subst h1
    exact ⟨rfl, fun _ _ => Or.inl rfl⟩
  · rw [h] at h2 h3
    simp only at h2 h3
    subst h2
    refine ⟨tags_set hri _, fun j n => ?_⟩
    rw [content_set hri]
    by_cases hj : j = i
    · subst hj
      rw [if_pos rfl, content_of hri]
      by_cases hn : ∃ f ∈ files, f.1 = n
      · obtain ⟨f, hf, rfl⟩ := hn
        rcases hH.each f hf with k | k | ⟨k1, k2, k3⟩
        · exact Or.inl k
        · exact Or.inr ⟨hL, f, hf, rfl, Or.inl k⟩
        · refine Or.inr ⟨hL, f, hf, rfl, Or.inr ⟨k1, k2, ?_⟩⟩
          rcases h3 with ⟨h3, -⟩ | ⟨e, h3, h4⟩
          · rw [k3] at h3; cases h3
          · rw [k3] at h3; cases h3; exact h4
      · exact Or.inl (hH.others n (fun f hf e => hn ⟨f, hf, e⟩))
    · rw [if_neg hj]; exact Or.inl rfl

/-- C132: without `--force` and `--replace` no asset is ever lost or changed. -/
theorem C132_nothing_lost (hnd : (files.map Prod.fst).Nodup) (ho : o.force = false ∧ o.replace = false)
    (h : uploadMain o sha env tag files rs = (halt, rs')) (i : Nat) (n : N) (c : B) (hc : Content rs i n = some c) :
    Content rs' i n = some c := by
  rcases uploadMain_cases o sha env tag files rs hnd with ⟨h1, -⟩ | ⟨j, r, hr, hL, hri, hH, h2, h3⟩
  · rw [h] at h1
    simp only at h1
    subst h1
    exact hc
  · rw [h] at h2
    simp only at h2
    subst h2
    rw [content_set hri]
    by_cases hj : i = j
    · subst hj
      rw [if_pos rfl]
      rw [content_of hri] at hc
      exact hH.kept ho.1 ho.2 n c hc
    · rw [if_neg hj]; exact hc

/-- C132: without `--force` an asset with the hash of its file is never touched. -/
theorem C132_equal_assets_stay (hnd : (files.map Prod.fst).Nodup) (ho : o.force = false)
    (h : uploadMain o sha env tag files rs = (halt, rs')) {i : Nat} {f : N × B} (hf : f ∈ files) {c : B}
    (hc : Content rs i f.1 = some c) (hs : sha c = sha f.2) : Content rs' i f.1 = some c := by
  rcases uploadMain_cases o sha env tag files rs hnd with ⟨h1, -⟩ | ⟨j, r, hr, hL, hri, hH, h2, h3⟩
  · rw [h] at h1
    simp only at h1
    subst h1
    exact hc
  · rw [h] at h2
    simp only at h2
    subst h2
    rw [content_set hri]
    by_cases hj : i = j
    · subst hj
      rw [if_pos rfl]
      rw [content_of hri] at hc
      exact hH.same ho f hf c hc hs
    · rw [if_neg hj]; exact hc

/-- C132: at every moment at most one asset is missing. -/
theorem C132_at_most_one_missing (hnd : (files.map Prod.fst).Nodup) (h : uploadMain o sha env tag files rs = (halt, rs'))
    {i j : Nat} {n m : N} (h1 : Content rs i n ≠ none) (h1' : Content rs' i n = none) (h2 : Content rs j m ≠ none)
    (h2' : Content rs' j m = none) : i = j ∧ n = m := by
  obtain ⟨-, hk⟩ := C132_any_moment_partial hnd h
  have hi : ∀ i n, Content rs i n ≠ none → Content rs' i n = none → Listed rs tag i := by
    intro i n k1 k2
    rcases hk i n with k | ⟨k, -⟩
    · exact absurd (k.symm.trans k2) k1
    · exact k
  have hij := listed_unique (hi i n h1 h1') (hi j m h2 h2')
  subst hij
  refine ⟨rfl, ?_⟩
  rcases uploadMain_cases o sha env tag files rs hnd with ⟨k1, -⟩ | ⟨j, r, hr, hL, hri, hH, k2, k3⟩
  · rw [h] at k1
    simp only at k1
    subst k1
    exact absurd h1' h1
  · have := listed_unique hL (hi i n h1 h1')
    subst this
    rw [h] at k2
    simp only at k2
    subst k2
    rw [content_set hri, if_pos rfl] at h1' h2'
    rw [content_of hri] at h1 h2
    exact hH.missing n m h1 h1' h2 h2'

/-- C132: it ends with the code -1 exactly for the reasons it says: there is no release with that tag (or the list cannot be read), or
a file differs from the asset of its name and neither option is given; with the latter there is such a file. -/
theorem C132_refuses (hnd : (files.map Prod.fst).Nodup) {code : Int} (hc : code ≠ 0)
    (h : uploadMain o sha env tag files rs = (.exit code, rs')) : code = -1 ∧
    (((¬ ∃ i, Listed rs tag i) ∨ ¬ AllWell env) ∧ rs' = rs ∨
      o.force = false ∧ o.replace = false ∧ ∃ i, Listed rs tag i ∧ ∃ f ∈ files, ∃ c, Content rs i f.1 = some c ∧ sha c ≠ sha f.2) := by
  rcases uploadMain_cases o sha env tag files rs hnd with ⟨h0, h1⟩ | ⟨i, r, hr, hL, hri, hH, h2, h3⟩
  · rw [h] at h1 h0
    simp only [reduceCtorEq, false_and, Halt.exit.injEq, false_or] at h1
    exact ⟨h1.1, Or.inl ⟨h1.2, h0⟩⟩
  · rw [h] at h3
    simp only [Halt.exit.injEq] at h3
    rcases h3 with ⟨-, h3⟩ | ⟨e, h3, h4⟩
    · exact absurd h3 hc
    · subst h4
      obtain ⟨k1, k2, k3, f, hf, c, k4, k5⟩ := hH.exits code h3
      exact ⟨k1, Or.inr ⟨k2, k3, i, hL, f, hf, c, by rw [content_of hri]; exact k4, k5⟩⟩

/-- C132: after a run that stopped at any moment, with any options, another run with `--replace` or `--force` in which all requests
are answered ends well: then every file is there (C132_uploaded). -/
theorem C132_run_again (hnd : (files.map Prod.fst).Nodup) (hL : ∃ i, Listed rs tag i)
    (h : uploadMain o sha env tag files rs = (halt, rs')) {o' : Options} (ho' : o'.force = true ∨ o'.replace = true)
    {env' : Nat → Answer} (henv : AllWell env') : ∃ rs'', uploadMain o' sha env' tag files rs' = (.exit 0, rs'') := by
  have ht := (C132_any_moment_partial hnd h).1
  refine ⟨(uploadMain o' sha env' tag files rs').2, ?_⟩
  have key : (uploadMain o' sha env' tag files rs').1 = .exit 0 := by
    rcases uploadMain_cases o' sha env' tag files rs' hnd with ⟨-, h1⟩ | ⟨i, r, hr, hL', hri, hH, h2, h3⟩
    · exfalso
      rcases h1 with ⟨-, h1⟩ | ⟨-, h1 | h1⟩
      · exact h1 henv
      · obtain ⟨i, hi⟩ := hL
        exact h1 ⟨i, (listed_tags ht).2 hi⟩
      · exact h1 henv
    · rcases h3 with ⟨-, h3⟩ | ⟨e, h3, -⟩
      · exact h3
      · rw [hH.completes henv ho'] at h3; cases h3
  rw [← key]

/-- C132: when every file is there already, running the program without `--force` changes nothing, whatever becomes of its requests,
and it ends well if they are answered. -/
theorem C132_repeating (hnd : (files.map Prod.fst).Nodup) (ho : o.force = false) {i : Nat} (hL : Listed rs tag i)
    (hall : ∀ f ∈ files, ∃ c, Content rs i f.1 = some c ∧ sha c = sha f.2)
    (h : uploadMain o sha env tag files rs = (halt, rs')) : rs' = rs ∧ (AllWell env → halt = .exit 0) := by
  rcases uploadMain_cases o sha env tag files rs hnd with ⟨h1, h2⟩ | ⟨j, r, hr, hL', hri, hH, h2, h3⟩
  · rw [h] at h1 h2
    refine ⟨h1, fun hw => ?_⟩
    rcases h2 with ⟨-, h2⟩ | ⟨-, h2 | h2⟩
    · exact absurd hw h2
    · exact absurd ⟨i, hL⟩ h2
    · exact absurd hw h2
  · have := listed_unique hL' hL
    subst this
    rw [h] at h2 h3
    simp only at h2 h3
    obtain ⟨k1, k2⟩ := hH.nothing ho (fun f hf => by
      obtain ⟨c, hc, hs⟩ := hall f hf
      exact ⟨c, by rw [← content_of hri]; exact hc, hs⟩)
    constructor
    · rw [h2, k1]
      apply List.ext_getElem?
      intro k
      rw [List.getElem?_set]
      split
      · next e => subst e; obtain ⟨hl, e⟩ := List.getElem?_eq_some_iff.1 hri; simp [hl]; exact e.symm
      · rfl
    · intro hw
      rcases h3 with ⟨-, h3⟩ | ⟨e, h3, -⟩
      · exact h3
      · rw [k2 hw] at h3; cases h3

/-! ### C133: preparing a release -/

/-- the clock goes on while the program sleeps -/
def Sleeps (clock : Nat → Nat) : Prop := ∀ k, clock k + delay 60000 k ≤ clock (k + 1)

theorem verify_ends {clock : Nat → Nat} (hc : Sleeps clock) (env : Nat → Answer) (tag : T) (rs : List (Rel T N B)) (calls : Nat) :
    ∀ fuel k, k ≤ 7 → 8 ≤ fuel + k → ∃ r n, verifyRelease env clock tag rs calls fuel k = some (r, n) ∧ n ≤ 8
  | 0, k, h1, h2 => by omega
  | fuel + 1, k, h1, h2 => by
    unfold verifyRelease
    split
    · exact ⟨_, _, rfl, by omega⟩
    · exact ⟨_, _, rfl, by omega⟩
    · split
      · exact ⟨_, _, rfl, by omega⟩
      · next hd =>
        by_cases hk : k = 7
        · exfalso
          subst hk
          have d0 : delay 60000 0 = 10 := rfl
          have d1 : delay 60000 1 = 20 := rfl
          have d2 : delay 60000 2 = 40 := rfl
          have d3 : delay 60000 3 = 80 := rfl
          have d4 : delay 60000 4 = 160 := rfl
          have d5 : delay 60000 5 = 320 := rfl
          have d6 : delay 60000 6 = 640 := rfl
          have d7 : delay 60000 7 = 1280 := rfl
          have c0 := hc 0; have c1 := hc 1; have c2 := hc 2; have c3 := hc 3
          have c4 := hc 4; have c5 := hc 5; have c6 := hc 6; have c7 := hc 7
          simp only [Nat.zero_add, Nat.reduceAdd] at *
          omega
        · exact verify_ends hc env tag rs calls fuel (k + 1) (by omega) (by omega)

/-- C133: waiting for the new release ends after at most eight attempts. -/
theorem C133_at_most_eight_attempts {clock : Nat → Nat} (hc : Sleeps clock) (env : Nat → Answer) (tag : T) (rs : List (Rel T N B))
    (calls : Nat) : ∃ r n, verifyRelease env clock tag rs calls 8 0 = some (r, n) ∧ n ≤ 8 :=
  verify_ends hc env tag rs calls 8 0 (by omega) (by omega)

/-- C133: so the program ends, whatever becomes of its requests. -/
theorem C133_ends {clock : Nat → Nat} (hc : Sleeps clock) (o : ReleaseOptions) (env : Nat → Answer) (tag : T)
    (rs : List (Rel T N B)) : ∃ halt rs', prepareMain o env clock 8 tag rs = some (halt, rs') := by
  have key : ∀ (rs : List (Rel T N B)) calls, ∃ halt rs', createAndVerify env clock 8 tag rs calls = some (halt, rs') := by
    intro rs calls
    unfold createAndVerify
    split
    · exact ⟨_, _, rfl⟩
    · next rs1 _ =>
      obtain ⟨r, n, h, -⟩ := C133_at_most_eight_attempts hc env tag rs1 (calls + 1)
      rw [h]
      cases r with
      | error e => exact ⟨_, _, rfl⟩
      | ok u => exact ⟨_, _, rfl⟩
  unfold prepareMain
  split
  · exact ⟨_, _, rfl⟩
  · exact key _ _
  · split
    · split
      · exact ⟨_, _, rfl⟩
      · exact key _ _
    · split <;> exact ⟨_, _, rfl⟩

theorem verify_only (env : Nat → Answer) (clock : Nat → Nat) (tag : T) (rs : List (Rel T N B)) (calls : Nat) :
    ∀ fuel k e n, verifyRelease env clock tag rs calls fuel k = some (.error e, n) → e = .raised
  | 0, k, e, n, h => by simp [verifyRelease] at h
  | fuel + 1, k, e, n, h => by
    unfold verifyRelease at h
    split at h
    · next e' he =>
      simp only [Option.some.injEq, Prod.mk.injEq, Except.error.injEq] at h
      rw [← h.1]
      unfold getRelease at he
      split at he <;> cases he <;> rfl
    · simp at h
    · split at h
      · simp only [Option.some.injEq, Prod.mk.injEq, Except.error.injEq] at h
        exact h.1.symm
      · exact verify_only env clock tag rs calls fuel (k + 1) e n h

theorem listed_new (tag : T) (rs : List (Rel T N B)) : Listed (⟨tag, []⟩ :: rs) tag 0 :=
  ⟨by omega, ⟨_, rfl, rfl⟩, fun j hj => by omega⟩

variable {clock : Nat → Nat} {fuel : Nat} {ro : ReleaseOptions}

theorem createAndVerify_spec {calls : Nat} (h : createAndVerify env clock fuel tag rs calls = some (halt, rs')) :
    (rs' = rs ∧ halt = .raised) ∨ (rs' = ⟨tag, []⟩ :: rs ∧ (halt = .raised ∨ halt = .exit 0)) := by
  unfold createAndVerify createRelease at h
  cases he : env calls <;> simp only [he] at h
  · split at h
    · cases h
    · next e n hv => cases h; exact Or.inr ⟨rfl, Or.inl (verify_only _ _ _ _ _ _ _ _ _ hv)⟩
    · cases h; exact Or.inr ⟨rfl, Or.inr rfl⟩
  · cases h; exact Or.inl ⟨rfl, rfl⟩
  · cases h; exact Or.inr ⟨rfl, Or.inl rfl⟩
  · split at h
    · cases h
    · next e n hv => cases h; exact Or.inr ⟨rfl, Or.inl (verify_only _ _ _ _ _ _ _ _ _ hv)⟩
    · cases h; exact Or.inr ⟨rfl, Or.inr rfl⟩

theorem createAndVerify_well {calls : Nat} (hw : AllWell env) :
    createAndVerify env clock (fuel + 1) tag rs calls = some (.exit 0, ⟨tag, []⟩ :: rs) := by
  have h0 := (listed_iff (⟨tag, []⟩ :: rs) tag 0).2 (listed_new tag rs)
  unfold createAndVerify createRelease
  simp only [hw calls]
  unfold verifyRelease getRelease
  simp only [hw _, h0]

/-- C133: without `--force` nothing is ever lost, at whatever moment the program stops: the releases are as they were, or there is
one more, with that tag and without assets, in front of them; the latter only if no release with that tag was listed (or the list could
not be read). -/
theorem C133_nothing_lost (hf : ro.force = false) (h : prepareMain ro env clock fuel tag rs = some (halt, rs')) :
    rs' = rs ∨ (rs' = ⟨tag, []⟩ :: rs ∧ ((¬ ∃ i, Listed rs tag i) ∨ env 0 = .garbled)) := by
  unfold prepareMain getRelease at h
  cases he : env 0 <;> simp only [he] at h
  · cases hi : (rs.take 30).findIdx? (fun r => decide (r.tag = tag)) with
    | none =>
      rw [hi] at h
      rcases createAndVerify_spec h with ⟨h1, -⟩ | ⟨h1, -⟩
      · exact Or.inl h1
      · exact Or.inr ⟨h1, Or.inl ((listed_none rs tag).1 hi)⟩
    | some i =>
      rw [hi] at h
      simp only [hf] at h
      split at h
      · next hb => cases hb
      · split at h <;> (cases h; exact Or.inl rfl)
  · cases h; exact Or.inl rfl
  · cases h; exact Or.inl rfl
  · rcases createAndVerify_spec h with ⟨h1, -⟩ | ⟨h1, -⟩
    · exact Or.inl h1
    · exact Or.inr ⟨h1, Or.inr rfl⟩

/-- C133: if the program ends well, a release with that tag is listed. -/
theorem C133_there_afterwards (h : prepareMain ro env clock fuel tag rs = some (.exit 0, rs')) : ∃ i, Listed rs' tag i := by
  have key : ∀ {rs1 : List (Rel T N B)} {calls}, createAndVerify env clock fuel tag rs1 calls = some (.exit 0, rs') →
      ∃ i, Listed rs' tag i := by
    intro rs1 calls hc
    rcases createAndVerify_spec hc with ⟨-, h1⟩ | ⟨h1, -⟩
    · cases h1
    · exact ⟨0, h1 ▸ listed_new tag rs1⟩
  unfold prepareMain getRelease at h
  cases he : env 0 <;> simp only [he] at h
  · cases hi : (rs.take 30).findIdx? (fun r => decide (r.tag = tag)) with
    | none => rw [hi] at h; exact key h
    | some i =>
      rw [hi] at h
      simp only at h
      split at h
      · split at h
        · next e _ hd =>
          unfold deleteRelease at hd
          split at hd <;> cases hd <;> cases h
        · exact key h
      · split at h
        · cases h; exact ⟨i, (listed_iff rs tag i).1 hi⟩
        · cases h
  · cases h
  · cases h
  · exact key h

/-- C133: what happens if all requests are answered. -/
theorem C133_answered (hw : AllWell env) :
    ((¬ ∃ i, Listed rs tag i) → prepareMain ro env clock (fuel + 1) tag rs = some (.exit 0, ⟨tag, []⟩ :: rs)) ∧
    (∀ i, Listed rs tag i → prepareMain ro env clock (fuel + 1) tag rs =
      some (if ro.force then (.exit 0, ⟨tag, []⟩ :: rs.eraseIdx i) else if ro.ignore then (.exit 0, rs) else (.exit (-1), rs))) := by
  unfold prepareMain getRelease
  simp only [hw 0]
  constructor
  · intro hn
    rw [(listed_none rs tag).2 hn]
    exact createAndVerify_well hw
  · intro i hi
    rw [(listed_iff rs tag i).2 hi]
    simp only
    split
    · unfold deleteRelease
      simp only [hw 1]
      exact createAndVerify_well hw
    · split <;> rfl

/-- C133: after a run without `--force` that stopped at any moment, another run with `--ignore` in which all requests are answered ends
well; and one release at most has been made in both runs together, if the first list could be read. -/
theorem C133_run_again (hf : ro.force = false) (h : prepareMain ro env clock fuel tag rs = some (halt, rs'))
    {env' : Nat → Answer} (hw : AllWell env') {clock' : Nat → Nat} {fuel' : Nat} {ro' : ReleaseOptions} (hf' : ro'.force = false)
    (hi' : ro'.ignore = true) (hg : env 0 ≠ .garbled) :
    ∃ rs'', prepareMain ro' env' clock' (fuel' + 1) tag rs' = some (.exit 0, rs'') ∧
      (∃ i, Listed rs'' tag i) ∧
      (rs'' = rs ∧ (∃ i, Listed rs tag i) ∨ rs'' = ⟨tag, []⟩ :: rs ∧ ¬ ∃ i, Listed rs tag i) := by
  obtain ⟨k1, k2⟩ := C133_answered (ro := ro') (clock := clock') (fuel := fuel') (tag := tag) (rs := rs') hw
  have done : ∀ rs'', prepareMain ro' env' clock' (fuel' + 1) tag rs' = some (.exit 0, rs'') →
      (rs'' = rs ∧ (∃ i, Listed rs tag i) ∨ rs'' = ⟨tag, []⟩ :: rs ∧ ¬ ∃ i, Listed rs tag i) →
      ∃ rs'', prepareMain ro' env' clock' (fuel' + 1) tag rs' = some (.exit 0, rs'') ∧ (∃ i, Listed rs'' tag i) ∧
      (rs'' = rs ∧ (∃ i, Listed rs tag i) ∨ rs'' = ⟨tag, []⟩ :: rs ∧ ¬ ∃ i, Listed rs tag i) :=
    fun rs'' h1 h2 => ⟨rs'', h1, C133_there_afterwards h1, h2⟩
  rcases C133_nothing_lost hf h with e | ⟨e, hn⟩
  · subst e
    by_cases hL : ∃ i, Listed rs' tag i
    · obtain ⟨i, hi⟩ := hL
      exact done rs' (by rw [k2 i hi]; simp [hf', hi']) (Or.inl ⟨rfl, i, hi⟩)
    · exact done _ (k1 hL) (Or.inr ⟨rfl, hL⟩)
  · have hn := hn.resolve_right hg
    exact done rs' (by rw [k2 0 (e ▸ listed_new tag rs)]; simp [hf', hi']) (Or.inr ⟨e, hn⟩)

/-- C133: with `--force`, at whatever moment it stops: only the release with that tag that is listed is ever deleted. -/
theorem C133_force_partial (h : prepareMain ro env clock fuel tag rs = some (halt, rs')) :
    rs' = rs ∨ rs' = ⟨tag, []⟩ :: rs ∨
    ∃ i, Listed rs tag i ∧ ro.force = true ∧ (rs' = rs.eraseIdx i ∧ halt = .raised ∨ rs' = ⟨tag, []⟩ :: rs.eraseIdx i) := by
  by_cases hf : ro.force = true
  · unfold prepareMain getRelease at h
    cases he : env 0 <;> simp only [he] at h
    · cases hi : (rs.take 30).findIdx? (fun r => decide (r.tag = tag)) with
      | none =>
        rw [hi] at h
        rcases createAndVerify_spec h with ⟨h1, -⟩ | ⟨h1, -⟩
        · exact Or.inl h1
        · exact Or.inr (Or.inl h1)
      | some i =>
        have hL := (listed_iff rs tag i).1 hi
        rw [hi] at h
        simp only [hf, if_true] at h
        unfold deleteRelease at h
        cases he1 : env 1 <;> simp only [he1] at h
        · rcases createAndVerify_spec h with ⟨h1, h2⟩ | ⟨h1, -⟩
          · exact Or.inr (Or.inr ⟨i, hL, hf, Or.inl ⟨h1, h2⟩⟩)
          · exact Or.inr (Or.inr ⟨i, hL, hf, Or.inr h1⟩)
        · cases h; exact Or.inl rfl
        · cases h; exact Or.inr (Or.inr ⟨i, hL, hf, Or.inl ⟨rfl, rfl⟩⟩)
        · rcases createAndVerify_spec h with ⟨h1, h2⟩ | ⟨h1, -⟩
          · exact Or.inr (Or.inr ⟨i, hL, hf, Or.inl ⟨h1, h2⟩⟩)
          · exact Or.inr (Or.inr ⟨i, hL, hf, Or.inr h1⟩)
    · cases h; exact Or.inl rfl
    · cases h; exact Or.inl rfl
    · rcases createAndVerify_spec h with ⟨h1, -⟩ | ⟨h1, -⟩
      · exact Or.inl h1
      · exact Or.inr (Or.inl h1)
  · rw [Bool.not_eq_true] at hf
    rcases C133_nothing_lost hf h with e | ⟨e, -⟩
    · exact Or.inl e
    · exact Or.inr (Or.inl e)

end Spec

/-! ### Concrete cases -/

namespace ReleaseExample

/-- all requests are answered but number `k`, which gets lost -/
def fails (k : Nat) (n : Nat) : Answer := if n = k then .lost else .ok

/-- all requests are answered but number `k`, the answer of which is lost -/
def answerLost (k : Nat) (n : Nat) : Answer := if n = k then .late else .ok

/-- a clock that does what `Sleeps` demands -/
def clock (n : Nat) : Nat := 60000 * n

theorem delay_le : ∀ k, delay 60000 k ≤ 60000
  | 0 => by decide
  | k + 1 => Nat.min_le_right _ _

theorem clock_sleeps : Sleeps clock := fun k => by
  have := delay_le k
  unfold clock
  omega

/-- two releases; contents are numbers, and their hashes too -/
def rels : List (Rel Nat Nat Nat) := [⟨7, [(1, 10), (2, 20)]⟩, ⟨8, [(1, 10), (2, 20), (3, 30)]⟩]

/-- the folder: 1 as it is, 2 changed, 4 new -/
def folder : List (Nat × Nat) := [(1, 10), (2, 21), (4, 40)]

theorem upload_ok : uploadMain ⟨false, true⟩ id (fun _ => .ok) 8 folder rels =
    (.exit 0, [⟨7, [(1, 10), (2, 20)]⟩, ⟨8, [(1, 10), (3, 30), (2, 21), (4, 40)]⟩]) := by rfl

example := C132_uploaded (by decide) upload_ok
example := C132_any_moment_partial (by decide) upload_ok

/-- C132 is violated: if the upload fails after the deletion, the release has lost its asset 2. -/
theorem C132_violated : uploadMain ⟨false, true⟩ id (fails 4) 8 folder rels =
    (.raised, [⟨7, [(1, 10), (2, 20)]⟩, ⟨8, [(1, 10), (3, 30)]⟩]) ∧ Content rels 1 2 = some 20 ∧
    Content [⟨7, [(1, 10), (2, 20)]⟩, (⟨8, [(1, 10), (3, 30)]⟩ : Rel Nat Nat Nat)] 1 2 = none := ⟨rfl, rfl, rfl⟩

/-- but running it again mends that -/
example := C132_run_again (rs := rels) (files := folder) (tag := 8) (by decide) ⟨1, by decide, ⟨_, rfl, rfl⟩, by decide⟩ C132_violated.1 (o' := ⟨false, true⟩) (Or.inr rfl)
  (env' := fun _ => .ok) (fun _ => rfl)

/-- without an option the program stops at the file that differs, and nothing has been lost -/
theorem upload_refused : uploadMain ⟨false, false⟩ id (fun _ => .ok) 8 folder rels = (.exit (-1), rels) := by rfl
example := C132_refuses (by decide) (by decide) upload_refused
example := C132_nothing_lost (by decide) ⟨rfl, rfl⟩ upload_refused

example (env : Nat → Answer) := C132_repeating (o := ⟨false, true⟩) (sha := id) (env := env) (tag := 8) (files := [(1, 10), (2, 20)])
  (rs := rels) (by decide) rfl (i := 1) ⟨by decide, ⟨_, rfl, rfl⟩, by decide⟩ (by decide) rfl

/-- the first run makes the release, but the answer is lost; the second one finds it -/
theorem prepare_late : prepareMain ⟨false, true⟩ (answerLost 1) clock 8 9 rels = some (.raised, ⟨9, []⟩ :: rels) := by rfl
example := C133_run_again rfl prepare_late (env' := fun _ => .ok) (fun _ => rfl) (clock' := clock) (fuel' := 7) (ro' := ⟨false, true⟩) rfl rfl
  (by decide)
example := C133_nothing_lost rfl prepare_late
example := C133_ends clock_sleeps ⟨true, false⟩ (fails 3) 8 rels

/-- C133 is violated: with `--force`, if the new release cannot be made after the old one was deleted, the release is gone, and so are
its assets; ... -/
theorem C133_violated_force : prepareMain ⟨true, false⟩ (fails 2) clock 8 8 rels = some (.raised, [⟨7, [(1, 10), (2, 20)]⟩]) := by rfl

/-- ... a release that is not among the first 30 is not seen, and a second one with its tag is made; ... -/
theorem C133_violated_page : prepareMain ⟨false, true⟩ (fun _ => .ok) clock 8 8 ((List.replicate 30 ⟨7, []⟩) ++ [⟨8, [(1, 10)]⟩]) =
    some (.exit 0, (⟨8, []⟩ : Rel Nat Nat Nat) :: ((List.replicate 30 ⟨7, []⟩) ++ [⟨8, [(1, 10)]⟩])) := by rfl

/-- ... and so it is if the list cannot be read as JSON. -/
theorem C133_violated_garbled : prepareMain ⟨false, false⟩ (fun n => if n = 0 then .garbled else .ok) clock 8 8 rels =
    some (.exit 0, ⟨8, []⟩ :: rels) := by rfl

end ReleaseExample
end Verif.Props
