import Verif.Rules.Justify
/-
The package chosen by a hard update job.
-/
set_option linter.unusedSectionVars false
namespace Verif.Rules
open Verif Verif.Pkg Verif.Props

variable {N S U : Type} [LinearOrder N] [DecidableEq S] [LinearOrder U] [Syntax S U]

theorem keyLT_iff (a b : Version U × Bool) :
    keyLT a b = true ↔ a.1 < b.1 ∨ (a.1 = b.1 ∧ a.2 = false ∧ b.2 = true) := by
  unfold keyLT
  simp [and_assoc]

theorem keyLT_irrefl (a : Version U × Bool) : ¬ keyLT a a = true := by
  rw [keyLT_iff]
  rintro (h | ⟨-, h1, h2⟩)
  · exact lt_irrefl _ h
  · rw [h1] at h2; simp at h2

theorem keyLT_trans {a b c : Version U × Bool} (h1 : keyLT a b = true) (h2 : keyLT b c = true) : keyLT a c = true := by
  rw [keyLT_iff] at *
  rcases h1 with h1 | ⟨h1, h1', h1''⟩ <;> rcases h2 with h2 | ⟨h2, h2', h2''⟩
  · exact Or.inl (lt_trans h1 h2)
  · exact Or.inl (h2 ▸ h1)
  · exact Or.inl (h1 ▸ h2)
  · rw [h1''] at h2'; simp at h2'

theorem keyLT_of_not {a b c : Version U × Bool} (h1 : ¬ keyLT b a = true) (h2 : keyLT b c = true) :
    keyLT a c = true := by
  rw [keyLT_iff] at *
  have hab : a.1 ≤ b.1 := by
    rcases le_or_gt a.1 b.1 with h | h
    · exact h
    · exact absurd (Or.inl h) h1
  rcases h2 with h2 | ⟨h2, h2', h2''⟩
  · exact Or.inl (lt_of_le_of_lt hab h2)
  · rcases lt_or_eq_of_le hab with h | h
    · exact Or.inl (h2 ▸ h)
    · refine Or.inr ⟨h.trans h2, ?_, h2''⟩
      cases ha : a.2 with
      | false => rfl
      | true => exact absurd (Or.inr ⟨h.symm, h2', ha⟩) h1

theorem maxPkgFrom_split {key : Package N S U → Except PErr (Version U × Bool)} {K : Package N S U → Version U × Bool}
    {l : List (Package N S U)} (hK : ∀ x ∈ l, key x = .ok (K x)) {b p : Package N S U}
    (h : maxPkgFrom key l (b, K b) = .ok p) :
    (p = b ∧ ∀ x ∈ l, ¬ keyLT (K b) (K x) = true) ∨
    (∃ l1 l2, l = l1 ++ p :: l2 ∧ keyLT (K b) (K p) = true ∧ (∀ x ∈ l1, keyLT (K x) (K p) = true) ∧
      ∀ x ∈ l2, ¬ keyLT (K p) (K x) = true) := by
  induction l generalizing b with
  | nil =>
    simp only [maxPkgFrom, Except.ok.injEq] at h
    exact Or.inl ⟨h.symm, by simp⟩
  | cons q l ih =>
    unfold maxPkgFrom at h
    rw [hK q (by simp)] at h
    simp only [bind_ok, Except.ok.injEq, exists_eq_left'] at h
    have hK' : ∀ x ∈ l, key x = .ok (K x) := fun x hx => hK x (by simp [hx])
    split at h
    · next hlt =>
      rcases ih hK' h with ⟨rfl, h2⟩ | ⟨l1, l2, rfl, h2, h3, h4⟩
      · exact Or.inr ⟨[], l, rfl, hlt, by simp, h2⟩
      · refine Or.inr ⟨q :: l1, l2, rfl, keyLT_trans hlt h2, ?_, h4⟩
        intro x hx
        rcases List.mem_cons.1 hx with rfl | hx
        · exact h2
        · exact h3 x hx
    · next hlt =>
      rcases ih hK' h with ⟨rfl, h2⟩ | ⟨l1, l2, rfl, h2, h3, h4⟩
      · refine Or.inl ⟨rfl, ?_⟩
        intro x hx
        rcases List.mem_cons.1 hx with rfl | hx
        · exact hlt
        · exact h2 x hx
      · refine Or.inr ⟨q :: l1, l2, rfl, h2, ?_, h4⟩
        intro x hx
        rcases List.mem_cons.1 hx with rfl | hx
        · exact keyLT_of_not hlt h2
        · exact h3 x hx

theorem maxPkg_split {key : Package N S U → Except PErr (Version U × Bool)} {K : Package N S U → Version U × Bool}
    {l : List (Package N S U)} (hK : ∀ x ∈ l, key x = .ok (K x)) {p : Package N S U} (h : maxPkg key l = .ok p) :
    ∃ l1 l2, l = l1 ++ p :: l2 ∧ (∀ x ∈ l1, keyLT (K x) (K p) = true) ∧ ∀ x ∈ l2, ¬ keyLT (K p) (K x) = true := by
  cases l with
  | nil => simp [maxPkg] at h
  | cons q l =>
    simp only [maxPkg, hK q (by simp), bind_ok, Except.ok.injEq, exists_eq_left'] at h
    rcases maxPkgFrom_split (fun x hx => hK x (by simp [hx])) h with ⟨rfl, h2⟩ | ⟨l1, l2, rfl, h2, h3, h4⟩
    · exact ⟨[], l, rfl, by simp, h2⟩
    · refine ⟨q :: l1, l2, rfl, ?_, h4⟩
      intro x hx
      rcases List.mem_cons.1 hx with rfl | hx
      · exact h2
      · exact h3 x hx

theorem flat_split {α : Type} (f : α → Nat) (l : List α) {b a : List α} {p : α} (hp : p ∉ b)
    (h : l.flatMap (fun x => List.replicate (f x) x) = b ++ p :: a) :
    ∃ l1 l2, l = l1 ++ p :: l2 ∧ (∀ x ∈ l1, 0 < f x → x ∈ b) ∧ ∀ x ∈ l2, 0 < f x → x ∈ a := by
  have hmem : ∀ (t : List α) (y : α), y ∈ t → 0 < f y → y ∈ t.flatMap (fun x => List.replicate (f x) x) := by
    intro t y hy hf
    rw [List.mem_flatMap]
    exact ⟨y, hy, by rw [List.mem_replicate]; exact ⟨by omega, rfl⟩⟩
  induction l generalizing b with
  | nil => simp at h
  | cons x t ih =>
    rw [List.flatMap_cons] at h
    rcases List.append_eq_append_iff.1 h with ⟨c, h1, h2⟩ | ⟨c, h1, h2⟩
    · -- b = replicate ++ c, rest = c ++ p :: a
      have hpc : p ∉ c := by intro k; apply hp; rw [h1]; simp [k]
      obtain ⟨l1, l2, rfl, k2, k3⟩ := ih hpc h2
      refine ⟨x :: l1, l2, rfl, ?_, k3⟩
      intro y hy hf
      rw [h1]
      rcases List.mem_cons.1 hy with rfl | hy
      · simp; left; omega
      · simp [k2 y hy hf]
    · cases c with
      | nil =>
        simp only [List.append_nil] at h1
        rw [List.nil_append] at h2
        have h2' : t.flatMap (fun x => List.replicate (f x) x) = [] ++ p :: a := by rw [List.nil_append]; exact h2.symm
        obtain ⟨l1, l2, rfl, k2, k3⟩ := ih (by simp) h2'
        refine ⟨x :: l1, l2, rfl, ?_, k3⟩
        intro y hy hf
        rcases List.mem_cons.1 hy with rfl | hy
        · rw [← h1, List.mem_replicate]; exact ⟨by omega, rfl⟩
        · have := k2 y hy hf; simp at this
      | cons z c =>
        rw [List.cons_append] at h2
        obtain ⟨rfl, ha⟩ := List.cons.inj h2
        have hpx : p = x := by
          have : p ∈ List.replicate (f x) x := by rw [h1]; simp
          exact (List.mem_replicate.1 this).2
        subst hpx
        refine ⟨[], t, rfl, by simp, ?_⟩
        intro y hy hf
        rw [ha]
        simp [hmem t y hy hf]

namespace Run
variable {R : Run N S U} (hok : R.pool.OK R.avail)
include hok

theorem jobProviders_flat {r : Requirement N U} {ps : List (Package N S U)}
    (h : R.pool.whatProvides r false = .ok ps) :
    ps = R.avail.flatMap (fun p => List.replicate (if r.matches p.version then p.provNames.count r.name else 0) p) := by
  rw [hok.names.whatProvides_eq] at h
  split at h
  · simp only [Bool.false_eq_true, if_false, Except.ok.injEq] at h
    subst h
    unfold providersIn
    rw [List.filter_flatMap]
    congr 1
    funext p
    rw [List.filter_replicate]
    split <;> simp_all
  · next hn =>
    cases h
    symm
    rw [List.flatMap_eq_nil_iff]
    intro p hp
    rw [List.replicate_eq_nil_iff]
    split
    · rw [List.count_eq_zero]
      exact fun k => hn ⟨p, hp, k⟩
    · rfl

/-- installed, as a set of packages -/
def isInst (R : Run N S U) (k : PKey N S U) : Prop := ∃ e ∈ R.installed, e.2.key = k

theorem mem_installed_iff (hinst : ∀ e ∈ R.installed, R.pool.packageId e.2 = .ok e.1) {p : Package N S U} {i : Nat}
    (hi : R.pool.packageId p = .ok i) : i ∈ dkeys R.installed ↔ R.isInst p.key := by
  unfold dkeys
  rw [List.mem_map]
  constructor
  · rintro ⟨e, he, rfl⟩
    exact ⟨e, he, hok.ids.packageId_inj (hinst e he) hi⟩
  · rintro ⟨e, he, hk⟩
    refine ⟨e, he, ?_⟩
    have := hinst e he
    rw [R.pool.packageId_congr hk, hi] at this
    cases this; rfl

theorem maxPkg_target (hinst : ∀ e ∈ R.installed, R.pool.packageId e.2 = .ok e.1) {r : Requirement N U}
    {ps : List (Package N S U)} (h : R.pool.whatProvides r false = .ok ps) {p : Package N S U}
    (hp : maxPkg (updateKey R.pool R.installed) ps = .ok p) : UpdateTarget R.avail R.isInst r p := by
  have hid : ∀ x ∈ ps, ∃ i, R.pool.packageId x = .ok i := fun x hx =>
    hok.ids.packageId_ok ⟨x, ((mem_jobProviders hok h x).1 hx).1, rfl⟩
  classical
  let K : Package N S U → Version U × Bool := fun x => (x.version, decide (R.isInst x.key))
  have hK : ∀ x ∈ ps, updateKey R.pool R.installed x = .ok (K x) := by
    intro x hx
    obtain ⟨i, hi⟩ := hid x hx
    unfold updateKey
    rw [hi]
    simp only [bind, Except.bind, K, Except.ok.injEq, Prod.mk.injEq, true_and, decide_eq_decide]
    exact mem_installed_iff hok hinst hi
  have hbelow : ∀ x y, keyLT (K x) (K y) = true ↔ Below R.isInst x y := by
    intro x y
    rw [keyLT_iff]
    simp [Below, K]
  obtain ⟨b, a, hs, hb, ha⟩ := maxPkg_split hK hp
  have hpb : p ∉ b := fun k => keyLT_irrefl _ (hb p k)
  have hpm : p ∈ ps := by rw [hs]; simp
  have hmeet := (mem_jobProviders hok h p).1 hpm
  have hflat := jobProviders_flat hok h
  rw [hs] at hflat
  obtain ⟨l1, l2, e, k1, k2⟩ := flat_split _ _ hpb hflat.symm
  have hpos : ∀ x, x ∈ R.avail → MeetsJob r x →
      0 < (if r.matches x.version then x.provNames.count r.name else 0) := by
    intro x hx hm
    have : x ∈ ps := (mem_jobProviders hok h x).2 ⟨hx, hm⟩
    rw [jobProviders_flat hok h, List.mem_flatMap] at this
    obtain ⟨y, -, hy⟩ := this
    rw [List.mem_replicate] at hy
    obtain ⟨h1, rfl⟩ := hy
    omega
  refine ⟨l1, l2, e, hmeet.2, ?_, ?_⟩
  · intro x hx hm
    exact (hbelow x p).1 (hb x (k1 x hx (hpos x (by rw [e]; simp [hx]) hm)))
  · intro x hx hm hbl
    exact ha x (k2 x hx (hpos x (by rw [e]; simp [hx]) hm)) ((hbelow p x).2 hbl)

end Run

/-- there is only one target -/
theorem updateTarget_unique {avail : List (Package N S U)} {inst : PKey N S U → Prop} {r : Requirement N U}
    {p q : Package N S U} (hp : UpdateTarget avail inst r p) (hq : UpdateTarget avail inst r q) : p = q := by
  obtain ⟨b1, a1, e1, m1, x1, y1⟩ := hp
  obtain ⟨b2, a2, e2, m2, x2, y2⟩ := hq
  rw [e1] at e2
  rcases List.append_eq_append_iff.1 e2 with ⟨c, h1, h2⟩ | ⟨c, h1, h2⟩
  · cases c with
    | nil => rw [List.nil_append] at h2; exact (List.cons.inj h2).1
    | cons z c =>
      rw [List.cons_append] at h2
      obtain ⟨rfl, h3⟩ := List.cons.inj h2
      exact absurd (x2 p (by rw [h1]; simp) m1) (y1 q (by rw [h3]; simp) m2)
  · cases c with
    | nil => rw [List.nil_append] at h2; exact (List.cons.inj h2).1.symm
    | cons z c =>
      rw [List.cons_append] at h2
      obtain ⟨rfl, h3⟩ := List.cons.inj h2
      exact absurd (x1 q (by rw [h1]; simp) m2) (y2 p (by rw [h3]; simp) m1)

end Verif.Rules
