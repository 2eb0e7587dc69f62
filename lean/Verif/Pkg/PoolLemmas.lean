import Verif.Pkg.Pool
import Mathlib.Data.List.Induction
/-
The pool after a sequence of additions.
-/
set_option linter.unusedSectionVars false
namespace Verif.Pkg
open Verif

variable {N S U : Type} [DecidableEq N] [DecidableEq S] [LinearOrder U] [Syntax S U]

/-- The names a package provides: its own and the declared ones. -/
def Package.provNames (p : Package N S U) : List N := p.name :: p.declaredProvides.map Prod.fst

omit [DecidableEq N] [DecidableEq S] [LinearOrder U] in
theorem Package.provNames_eq (p : Package N S U) : p.provides.map Prod.fst = p.provNames := rfl

/-- the last position (from 1) of a package with the given key -/
def lastId (k : PKey N S U) : List (Package N S U) → Option Nat
  | [] => none
  | p :: t => match lastId k t with
    | some i => some (i + 1)
    | none => if p.key = k then some 1 else none

theorem lastId_append (k : PKey N S U) (l : List (Package N S U)) (p : Package N S U) :
    lastId k (l ++ [p]) = if p.key = k then some (l.length + 1) else lastId k l := by
  induction l with
  | nil => simp [lastId]
  | cons q t ih =>
    simp only [List.cons_append, lastId, ih, List.length_cons]
    by_cases h : p.key = k
    · simp [h]
    · simp [h]

/-- the identifiers of the pool are those of the list `l` of packages in the order in which they were entered -/
structure Pool.IdInv (pool : Pool N S U) (l : List (Package N S U)) : Prop where
  next : pool.nextId = l.length + 1
  get : ∀ i, dget pool.idToPackage i = if i = 0 then none else l[i - 1]?
  ids : dkeys pool.idToPackage = List.range' 1 l.length
  pid : ∀ k, dget pool.packageToId k = lastId k l

theorem Pool.addProvides_ids (p : Package N S U) : ∀ (cs : List (CTuple N S)) (pool : Pool N S U),
    (addProvides p cs pool).1.idToPackage = pool.idToPackage ∧ (addProvides p cs pool).1.nextId = pool.nextId ∧
    (addProvides p cs pool).1.packageToId = pool.packageToId ∧ (addProvides p cs pool).1.modifiers = pool.modifiers
  | [], pool => ⟨rfl, rfl, rfl, rfl⟩
  | c :: cs, pool => by
    unfold addProvides
    split
    · exact ⟨rfl, rfl, rfl, rfl⟩
    · split
      · exact ⟨rfl, rfl, rfl, rfl⟩
      · exact addProvides_ids p cs _

theorem Pool.IdInv.empty (m : Option (Modifiers N)) : (Pool.empty m : Pool N S U).IdInv [] := by
  constructor <;> simp [Pool.empty, dget, dkeys, lastId]

theorem Pool.IdInv.add {pool : Pool N S U} {l : List (Package N S U)} (h : pool.IdInv l) (p : Package N S U) :
    (pool.addPackage p).1.IdInv (l ++ [p]) := by
  unfold addPackage
  obtain ⟨e1, e2, e3, -⟩ := addProvides_ids p p.provides
    { pool with
      nextId := pool.nextId + 1
      idToPackage := dset pool.idToPackage pool.nextId p
      packageToId := dset pool.packageToId p.key pool.nextId }
  constructor
  · rw [e2]; simp [h.next]
  · intro i
    rw [e1]
    simp only
    rw [dget_dset, h.next, h.get]
    by_cases hi : i = l.length + 1
    · subst hi
      simp
    · rw [if_neg (fun e => hi e.symm)]
      split
      · rfl
      · next h0 =>
        by_cases hlt : i - 1 < l.length
        · rw [List.getElem?_append_left hlt]
        · rw [List.getElem?_eq_none (by omega), List.getElem?_eq_none (by simp; omega)]
  · rw [e1]
    simp only
    rw [dkeys_dset, h.ids, h.next]
    have : l.length + 1 ∉ List.range' 1 l.length := by
      rw [List.mem_range'_1]; omega
    rw [if_neg this, List.length_append]
    simp only [List.length_cons, List.length_nil]
    rw [List.range'_concat]
    simp [Nat.add_comm]
  · intro k
    rw [e3]
    simp only
    rw [dget_dset, lastId_append, h.next, h.pid]

/-- after adding packages, possibly stopped by an exception: a prefix of them has been entered -/
theorem Pool.IdInv.addAll {pool : Pool N S U} {l : List (Package N S U)} (h : pool.IdInv l)
    (ps : List (Package N S U)) : ∃ done, done <+: ps ∧ (pool.addPackages ps).1.IdInv (l ++ done) ∧
      ((pool.addPackages ps).2 = none → done = ps) := by
  induction ps generalizing pool l with
  | nil => exact ⟨[], List.prefix_rfl, by simpa [Pool.addPackages] using h, fun _ => rfl⟩
  | cons p ps ih =>
    have h1 := h.add p
    cases hp : pool.addPackage p with
    | mk pool' r =>
      rw [hp] at h1
      cases r with
      | some e =>
        have e1 : pool.addPackages (p :: ps) = (pool', some e) := by simp only [Pool.addPackages, hp]
        exact ⟨[p], ⟨ps, rfl⟩, by rw [e1]; exact h1, by rw [e1]; simp⟩
      | none =>
        have e1 : pool.addPackages (p :: ps) = pool'.addPackages ps := by simp only [Pool.addPackages, hp]
        obtain ⟨done, g1, g2, g3⟩ := ih h1
        rw [e1]
        refine ⟨p :: done, ?_, ?_, ?_⟩
        · obtain ⟨t, rfl⟩ := g1
          exact ⟨t, rfl⟩
        · rw [List.append_assoc] at g2; exact g2
        · intro e; rw [g3 e]

/-- the packages listed under a name: each of them as often as it provides the name -/
def providersIn (l : List (Package N S U)) (n : N) : List (Package N S U) :=
  l.flatMap (fun p => List.replicate (p.provNames.count n) p)

theorem mem_providersIn (l : List (Package N S U)) (n : N) (p : Package N S U) :
    p ∈ providersIn l n ↔ p ∈ l ∧ n ∈ p.provNames := by
  unfold providersIn
  rw [List.mem_flatMap]
  constructor
  · rintro ⟨q, hq, hp⟩
    rw [List.mem_replicate] at hp
    obtain ⟨h1, rfl⟩ := hp
    refine ⟨hq, ?_⟩
    exact List.count_pos_iff.1 (Nat.pos_of_ne_zero h1)
  · rintro ⟨h1, h2⟩
    exact ⟨p, h1, List.mem_replicate.2 ⟨Nat.pos_iff_ne_zero.1 (List.count_pos_iff.2 h2), rfl⟩⟩

structure Pool.NameInv (pool : Pool N S U) (l : List (Package N S U)) : Prop where
  get : ∀ n, (dget pool.packagesByName n).getD [] = providersIn l n
  has : ∀ n, n ∈ dkeys pool.packagesByName ↔ ∃ p ∈ l, n ∈ p.provNames

theorem Pool.NameInv.empty (m : Option (Modifiers N)) : (Pool.empty m : Pool N S U).NameInv [] := by
  constructor <;> simp [Pool.empty, dget, dkeys, providersIn]

omit [DecidableEq S] in
theorem fromConstraints_name {cls : ReqClass} {t : CTuple N S} {r : Requirement N U}
    (h : fromConstraints cls t = .ok r) : r.name = t.1 ∧ r.cls = cls := by
  unfold fromConstraints at h
  split at h
  · simp at h
  · split at h
    · simp at h
    · cases h; exact ⟨rfl, rfl⟩

omit [DecidableEq S] in
theorem Pool.addProvides_names (p : Package N S U) : ∀ (cs : List (CTuple N S)) (pool : Pool N S U),
    (addProvides p cs pool).2 = none →
    (∀ n, (dget (addProvides p cs pool).1.packagesByName n).getD [] =
      (dget pool.packagesByName n).getD [] ++ List.replicate ((cs.map Prod.fst).count n) p) ∧
    (∀ n, n ∈ dkeys (addProvides p cs pool).1.packagesByName ↔
      n ∈ dkeys pool.packagesByName ∨ n ∈ cs.map Prod.fst)
  | [], pool, _ => by simp [addProvides]
  | c :: cs, pool, h => by
    unfold addProvides at h ⊢
    split at h
    · simp at h
    · next req hreq =>
      obtain ⟨hn, -⟩ := fromConstraints_name hreq
      split at h
      · simp at h
      · next hv =>
        obtain ⟨i1, i2⟩ := addProvides_names p cs _ h
        simp only [hv, if_false, Bool.false_eq_true]
        constructor
        · intro n
          rw [i1 n]
          simp only
          rw [dget_dset, List.map_cons, List.count_cons, hn]
          by_cases e : c.1 = n
          · subst e
            simp only [if_true, Option.getD_some, List.append_assoc, beq_self_eq_true]
            rw [List.replicate_succ]
            rfl
          · simp [e]
        · intro n
          rw [i2 n]
          simp only
          rw [dkeys_dset, List.map_cons, List.mem_cons, hn]
          split
          · next hm =>
            constructor
            · rintro (g | g)
              · exact Or.inl g
              · exact Or.inr (Or.inr g)
            · rintro (g | rfl | g)
              · exact Or.inl g
              · exact Or.inl hm
              · exact Or.inr g
          · rw [List.mem_append, List.mem_singleton, or_assoc]

theorem Pool.NameInv.add {pool : Pool N S U} {l : List (Package N S U)} (h : pool.NameInv l) {p : Package N S U}
    (hok : (pool.addPackage p).2 = none) : (pool.addPackage p).1.NameInv (l ++ [p]) := by
  unfold addPackage at hok ⊢
  obtain ⟨i1, i2⟩ := addProvides_names p p.provides _ hok
  constructor
  · intro n
    rw [i1 n]
    simp only
    rw [h.get, p.provNames_eq]
    simp [providersIn]
  · intro n
    rw [i2 n]
    simp only
    rw [h.has, p.provNames_eq]
    constructor
    · rintro (⟨q, hq, hn⟩ | hn)
      · exact ⟨q, by simp [hq], hn⟩
      · exact ⟨p, by simp, hn⟩
    · rintro ⟨q, hq, hn⟩
      rcases List.mem_append.1 hq with k | k
      · exact Or.inl ⟨q, k, hn⟩
      · simp at k; subst k; exact Or.inr hn

theorem Pool.NameInv.addAll {pool : Pool N S U} {l : List (Package N S U)} (h : pool.NameInv l)
    {ps : List (Package N S U)} (hok : (pool.addPackages ps).2 = none) : (pool.addPackages ps).1.NameInv (l ++ ps) := by
  induction ps generalizing pool l with
  | nil => simpa [Pool.addPackages] using h
  | cons p ps ih =>
    cases hp : pool.addPackage p with
    | mk pool' r =>
      cases r with
      | some e =>
        have e1 : pool.addPackages (p :: ps) = (pool', some e) := by simp only [Pool.addPackages, hp]
        rw [e1] at hok; simp at hok
      | none =>
        have e1 : pool.addPackages (p :: ps) = pool'.addPackages ps := by simp only [Pool.addPackages, hp]
        rw [e1] at hok ⊢
        have h1 := h.add (p := p) (by rw [hp])
        rw [hp] at h1
        have := ih h1 hok
        rw [List.append_assoc] at this
        exact this

theorem Pool.addPackages_modifiers (ps : List (Package N S U)) (pool : Pool N S U) :
    (pool.addPackages ps).1.modifiers = pool.modifiers := by
  induction ps generalizing pool with
  | nil => rfl
  | cons p ps ih =>
    have h1 : (pool.addPackage p).1.modifiers = pool.modifiers := (addProvides_ids p p.provides _).2.2.2
    cases hp : pool.addPackage p with
    | mk pool' r =>
      rw [hp] at h1
      cases r with
      | some e =>
        have e1 : pool.addPackages (p :: ps) = (pool', some e) := by simp only [Pool.addPackages, hp]
        rw [e1]; exact h1
      | none =>
        have e1 : pool.addPackages (p :: ps) = pool'.addPackages ps := by simp only [Pool.addPackages, hp]
        rw [e1, ih]; exact h1

/-- The pool contains the packages of `l`, entered in this order without an exception. -/
structure Pool.OK (pool : Pool N S U) (l : List (Package N S U)) : Prop where
  ids : pool.IdInv l
  names : pool.NameInv l

theorem Pool.OK.setModifiers {pool : Pool N S U} {l : List (Package N S U)} (h : pool.OK l)
    (m : Option (Modifiers N)) : ({ pool with modifiers := m } : Pool N S U).OK l :=
  ⟨⟨h.ids.next, h.ids.get, h.ids.ids, h.ids.pid⟩, ⟨h.names.get, h.names.has⟩⟩

theorem Pool.ok_addRepositories {N : Type} [LinearOrder N] (rs : List (Repository N S U)) :
    ∀ {pool : Pool N S U} {l : List (Package N S U)}, pool.OK l → (Pool.addRepositories rs pool).2 = none →
      (Pool.addRepositories rs pool).1.OK (l ++ rs.flatMap Repository.iter) := by
  induction rs with
  | nil => intro pool l h _; simpa [Pool.addRepositories] using h
  | cons r rs ih =>
    intro pool l h hok
    cases hp : pool.addPackages r.iter with
    | mk pool' e =>
      cases e with
      | some e =>
        have e1 : Pool.addRepositories (r :: rs) pool = (pool', some e) := by simp only [Pool.addRepositories, hp]
        rw [e1] at hok; simp at hok
      | none =>
        have e1 : Pool.addRepositories (r :: rs) pool = Pool.addRepositories rs pool' := by
          simp only [Pool.addRepositories, hp]
        rw [e1] at hok ⊢
        obtain ⟨done, -, g2, g3⟩ := h.ids.addAll r.iter
        rw [g3 (by rw [hp])] at g2
        have g4 := h.names.addAll (ps := r.iter) (by rw [hp])
        rw [hp] at g2 g4
        have := ih ⟨g2, g4⟩ hok
        rw [List.append_assoc] at this
        simpa using this

/-! ### consequences used by the rest of the model -/

theorem lastId_some {k : PKey N S U} {l : List (Package N S U)} {i : Nat} (h : lastId k l = some i) :
    i ≠ 0 ∧ ∃ p, l[i - 1]? = some p ∧ p.key = k := by
  induction l generalizing i with
  | nil => simp [lastId] at h
  | cons q t ih =>
    unfold lastId at h
    cases ht : lastId k t with
    | some j =>
      rw [ht] at h
      cases h
      obtain ⟨h0, p, hp, hk⟩ := ih ht
      refine ⟨by omega, p, ?_, hk⟩
      obtain ⟨j', rfl⟩ : ∃ j', j = j' + 1 := ⟨j - 1, by omega⟩
      simpa using hp
    | none =>
      rw [ht] at h
      simp only at h
      split at h
      · next e => cases h; exact ⟨by omega, q, rfl, e⟩
      · simp at h

theorem lastId_isSome {k : PKey N S U} {l : List (Package N S U)} : (lastId k l).isSome ↔ ∃ p ∈ l, p.key = k := by
  induction l with
  | nil => simp [lastId]
  | cons q t ih =>
    unfold lastId
    cases ht : lastId k t with
    | some j =>
      rw [ht] at ih
      simp only [Option.isSome_some, true_iff] at ih ⊢
      obtain ⟨p, hp, hk⟩ := ih
      exact ⟨p, List.mem_cons_of_mem _ hp, hk⟩
    | none =>
      rw [ht] at ih
      simp only [Option.isSome_none, Bool.false_eq_true, false_iff] at ih
      by_cases hq : q.key = k
      · simp [hq]
      · simp only [hq, if_false, Option.isSome_none, Bool.false_eq_true, false_iff]
        rintro ⟨p, hp, hk⟩
        rcases List.mem_cons.1 hp with rfl | hp
        · exact hq hk
        · exact ih ⟨p, hp, hk⟩

theorem Pool.IdInv.packageId_ok {pool : Pool N S U} {l : List (Package N S U)} (h : pool.IdInv l) {p : Package N S U}
    (hp : ∃ q ∈ l, q.key = p.key) : ∃ i, pool.packageId p = .ok i := by
  have := lastId_isSome.2 hp
  obtain ⟨i, hi⟩ := Option.isSome_iff_exists.1 this
  exact ⟨i, by unfold packageId; rw [h.pid, hi]⟩

theorem Pool.IdInv.packageId_spec {pool : Pool N S U} {l : List (Package N S U)} (h : pool.IdInv l)
    {p : Package N S U} {i : Nat} (hp : pool.packageId p = .ok i) :
    1 ≤ i ∧ i ≤ l.length ∧ ∃ q, pool.idToPkg i = .ok q ∧ q.key = p.key ∧ q ∈ l ∧ pool.packageId q = .ok i := by
  have hp' := hp
  unfold packageId at hp
  rw [h.pid] at hp
  cases hl : lastId p.key l with
  | none => rw [hl] at hp; simp at hp
  | some j =>
    rw [hl] at hp
    simp only [Except.ok.injEq] at hp
    subst hp
    obtain ⟨h0, q, hq, hk⟩ := lastId_some hl
    have hlt : j - 1 < l.length := by
      apply Classical.byContradiction
      intro hn
      rw [List.getElem?_eq_none (by omega)] at hq
      simp at hq
    refine ⟨by omega, by omega, q, ?_, hk, List.mem_of_getElem? hq, ?_⟩
    · unfold idToPkg
      rw [h.get, if_neg h0, hq]
    · unfold packageId at hp' ⊢
      rw [hk]; exact hp'

theorem Pool.IdInv.idToPkg_spec {pool : Pool N S U} {l : List (Package N S U)} (h : pool.IdInv l) (i : Nat)
    (p : Package N S U) : pool.idToPkg i = .ok p ↔ i ≠ 0 ∧ l[i - 1]? = some p := by
  unfold idToPkg
  rw [h.get]
  by_cases h0 : i = 0
  · simp [h0]
  · simp only [h0, if_false, ne_eq, not_false_eq_true, true_and]
    cases l[i - 1]? <;> simp

/-- packages have the same identifier exactly when they are equal -/
theorem Pool.IdInv.packageId_inj {pool : Pool N S U} {l : List (Package N S U)} (h : pool.IdInv l)
    {p q : Package N S U} {i : Nat} (hp : pool.packageId p = .ok i) (hq : pool.packageId q = .ok i) :
    p.key = q.key := by
  obtain ⟨-, -, p', e1, k1, -⟩ := h.packageId_spec hp
  obtain ⟨-, -, q', e2, k2, -⟩ := h.packageId_spec hq
  rw [e1] at e2
  cases e2
  rw [← k1, ← k2]

theorem Pool.packageId_congr (pool : Pool N S U) {p q : Package N S U} (h : p.key = q.key) :
    pool.packageId p = pool.packageId q := by unfold packageId; rw [h]

/-- `what_provides` in terms of the packages of the pool -/
theorem Pool.NameInv.whatProvides_eq {pool : Pool N S U} {l : List (Package N S U)} (h : pool.NameInv l)
    (r : Requirement N U) (b : Bool) : pool.whatProvides r b =
      if ∃ p ∈ l, r.name ∈ p.provNames then
        match (if b then pool.modifyRequirement r else .ok r) with
        | .error e => .error e
        | .ok r' => .ok ((providersIn l r'.name).filter (fun p => r'.matches p.version))
      else .ok [] := by
  unfold whatProvides
  by_cases hn : ∃ p ∈ l, r.name ∈ p.provNames
  · obtain ⟨v, hv⟩ := (mem_dkeys_iff _ _).1 ((h.has _).2 hn)
    rw [hv, if_pos hn]
    simp only
    cases (if b = true then pool.modifyRequirement r else Except.ok r) with
    | error e => rfl
    | ok r' => simp only [h.get]
  · have : dget pool.packagesByName r.name = none := by
      rw [dget_none_iff]; exact fun hm => hn ((h.has _).1 hm)
    rw [this, if_neg hn]

end Verif.Pkg
