import Verif.Props.History
import Verif.Props.Pools
/-
C86: a repository that the pool refuses.
-/
set_option linter.unusedSectionVars false
namespace Verif.Props
open Verif Verif.Pkg Verif.Solve

variable {N S U : Type} [LinearOrder N] [DecidableEq S] [LinearOrder U] [Syntax S U]

/-! ### Proofs -/

/-- `pool'` is `pool` with packages of `ps` added here and there -/
structure Grown (ps : List (Package N S U)) (pool pool' : Pool N S U) : Prop where
  modifiers : pool'.modifiers = pool.modifiers
  names : ∀ n, ∃ extra, (∀ p ∈ extra, p ∈ ps ∧ Provides p n) ∧
    (dget pool'.packagesByName n).getD [] = (dget pool.packagesByName n).getD [] ++ extra ∧
    (extra = [] → dget pool'.packagesByName n = dget pool.packagesByName n)
  ids : ∀ k, (∀ p ∈ ps, p.key ≠ k) → dget pool'.packageToId k = dget pool.packageToId k

theorem Grown.refl (ps : List (Package N S U)) (pool : Pool N S U) : Grown ps pool pool :=
  ⟨rfl, fun _ => ⟨[], by simp, by simp, fun _ => rfl⟩, fun _ _ => rfl⟩

theorem Grown.trans {ps : List (Package N S U)} {a b c : Pool N S U} (h : Grown ps a b) (h' : Grown ps b c) : Grown ps a c := by
  refine ⟨h'.modifiers.trans h.modifiers, ?_, fun k hk => (h'.ids k hk).trans (h.ids k hk)⟩
  intro n
  obtain ⟨e1, h1, h2, h3⟩ := h.names n
  obtain ⟨e2, h4, h5, h6⟩ := h'.names n
  refine ⟨e1 ++ e2, ?_, by rw [h5, h2, List.append_assoc], ?_⟩
  · intro p hp
    rcases List.mem_append.1 hp with hp | hp
    · exact h1 p hp
    · exact h4 p hp
  · intro he
    rw [List.append_eq_nil_iff] at he
    rw [h6 he.2, h3 he.1]

theorem Grown.mono {ps ps' : List (Package N S U)} (hs : ∀ p ∈ ps, p ∈ ps') {a b : Pool N S U} (h : Grown ps a b) : Grown ps' a b :=
  ⟨h.modifiers, fun n => by
    obtain ⟨e, h1, h2⟩ := h.names n
    exact ⟨e, fun p hp => ⟨hs p (h1 p hp).1, (h1 p hp).2⟩, h2⟩, fun k hk => h.ids k (fun p hp => hk p (hs p hp))⟩

theorem addProvides_grown (p : Package N S U) : ∀ (cs : List (CTuple N S)) (pool : Pool N S U),
    (∀ t ∈ cs, Provides p t.1) → Grown [p] pool (Pool.addProvides p cs pool).1
  | [], pool, _ => Grown.refl _ _
  | c :: cs, pool, h => by
    unfold Pool.addProvides
    split
    · exact Grown.refl _ _
    · next req hreq =>
      obtain ⟨hn, -⟩ := fromConstraints_name hreq
      split
      · exact Grown.refl _ _
      · refine Grown.trans ?_ (addProvides_grown p cs _ (fun t ht => h t (List.mem_cons_of_mem _ ht)))
        refine ⟨rfl, ?_, fun _ _ => rfl⟩
        intro n
        by_cases e : req.name = n
        · subst e
          refine ⟨[p], ?_, ?_, by simp⟩
          · intro x hx
            rw [List.mem_singleton] at hx
            subst hx
            exact ⟨by simp, by rw [hn]; exact h c (by simp)⟩
          · simp only [dget_dset, if_true, Option.getD_some]
        · refine ⟨[], by simp, ?_, ?_⟩ <;> simp only [dget_dset, if_neg e, List.append_nil, implies_true]

theorem addPackage_grown (p : Package N S U) (pool : Pool N S U) : Grown [p] pool (pool.addPackage p).1 := by
  unfold Pool.addPackage
  refine Grown.trans ?_ (addProvides_grown p p.provides _ ?_)
  · refine ⟨rfl, fun n => ⟨[], by simp, by simp, fun _ => rfl⟩, ?_⟩
    intro k hk
    simp only [dget_dset, if_neg (hk p (by simp))]
  · intro t ht
    rw [provides_iff, ← Package.provNames_eq]
    exact List.mem_map_of_mem ht

theorem addPackages_grown : ∀ (ps : List (Package N S U)) (pool : Pool N S U), Grown ps pool (pool.addPackages ps).1
  | [], pool => Grown.refl _ _
  | p :: ps, pool => by
    have h1 := (addPackage_grown p pool).mono (ps' := p :: ps) (by simp)
    unfold Pool.addPackages
    cases hp : pool.addPackage p with
    | mk pool' r =>
      rw [hp] at h1
      cases r with
      | some e => exact h1
      | none => exact h1.trans ((addPackages_grown ps pool').mono (fun x hx => List.mem_cons_of_mem _ hx))

theorem modified_name {pool : Pool N S U} {b : Bool} {q r : Requirement N U}
    (hr : (if b = true then pool.modifyRequirement q else .ok q) = .ok r) : r.name = q.name :=
  looked_name ((looked_iff pool b q r).1 hr)

theorem Grown.whatProvides {ps : List (Package N S U)} {pool pool' : Pool N S U} (h : Grown ps pool pool')
    {q : Requirement N U} {b : Bool} {l l' : List (Package N S U)} (hl : pool.whatProvides q b = .ok l)
    (hl' : pool'.whatProvides q b = .ok l') : ∃ extra, l' = l ++ extra ∧ ∀ p ∈ extra, p ∈ ps ∧ Provides p q.name := by
  obtain ⟨e, h1, h2, h3⟩ := h.names q.name
  have hm : pool'.modifyRequirement q = pool.modifyRequirement q := by
    unfold Pool.modifyRequirement
    rw [h.modifiers]
  unfold Pool.whatProvides at hl hl'
  rw [hm] at hl'
  cases hx' : dget pool'.packagesByName q.name with
  | none =>
    rw [hx'] at hl' h2
    simp only [Except.ok.injEq] at hl'
    simp only [Option.getD_none] at h2
    rw [List.nil_eq, List.append_eq_nil_iff] at h2
    rw [h3 h2.2] at hx'
    rw [hx'] at hl
    simp only [Except.ok.injEq] at hl
    exact ⟨[], by rw [← hl, ← hl']; rfl, by simp⟩
  | some x' =>
    rw [hx'] at hl'
    dsimp only at hl'
    cases hr : (if b = true then pool.modifyRequirement q else .ok q) with
    | error e => rw [hr] at hl'; simp at hl'
    | ok r =>
      have hname := modified_name hr
      rw [hr] at hl'
      simp only [Except.ok.injEq, hname, h2, List.filter_append] at hl'
      have hl2 : l = ((dget pool.packagesByName q.name).getD []).filter (fun p => r.matches p.version) := by
        cases hx : dget pool.packagesByName q.name with
        | none => rw [hx] at hl; simp only [Except.ok.injEq] at hl; rw [← hl]; rfl
        | some x =>
          rw [hx] at hl
          dsimp only at hl
          rw [hr] at hl
          simp only [Except.ok.injEq, hname, hx] at hl
          exact hl.symm
      refine ⟨e.filter (fun p => r.matches p.version), by rw [← hl', hl2], ?_⟩
      intro p hp
      exact h1 p (List.mem_filter.1 hp).1

theorem Grown.whatProvides_same {ps : List (Package N S U)} {pool pool' : Pool N S U} (h : Grown ps pool pool')
    {q : Requirement N U} (hq : ∀ p ∈ ps, ¬ Provides p q.name) (b : Bool) :
    pool'.whatProvides q b = pool.whatProvides q b := by
  have hd : dget pool'.packagesByName q.name = dget pool.packagesByName q.name := by
    obtain ⟨e, h1, -, h3⟩ := h.names q.name
    refine h3 ?_
    rw [List.eq_nil_iff_forall_not_mem]
    exact fun p hp => hq p (h1 p hp).1 (h1 p hp).2
  have hm : pool'.modifyRequirement q = pool.modifyRequirement q := by
    unfold Pool.modifyRequirement
    rw [h.modifiers]
  unfold Pool.whatProvides
  rw [hd, hm]
  cases hx : dget pool.packagesByName q.name with
  | none => rfl
  | some l0 =>
    dsimp only
    cases hr : (if b = true then pool.modifyRequirement q else .ok q) with
    | error e => rfl
    | ok r =>
      have hname := modified_name hr
      simp only [hname, hd]

/-- where the addition of packages stops -/
theorem addPackages_stops : ∀ (ps : List (Package N S U)) (pool : Pool N S U) {pool' : Pool N S U} {e : PErr},
    pool.addPackages ps = (pool', some e) → ∃ done p rest pool1, ps = done ++ p :: rest ∧
      pool.addPackages done = (pool1, none) ∧ pool1.addPackage p = (pool', some e)
  | [], pool, pool', e, h => by simp [Pool.addPackages] at h
  | p :: ps, pool, pool', e, h => by
    unfold Pool.addPackages at h
    cases hp : pool.addPackage p with
    | mk pool1 r =>
      rw [hp] at h
      cases r with
      | some e' =>
        cases h
        exact ⟨[], p, ps, pool, rfl, rfl, hp⟩
      | none =>
        obtain ⟨done, p', rest, pool2, h1, h2, h3⟩ := addPackages_stops ps pool1 h
        refine ⟨p :: done, p', rest, pool2, by rw [h1]; rfl, ?_, h3⟩
        unfold Pool.addPackages
        rw [hp]
        exact h2

/-- the names under which the packages are listed, and their ids -/
theorem addPackages_known : ∀ (ps : List (Package N S U)) (pool : Pool N S U) (k : PKey N S U),
    ((∃ p ∈ ps, p.key = k) ∨ (dget pool.packageToId k).isSome) → (pool.addPackages ps).2 = none →
    (dget (pool.addPackages ps).1.packageToId k).isSome
  | [], pool, k, h, _ => by simpa [Pool.addPackages] using h
  | p :: ps, pool, k, h, hn => by
    have h1 : ((∃ p ∈ ps, p.key = k) ∨ (dget (pool.addPackage p).1.packageToId k).isSome) := by
      unfold Pool.addPackage
      rw [(Pool.addProvides_ids p p.provides _).2.2.1]
      simp only [dget_dset]
      by_cases e : p.key = k
      · exact Or.inr (by rw [if_pos e]; rfl)
      · rw [if_neg e]
        rcases h with ⟨q, hq, hk⟩ | h
        · rcases List.mem_cons.1 hq with rfl | hq
          · exact absurd hk e
          · exact Or.inl ⟨q, hq, hk⟩
        · exact Or.inr h
    unfold Pool.addPackages at hn ⊢
    cases hp : pool.addPackage p with
    | mk pool1 r =>
      rw [hp] at h1 hn
      cases r with
      | some e' => simp at hn
      | none => exact addPackages_known ps pool1 k h1 hn

/-! ### C86 -/

/-- C86 (partial): a repository that is refused is not added as a whole: the packages before the first one that declares to provide
something with a version (or something that cannot be parsed) stay in the pool, this one has an id, and those behind it are as
before. What is missing: it should leave the pool as it was, which fails, see `C86_violated`. -/
theorem C86_where_it_stops_partial {pool pool' : Pool N S U} {r : Repository N S U} {e : PErr}
    (h : pool.addPackages r.iter = (pool', some e)) :
    ∃ done p rest, r.iter = done ++ p :: rest ∧ (∀ q ∈ done, ∀ t ∈ q.declaredProvides, Unversioned (U := U) t) ∧
      (∃ t ∈ p.declaredProvides, ¬ Unversioned (U := U) t) ∧
      (∀ q ∈ done ++ [p], ∃ i, pool'.packageId q = .ok i) ∧
      (∀ q, (∀ x ∈ done ++ [p], x.key ≠ q.key) → pool'.packageId q = pool.packageId q) ∧
      ∀ (q : Requirement N U) (b : Bool) l l', pool.whatProvides q b = .ok l → pool'.whatProvides q b = .ok l' →
        ∃ extra, l' = l ++ extra ∧ ∀ x ∈ extra, x ∈ done ++ [p] ∧ Provides x q.name := by
  obtain ⟨done, p, rest, pool1, h1, h2, h3⟩ := addPackages_stops _ _ h
  have hg1 : Grown (done ++ [p]) pool pool1 := by
    have := addPackages_grown done pool
    rw [h2] at this
    exact this.mono (fun x hx => List.mem_append_left _ hx)
  have hg2 : Grown (done ++ [p]) pool1 pool' := by
    have := addPackage_grown p pool1
    rw [h3] at this
    exact this.mono (fun x hx => List.mem_append_right _ hx)
  have hg := hg1.trans hg2
  refine ⟨done, p, rest, h1, ?_, ?_, ?_, ?_, fun q b l l' => hg.whatProvides⟩
  · exact (addPackages_ok_iff done pool).1 (by rw [h2])
  · by_contra hn
    have := (addPackages_ok_iff [p] pool1).2 (by
      intro q hq t ht
      rw [List.mem_singleton] at hq
      subst hq
      by_contra hu
      exact hn ⟨t, ht, hu⟩)
    simp [Pool.addPackages, h3] at this
  · intro q hq
    have hk : (dget pool'.packageToId q.key).isSome := by
      have h4 : pool'.packageToId = dset pool1.packageToId p.key pool1.nextId := by
        have := (Pool.addProvides_ids p p.provides
          { pool1 with
            nextId := pool1.nextId + 1
            idToPackage := dset pool1.idToPackage pool1.nextId p
            packageToId := dset pool1.packageToId p.key pool1.nextId }).2.2.1
        unfold Pool.addPackage at h3
        rw [h3] at this
        exact this
      rw [h4, dget_dset]
      split
      · rfl
      · next hne =>
        rcases List.mem_append.1 hq with hq | hq
        · have := addPackages_known done pool q.key (Or.inl ⟨q, hq, rfl⟩) (by rw [h2])
          rw [h2] at this
          exact this
        · rw [List.mem_singleton] at hq
          exact absurd (by rw [hq]) hne
    obtain ⟨i, hi⟩ := Option.isSome_iff_exists.1 hk
    exact ⟨i, by unfold Pool.packageId; rw [hi]⟩
  · intro q hq
    unfold Pool.packageId
    rw [hg.ids q.key hq]

/-- C86 (partial): whether the repository is refused or not, requirements for names that none of its packages provides are answered
as before. -/
theorem C86_other_names_partial (pool : Pool N S U) (r : Repository N S U) (q : Requirement N U) (b : Bool)
    (hq : ∀ p ∈ r.iter, ¬ Provides p q.name) : (pool.addPackages r.iter).1.whatProvides q b = pool.whatProvides q b :=
  (addPackages_grown r.iter pool).whatProvides_same hq b

/-- C86 (partial): and packages that are not in it keep their ids. -/
theorem C86_other_ids_partial (pool : Pool N S U) (r : Repository N S U) (p : Package N S U) (hp : ∀ x ∈ r.iter, x.key ≠ p.key) :
    (pool.addPackages r.iter).1.packageId p = pool.packageId p := by
  unfold Pool.packageId
  rw [(addPackages_grown r.iter pool).ids p.key hp]

/-! ### concrete cases -/
namespace RefusedExample
open Verif.Pkg.Example Verif.Solve.Example SolveExample

/-- 7-1, and 8-1 which declares to provide 2 in a version -/
def refused : Repository Nat Str Nat := Repository.ofList [pkg 5 7 1, pkg 5 8 1 [] [] [depc 2 (.geq (v 1))], pkg 5 9 1]

example : ((solver inst remote).pool.addPackages refused.iter).2 = some .invalidConstraint := by decide +kernel

def answers : List (Answer Nat Str Nat) → List (Option (Option (List (Op Nat Str Nat)) ⊕ PErr))
  | [] => []
  | .none :: l => none :: answers l
  | .solved (.ok t) :: l => some (.inl (some t.operations)) :: answers l
  | .solved (.error (.pkg e)) :: l => some (.inr e) :: answers l
  | .solved (.error _) :: l => some (.inl none) :: answers l
  | .raised e :: l => some (.inr e) :: answers l

/-- C86 fails: `add_repository` raises, and yet the first package of the repository is installed afterwards, which was not
possible before. -/
theorem C86_violated :
    answers (runEvents [.solve insertionOrder (request [install (req 7)]), .addRepository refused,
        .solve insertionOrder (request [install (req 7)]), .solve insertionOrder (request [install (req 9)])] (solver inst remote)).2 =
      [some (.inr .noPackageFound), some (.inr .invalidConstraint), some (.inl (some [.install (pkg 5 7 1)])),
        some (.inr .noPackageFound)] := by decide +kernel

/-- the names 1 to 5 are answered as before -/
example (q : Requirement Nat Nat) (b : Bool) (h : q.name < 7) (h' : q.name ≠ 2) :
    ((solver inst remote).pool.addPackages refused.iter).1.whatProvides q b = (solver inst remote).pool.whatProvides q b := by
  refine C86_other_names_partial _ _ _ _ ?_
  have : ∀ p ∈ refused.iter, ∀ n ∈ p.provNames, n = 2 ∨ 7 ≤ n := by decide +kernel
  intro p hp hn
  rw [provides_iff] at hn
  rcases this p hp _ hn with h1 | h1
  · exact h' h1
  · omega

end RefusedExample

end Verif.Props
